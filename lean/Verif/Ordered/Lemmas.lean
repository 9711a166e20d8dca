import Verif.Ordered.Model
import Verif.Nearest.Lemmas

set_option linter.unusedSectionVars false

namespace ArborX.Ordered

open ArborX.Heap (StrictWeak IsHeap)
open ArborX.Traversal (scan)
open ArborX.Nearest (layout_rope layout_children layout_leaf isNode)

variable {α V D : Type} [LinearOrder D]

lemma cmp_sw : StrictWeak (cmp (D := D)) :=
  ⟨fun x y h => by simp [cmp] at *; exact h.le,
   fun x y z h1 h2 => by simp [cmp] at *; exact h1.trans h2⟩

variable [SemilatticeSup V] {q : Query α V D} {mem : Mem α V} {value : ℕ → α} {vol : α → V}

/-- distance of the root of a subtree -/
def distT (q : Query α V D) (value : ℕ → α) (vol : α → V) : BTree → D
  | .leaf i => q.dl (value i)
  | .node a b => q.dv ((BTree.node a b).vol (fun i => vol (value i)))

/-- a volume is never farther than what it contains -/
structure Admissible (q : Query α V D) (vol : α → V) : Prop where
  leaf : ∀ a v, vol a ≤ v → q.dv v ≤ q.dl a
  node : ∀ u v, u ≤ v → q.dv v ≤ q.dv u

lemma layout_dist {T : BTree} {id : ℕ} {rope : Option ℕ} (h : Layout mem value vol T id rope) :
    distance mem q id = some (distT q value vol T) := by
  cases T with
  | leaf i => obtain ⟨rfl, hlt, hl⟩ := h; simp [distance, hlt, hl, distT]
  | node a b =>
    obtain ⟨ia, ib, hsz, hn, -, -⟩ := h
    simp [distance, hn, Nat.not_lt.mpr hsz, distT]

lemma distT_left (had : Admissible q vol) (a b : BTree) :
    distT q value vol (.node a b) ≤ distT q value vol a := by
  cases a with
  | leaf i => exact had.leaf _ _ le_sup_left
  | node c d => exact had.node _ _ le_sup_left

lemma distT_right (had : Admissible q vol) (a b : BTree) :
    distT q value vol (.node a b) ≤ distT q value vol b := by
  cases b with
  | leaf i => exact had.leaf _ _ le_sup_right
  | node c d => exact had.node _ _ le_sup_right

lemma distT_le (had : Admissible q vol) (T : BTree) {i : ℕ} (hi : i ∈ T.leaves) :
    distT q value vol T ≤ q.dl (value i) := by
  cases T with
  | leaf j => simp [BTree.leaves] at hi; subst hi; exact le_rfl
  | node a b => exact had.leaf _ _ (Traversal.BTree.le_vol (fun i => vol (value i)) _ _ hi)

/-- heap entry of a pending subtree -/
def ent (q : Query α V D) (value : ℕ → α) (vol : α → V) (x : ℕ × BTree) : ℕ × D :=
  (x.1, distT q value vol x.2)

/-- leaves of the pending subtrees -/
def leavesL (L : List (ℕ × BTree)) : List ℕ := L.flatMap (fun x => x.2.leaves)

/-- number of nodes of the pending subtrees -/
def sizeL (L : List (ℕ × BTree)) : ℕ := (L.map (fun x => x.2.size)).sum

/-- Invariant: current subtree `T0` at `id0`, pending subtrees `L`. -/
structure Inv (mem : Mem α V) (q : Query α V D) (value : ℕ → α) (vol : α → V)
    (id0 : ℕ) (T0 : BTree) (L : List (ℕ × BTree)) (heap : List (ℕ × D)) : Prop where
  isHeap : IsHeap cmp heap heap.length
  perm : heap.Perm (L.map (ent q value vol))
  cur : ∃ rope, Layout mem value vol T0 id0 rope
  lay : ∀ x ∈ L, ∃ rope, Layout mem value vol x.2 x.1 rope
  fin : ∀ x ∈ L, distT q value vol x.2 < q.inf
  min : ∀ x ∈ L, distT q value vol T0 ≤ distT q value vol x.2
  cfin : L ≠ [] → distT q value vol T0 < q.inf

/-- What remains to be called: sorted finite leaves, then at most one other. -/
def Spec (q : Query α V D) (value : ℕ → α) (lo : D) (all : List ℕ) (out : List α) : Prop :=
  ∃ fin extra dropped : List ℕ, out = (fin ++ extra).map value ∧
    (fin ++ extra ++ dropped).Perm all ∧
    fin.Pairwise (fun i j => q.dl (value i) ≤ q.dl (value j)) ∧
    (∀ i ∈ fin, q.dl (value i) < q.inf ∧ lo ≤ q.dl (value i)) ∧
    extra.length ≤ 1 ∧ (∀ i ∈ extra, ¬ q.dl (value i) < q.inf) ∧
    (∀ i ∈ dropped, ¬ q.dl (value i) < q.inf)

lemma Spec.weaken {lo lo' : D} {all all' dr : List ℕ} {out : List α} (h : Spec q value lo all out)
    (hlo : lo' ≤ lo) (hp : (all ++ dr).Perm all') (hd : ∀ i ∈ dr, ¬ q.dl (value i) < q.inf) :
    Spec q value lo' all' out := by
  obtain ⟨f, e, d, h1, h2, h3, h4, h5, h6, h7⟩ := h
  refine ⟨f, e, d ++ dr, h1, ?_, h3, fun i hi => ⟨(h4 i hi).1, hlo.trans (h4 i hi).2⟩, h5, h6, ?_⟩
  · rw [← List.append_assoc]
    exact (h2.append_right dr).trans hp
  · intro i hi
    rcases List.mem_append.mp hi with hi | hi
    · exact h7 i hi
    · exact hd i hi

/-- the popped entry is a closest pending subtree -/
lemma pop_pending {heap : List (ℕ × D)} {L : List (ℕ × BTree)} (hh : IsHeap cmp heap heap.length)
    (hp : heap.Perm (L.map (ent q value vol))) (hne : L ≠ []) :
    ∃ x L' heap', Heap.top heap = some (ent q value vol x) ∧ Heap.pop cmp heap = some heap' ∧
      L.Perm (x :: L') ∧ IsHeap cmp heap' heap'.length ∧ heap'.Perm (L'.map (ent q value vol)) ∧
      ∀ y ∈ L, distT q value vol x.2 ≤ distT q value vol y.2 := by
  have hne' : heap ≠ [] := by
    rintro rfl
    have := hp.length_eq
    simp at this
    exact hne (List.length_eq_zero_iff.mp this.symm)
  obtain ⟨t, r, t1, t2, t3, t4, t5⟩ := Heap.pop_correct cmp_sw hh hne'
  have hmem : t ∈ L.map (ent q value vol) :=
    (hp.mem_iff.mp (List.mem_of_getElem? (show heap[0]? = some t from t1)))
  obtain ⟨x, hx, rfl⟩ := List.mem_map.mp hmem
  obtain ⟨l1, l2, hl⟩ := List.append_of_mem hx
  have hL : L.Perm (x :: (l1 ++ l2)) := by rw [hl]; exact List.perm_middle
  refine ⟨x, l1 ++ l2, r, t1, t3, hL, t4, ?_, ?_⟩
  · have : (ent q value vol x :: r).Perm (ent q value vol x :: (l1 ++ l2).map (ent q value vol)) :=
      t5.trans (hp.trans (hL.map _))
    exact (List.perm_cons _).mp this
  · intro y hy
    have := t2 (ent q value vol y) (hp.mem_iff.mpr (List.mem_map_of_mem hy))
    simpa [cmp, ent] using this

lemma top_none {heap : List (ℕ × D)} {L : List (ℕ × BTree)}
    (hp : heap.Perm (L.map (ent q value vol))) (hL : L = []) : Heap.top heap = none := by
  subst hL
  have : heap = [] := List.length_eq_zero_iff.mp (by simpa using hp.length_eq)
  subst this; rfl

/-- pending list after `pushFinite` -/
def addFin (q : Query α V D) (value : ℕ → α) (vol : α → V) (L : List (ℕ × BTree)) (x : ℕ × BTree) :
    List (ℕ × BTree) := if distT q value vol x.2 < q.inf then x :: L else L

/-- leaves given up by `pushFinite` -/
def lostFin (q : Query α V D) (value : ℕ → α) (vol : α → V) (x : ℕ × BTree) : List ℕ :=
  if distT q value vol x.2 < q.inf then [] else x.2.leaves

lemma pushFinite_ok {heap : List (ℕ × D)} {L : List (ℕ × BTree)} (x : ℕ × BTree)
    (hh : IsHeap cmp heap heap.length) (hp : heap.Perm (L.map (ent q value vol)))
    (hc : (addFin q value vol L x).length ≤ q.cap) :
    ∃ heap', pushFinite q heap (ent q value vol x) = some heap' ∧ IsHeap cmp heap' heap'.length ∧
      heap'.Perm ((addFin q value vol L x).map (ent q value vol)) := by
  unfold pushFinite addFin at *
  by_cases h : distT q value vol x.2 < q.inf
  · rw [if_pos h] at hc ⊢
    rw [if_pos (show (ent q value vol x).2 < q.inf from h)]
    have hl : heap.length = L.length := by simpa using hp.length_eq
    obtain ⟨r, r1, r2, r3⟩ := Heap.push_correct cmp_sw (cap := q.cap) (ent q value vol x) hh
      (by simp at hc; omega)
    exact ⟨r, r1, r2, r3.trans (by simpa using hp)⟩
  · rw [if_neg h] at hc ⊢
    rw [if_neg (show ¬ (ent q value vol x).2 < q.inf from h)]
    exact ⟨heap, rfl, hh, hp⟩

lemma addFin_leaves (L : List (ℕ × BTree)) (x : ℕ × BTree) :
    (leavesL (addFin q value vol L x) ++ lostFin q value vol x).Perm (x.2.leaves ++ leavesL L) := by
  unfold addFin lostFin
  split_ifs with h
  · simp [leavesL]
  · exact List.perm_append_comm

lemma lostFin_inf (had : Admissible q vol) (x : ℕ × BTree) :
    ∀ i ∈ lostFin q value vol x, ¬ q.dl (value i) < q.inf := by
  intro i hi
  unfold lostFin at hi
  split_ifs at hi with h
  · simp at hi
  · intro hc; exact h (lt_of_le_of_lt (distT_le had _ hi) hc)

lemma mem_addFin {L : List (ℕ × BTree)} {x y : ℕ × BTree} (h : y ∈ addFin q value vol L x) :
    (y = x ∧ distT q value vol x.2 < q.inf) ∨ y ∈ L := by
  unfold addFin at h
  split_ifs at h with hx
  · rcases List.mem_cons.mp h with h | h
    · exact .inl ⟨h, hx⟩
    · exact .inr h
  · exact .inr h

lemma leaves_pos (T : BTree) : 1 ≤ T.leaves.length := by
  induction T with
  | leaf i => simp [BTree.leaves]
  | node a b iha ihb => simp [BTree.leaves]; omega

lemma length_le_leavesL (L : List (ℕ × BTree)) : L.length ≤ (leavesL L).length := by
  induction L with
  | nil => simp [leavesL]
  | cons x L ih =>
    simp only [leavesL, List.flatMap_cons, List.length_append, List.length_cons] at *
    have := leaves_pos x.2
    omega

lemma sizeL_addFin (L : List (ℕ × BTree)) (x : ℕ × BTree) :
    sizeL (addFin q value vol L x) ≤ x.2.size + sizeL L := by
  unfold addFin sizeL
  split_ifs <;> simp

lemma leavesL_addFin_length (L : List (ℕ × BTree)) (x : ℕ × BTree) :
    (leavesL (addFin q value vol L x)).length ≤ x.2.leaves.length + (leavesL L).length := by
  unfold addFin leavesL
  split_ifs <;> simp

lemma sizeL_perm {L L' : List (ℕ × BTree)} (h : L.Perm L') : sizeL L = sizeL L' := by
  induction h with
  | nil => rfl
  | cons x _ ih => simp only [sizeL, List.map_cons, List.sum_cons] at *; omega
  | swap x y l => simp only [sizeL, List.map_cons, List.sum_cons]; omega
  | trans _ _ ih1 ih2 => exact ih1.trans ih2

lemma leavesL_perm {L L' : List (ℕ × BTree)} (h : L.Perm L') : (leavesL L).Perm (leavesL L') :=
  List.Perm.flatMap_right _ h

lemma size_pos (T : BTree) : 1 ≤ T.size := by cases T <;> simp [BTree.size]

/-- The largest number of disjoint subtrees of `T` at finite distance. -/
def width (q : Query α V D) (value : ℕ → α) (vol : α → V) : BTree → ℕ
  | .leaf i => if q.dl (value i) < q.inf then 1 else 0
  | .node a b => if distT q value vol (.node a b) < q.inf then max 1 (width q value vol a + width q value vol b) else 0

/-- the same of the pending subtrees -/
def widthL (q : Query α V D) (value : ℕ → α) (vol : α → V) (L : List (ℕ × BTree)) : ℕ := (L.map (fun x => width q value vol x.2)).sum

lemma width_pos {T : BTree} (h : distT q value vol T < q.inf) : 1 ≤ width q value vol T := by
  cases T with
  | leaf i => exact (if_pos h : width q value vol (.leaf i) = 1).ge
  | node a b => rw [width, if_pos h]; exact le_max_left _ _

lemma width_zero {T : BTree} (h : ¬ distT q value vol T < q.inf) : width q value vol T = 0 := by
  cases T with
  | leaf i => exact if_neg h
  | node a b => rw [width, if_neg h]

lemma width_node (had : Admissible q vol) (a b : BTree) :
    width q value vol a + width q value vol b ≤ width q value vol (.node a b) := by
  by_cases h : distT q value vol (.node a b) < q.inf
  · rw [width, if_pos h]; exact le_max_right _ _
  · rw [width_zero (fun hc => h (lt_of_le_of_lt (distT_left had a b) hc)), width_zero (fun hc => h (lt_of_le_of_lt (distT_right had a b) hc))]
    exact Nat.zero_le _

lemma width_le_leaves (T : BTree) : width q value vol T ≤ T.leaves.length := by
  induction T with
  | leaf i => rw [width]; split_ifs <;> simp [BTree.leaves]
  | node a b iha ihb =>
    rw [width]
    simp only [BTree.leaves, List.length_append]
    have := leaves_pos a
    split_ifs <;> omega

lemma widthL_addFin (L : List (ℕ × BTree)) (x : ℕ × BTree) :
    widthL q value vol (addFin q value vol L x) ≤ width q value vol x.2 + widthL q value vol L := by
  unfold addFin widthL
  split_ifs <;> simp

lemma length_le_widthL {L : List (ℕ × BTree)} (h : ∀ x ∈ L, distT q value vol x.2 < q.inf) : L.length ≤ widthL q value vol L := by
  induction L with
  | nil => simp [widthL]
  | cons x L ih =>
    have h1 := ih fun y hy => h y (by simp [hy])
    have h2 := width_pos (h x (by simp))
    simp only [widthL, List.map_cons, List.sum_cons, List.length_cons] at *
    omega

lemma widthL_perm {L L' : List (ℕ × BTree)} (h : L.Perm L') : widthL q value vol L = widthL q value vol L' := by
  induction h with
  | nil => rfl
  | cons x _ ih => simp only [widthL, List.map_cons, List.sum_cons] at *; omega
  | swap x y l => simp only [widthL, List.map_cons, List.sum_cons]; omega
  | trans _ _ ih1 ih2 => exact ih1.trans ih2

/-- number of nodes of `T` at finite distance -/
def hitNodes (q : Query α V D) (value : ℕ → α) (vol : α → V) : BTree → ℕ
  | .leaf i => if q.dl (value i) < q.inf then 1 else 0
  | .node a b => (if distT q value vol (.node a b) < q.inf then 1 else 0) + hitNodes q value vol a + hitNodes q value vol b

lemma width_le_hitNodes (T : BTree) : width q value vol T = 0 ∨ 2 * width q value vol T ≤ hitNodes q value vol T + 1 := by
  induction T with
  | leaf i => rw [width, hitNodes]; split_ifs <;> simp
  | node a b iha ihb =>
    rw [width, hitNodes]
    split_ifs
    · omega
    · exact .inl rfl

/-- Main lemma: from a state satisfying the invariant the loop makes exactly the calls of
a list satisfying the specification. -/
lemma loop_spec (had : Admissible q vol) (n : ℕ) :
    ∀ id0 T0 L heap, Inv mem q value vol id0 T0 L heap → T0.size + sizeL L = n →
    width q value vol T0 + widthL q value vol L ≤ q.cap + 1 →
    ∃ out, Spec q value (distT q value vol T0) (T0.leaves ++ leavesL L) out ∧
      ∀ stop fuel acc, n ≤ fuel → loop mem q stop fuel id0 heap acc = .done (scan stop acc out).1 := by
  induction n using Nat.strong_induction_on with
  | _ n ih =>
    intro id0 T0 L heap hI hn hcap
    obtain ⟨rope, hlay⟩ := hI.cur
    cases T0 with
    | leaf i =>
      obtain ⟨rfl, hlt, hl⟩ := hlay
      by_cases hL : L = []
      · have htop := top_none hI.perm hL
        subst hL
        refine ⟨[value id0], ?_, ?_⟩
        · by_cases hf : q.dl (value id0) < q.inf
          · exact ⟨[id0], [], [], by simp, by simp [BTree.leaves, leavesL], by simp,
              by simp [hf, distT], by simp, by simp, by simp⟩
          · exact ⟨[], [id0], [], by simp, by simp [BTree.leaves, leavesL], by simp,
              by simp, by simp, by simpa using hf, by simp⟩
        · intro stop fuel acc hfuel
          obtain ⟨f, rfl⟩ : ∃ f, fuel = f + 1 := ⟨fuel - 1, by simp [BTree.size] at hn; omega⟩
          rw [loop, if_pos hlt, hl]
          dsimp only
          rw [htop]
          simp only [scan]
          split_ifs <;> rfl
      · obtain ⟨x, L', heap', p1, p2, p3, p4, p5, p6⟩ := pop_pending hI.isHeap hI.perm hL
        have hxL : x ∈ L := p3.mem_iff.mpr (by simp)
        have hs := sizeL_perm p3
        have hlv := leavesL_perm p3
        have hlvl := hlv.length_eq
        have hsx : sizeL (x :: L') = x.2.size + sizeL L' := by simp [sizeL]
        have hlx : leavesL (x :: L') = x.2.leaves ++ leavesL L' := by simp [leavesL]
        rw [hlx] at hlv hlvl
        simp only [List.length_append] at hlvl
        have hsub : ∀ y ∈ L', y ∈ L := fun y hy => p3.mem_iff.mpr (by simp [hy])
        have hw := widthL_perm (q := q) (value := value) (vol := vol) p3
        have hwx : widthL q value vol (x :: L') = width q value vol x.2 + widthL q value vol L' := by simp [widthL]
        obtain ⟨out, ho1, ho2⟩ := ih (n - 1) (by simp [BTree.size] at hn; omega) x.1 x.2 L' heap'
          ⟨p4, p5, hI.lay x hxL, fun y hy => hI.lay y (hsub y hy), fun y hy => hI.fin y (hsub y hy),
            fun y hy => p6 y (hsub y hy), fun _ => hI.fin x hxL⟩
          (by simp only [BTree.size] at hn; omega)
          (by omega)
        obtain ⟨f, e, d, h1, h2, h3, h4, h5, h6, h7⟩ := ho1
        have hfin : q.dl (value id0) < q.inf := hI.cfin hL
        have hlo : distT q value vol (.leaf id0) ≤ distT q value vol x.2 := hI.min x hxL
        refine ⟨value id0 :: out, ⟨id0 :: f, e, d, by simp [h1], ?_, ?_, ?_, h5, h6, h7⟩, ?_⟩
        · simp only [List.cons_append, BTree.leaves]
          refine List.Perm.cons _ ?_
          simp only [List.nil_append]
          exact h2.trans hlv.symm
        · refine List.Pairwise.cons ?_ h3
          intro j hj
          exact hlo.trans (h4 j hj).2
        · intro j hj
          rcases List.mem_cons.mp hj with rfl | hj
          · exact ⟨hfin, le_rfl⟩
          · exact ⟨(h4 j hj).1, hlo.trans (h4 j hj).2⟩
        · intro stop fuel acc hfuel
          have : 1 ≤ n := by simp [BTree.size] at hn; omega
          obtain ⟨f', rfl⟩ : ∃ f, fuel = f + 1 := ⟨fuel - 1, by omega⟩
          rw [loop, if_pos hlt, hl]
          dsimp only
          rw [p1]
          dsimp only
          rw [p2]
          simp only [scan]
          split_ifs with hst
          · rfl
          · exact ho2 stop f' _ (by omega)
    | node a b =>
      obtain ⟨ia, ib, hch, hla, hlb⟩ := layout_children hlay
      have hsz : ¬ id0 < mem.size := by obtain ⟨_, _, hsz, -⟩ := hlay; omega
      have hda := layout_dist (q := q) hla
      have hdb := layout_dist (q := q) hlb
      -- closer and further child
      obtain ⟨c, f, hc, hf, hclo, hlc, hlf, hsz', hlv', hcge, hwd⟩ :
          ∃ c f : ℕ × BTree,
            (if distT q value vol a < distT q value vol b then (ia, distT q value vol a)
              else (ib, distT q value vol b)) = ent q value vol c ∧
            (if distT q value vol a < distT q value vol b then (ib, distT q value vol b)
              else (ia, distT q value vol a)) = ent q value vol f ∧
            distT q value vol c.2 ≤ distT q value vol f.2 ∧
            (∃ rope, Layout mem value vol c.2 c.1 rope) ∧ (∃ rope, Layout mem value vol f.2 f.1 rope) ∧
            c.2.size + f.2.size + 1 = (BTree.node a b).size ∧
            (c.2.leaves ++ f.2.leaves).Perm (BTree.node a b).leaves ∧
            distT q value vol (.node a b) ≤ distT q value vol c.2 ∧
            width q value vol c.2 + width q value vol f.2 ≤ width q value vol (.node a b) := by
        have hw := width_node (value := value) had a b
        by_cases h : distT q value vol a < distT q value vol b
        · exact ⟨(ia, a), (ib, b), by simp [h, ent], by simp [h, ent], h.le, ⟨_, hla⟩, ⟨_, hlb⟩,
            by simp [BTree.size], by simp [BTree.leaves], distT_left had a b, hw⟩
        · exact ⟨(ib, b), (ia, a), by simp [h, ent], by simp [h, ent], not_lt.mp h, ⟨_, hlb⟩,
            ⟨_, hla⟩, by simp [BTree.size]; omega, by
              simp only [BTree.leaves]; exact List.perm_append_comm, distT_right had a b, by rw [Nat.add_comm]; exact hw⟩
      have hlvlen := hlv'.length_eq
      simp only [List.length_append] at hlvlen
      have hcpos := leaves_pos c.2
      have hfpos := leaves_pos f.2
      -- continue with the closer child
      have stay : (L ≠ [] → ∀ y ∈ L, distT q value vol c.2 ≤ distT q value vol y.2) →
          ∃ out heap', pushFinite q heap (ent q value vol f) = some heap' ∧
            Spec q value (distT q value vol (.node a b)) ((BTree.node a b).leaves ++ leavesL L) out ∧
            ∀ stop fuel acc, n - 1 ≤ fuel →
              loop mem q stop fuel c.1 heap' acc = .done (scan stop acc out).1 := by
        intro hmin
        have hmin : ∀ y ∈ L, distT q value vol c.2 ≤ distT q value vol y.2 :=
          fun y hy => hmin (List.ne_nil_of_mem hy) y hy
        have hlen1 := widthL_addFin (q := q) (value := value) (vol := vol) L f
        have hafin : ∀ y ∈ addFin q value vol L f, distT q value vol y.2 < q.inf := by
          intro y hy
          rcases mem_addFin hy with ⟨rfl, h⟩ | hy
          · exact h
          · exact hI.fin y hy
        have hlen2 := length_le_widthL hafin
        have hroom : addFin q value vol L f ≠ [] → 1 ≤ width q value vol c.2 := by
          intro hne
          obtain ⟨y, hy⟩ := List.exists_mem_of_ne_nil _ hne
          refine width_pos ?_
          rcases mem_addFin hy with ⟨rfl, h⟩ | hy
          · exact lt_of_le_of_lt hclo h
          · exact lt_of_le_of_lt (hmin y hy) (hI.fin y hy)
        have hroom' : (addFin q value vol L f).length ≤ q.cap := by
          by_cases hne : addFin q value vol L f = []
          · rw [hne]; exact Nat.zero_le _
          · have := hroom hne
            omega
        obtain ⟨heap', h1, h2, h3⟩ := pushFinite_ok (q := q) (value := value) (vol := vol) f
          hI.isHeap hI.perm hroom'
        have hsl := sizeL_addFin (q := q) (value := value) (vol := vol) L f
        obtain ⟨out, ho1, ho2⟩ := ih (c.2.size + sizeL (addFin q value vol L f)) (by omega) c.1 c.2
          (addFin q value vol L f) heap' ⟨h2, h3, hlc, by
            intro y hy
            rcases mem_addFin hy with ⟨rfl, -⟩ | hy
            · exact hlf
            · exact hI.lay y hy, by
            intro y hy
            rcases mem_addFin hy with ⟨rfl, h⟩ | hy
            · exact h
            · exact hI.fin y hy, by
            intro y hy
            rcases mem_addFin hy with ⟨rfl, -⟩ | hy
            · exact hclo
            · exact hmin y hy, by
            intro hne
            obtain ⟨y, hy⟩ := List.exists_mem_of_ne_nil _ hne
            rcases mem_addFin hy with ⟨rfl, h⟩ | hy
            · exact lt_of_le_of_lt hclo h
            · exact lt_of_le_of_lt (hmin y hy) (hI.fin y hy)⟩ rfl (by omega)
        refine ⟨out, heap', h1, ho1.weaken hcge ?_ (lostFin_inf had f), ?_⟩
        · rw [List.append_assoc]
          refine ((addFin_leaves L f).append_left c.2.leaves).trans ?_
          rw [← List.append_assoc]
          exact hlv'.append_right _
        · intro stop fuel acc hfuel
          exact ho2 stop fuel acc (by omega)
      by_cases hL : L = []
      · have htop := top_none hI.perm hL
        obtain ⟨out, heap', s1, s2, s3⟩ := stay (fun h => absurd hL h)
        refine ⟨out, s2, ?_⟩
        intro stop fuel acc hfuel
        have : 1 ≤ n := by simp only [BTree.size] at hn; omega
        obtain ⟨f', rfl⟩ : ∃ f, fuel = f + 1 := ⟨fuel - 1, by omega⟩
        rw [loop, if_neg hsz, hch]
        dsimp only
        rw [hda, hdb]
        dsimp only
        rw [htop, hc, hf]
        dsimp only
        rw [s1]
        exact s3 stop f' acc (by omega)
      · obtain ⟨x, L', heap', p1, p2, p3, p4, p5, p6⟩ := pop_pending hI.isHeap hI.perm hL
        have hxL : x ∈ L := p3.mem_iff.mpr (by simp)
        by_cases hlt : distT q value vol x.2 < distT q value vol c.2
        · -- continue with the closest pending subtree
          have hs := sizeL_perm p3
          have hlv := leavesL_perm p3
          have hlvl := hlv.length_eq
          have hsx : sizeL (x :: L') = x.2.size + sizeL L' := by simp [sizeL]
          have hlx : leavesL (x :: L') = x.2.leaves ++ leavesL L' := by simp [leavesL]
          rw [hlx] at hlv hlvl
          simp only [List.length_append] at hlvl
          have hxpos := width_pos (hI.fin x hxL)
          have hw := widthL_perm (q := q) (value := value) (vol := vol) p3
          have hwx : widthL q value vol (x :: L') = width q value vol x.2 + widthL q value vol L' := by simp [widthL]
          have hsub : ∀ y ∈ L', y ∈ L := fun y hy => p3.mem_iff.mpr (by simp [hy])
          have a0 : ∀ y ∈ addFin q value vol L' c, distT q value vol y.2 < q.inf := by
            intro y hy
            rcases mem_addFin hy with ⟨rfl, h⟩ | hy
            · exact h
            · exact hI.fin y (hsub y hy)
          have a1 := widthL_addFin (q := q) (value := value) (vol := vol) L' c
          have a2 := length_le_widthL a0
          obtain ⟨h1, e1, e2, e3⟩ := pushFinite_ok (q := q) (value := value) (vol := vol) c p4 p5
            (by omega)
          have b1 := widthL_addFin (q := q) (value := value) (vol := vol) (addFin q value vol L' c) f
          have b2 := length_le_widthL (L := addFin q value vol (addFin q value vol L' c) f) (by
            intro y hy
            rcases mem_addFin hy with ⟨rfl, h⟩ | hy
            · exact h
            · exact a0 y hy)
          obtain ⟨h2, f1, f2, f3⟩ := pushFinite_ok (q := q) (value := value) (vol := vol) f e2 e3
            (by omega)
          have c1 := sizeL_addFin (q := q) (value := value) (vol := vol) L' c
          have c2 := sizeL_addFin (q := q) (value := value) (vol := vol) (addFin q value vol L' c) f
          obtain ⟨out, ho1, ho2⟩ := ih
            (x.2.size + sizeL (addFin q value vol (addFin q value vol L' c) f)) (by omega) x.1 x.2
            (addFin q value vol (addFin q value vol L' c) f) h2 ⟨f2, f3, hI.lay x hxL, by
              intro y hy
              rcases mem_addFin hy with ⟨rfl, -⟩ | hy
              · exact hlf
              · rcases mem_addFin hy with ⟨rfl, -⟩ | hy
                · exact hlc
                · exact hI.lay y (hsub y hy), by
              intro y hy
              rcases mem_addFin hy with ⟨rfl, h⟩ | hy
              · exact h
              · rcases mem_addFin hy with ⟨rfl, h⟩ | hy
                · exact h
                · exact hI.fin y (hsub y hy), by
              intro y hy
              rcases mem_addFin hy with ⟨rfl, -⟩ | hy
              · exact hlt.le.trans hclo
              · rcases mem_addFin hy with ⟨rfl, -⟩ | hy
                · exact hlt.le
                · exact p6 y (hsub y hy), fun _ => hI.fin x hxL⟩ rfl (by omega)
          refine ⟨out, ho1.weaken (dr := lostFin q value vol f ++ lostFin q value vol c)
            (hI.min x hxL) ?_ ?_, ?_⟩
          · have g1 := addFin_leaves (q := q) (value := value) (vol := vol)
              (addFin q value vol L' c) f
            have g2 := addFin_leaves (q := q) (value := value) (vol := vol) L' c
            rw [← Multiset.coe_eq_coe] at g1 g2 hlv hlv' ⊢
            simp only [← Multiset.coe_add] at g1 g2 hlv hlv' ⊢
            rw [hlv, ← hlv']
            calc _ = (x.2.leaves : Multiset ℕ) + ((leavesL (addFin q value vol (addFin q value vol L' c) f) : Multiset ℕ)
                  + (lostFin q value vol f : Multiset ℕ)) + (lostFin q value vol c : Multiset ℕ) := by abel
              _ = (x.2.leaves : Multiset ℕ) + (f.2.leaves : Multiset ℕ) + ((leavesL (addFin q value vol L' c) : Multiset ℕ) + (lostFin q value vol c : Multiset ℕ)) := by
                rw [g1]; abel
              _ = _ := by rw [g2]; abel
          · intro i hi
            rcases List.mem_append.mp hi with hi | hi
            · exact lostFin_inf had f i hi
            · exact lostFin_inf had c i hi
          · intro stop fuel acc hfuel
            have : 1 ≤ n := by simp only [BTree.size] at hn; omega
            obtain ⟨f', rfl⟩ : ∃ f, fuel = f + 1 := ⟨fuel - 1, by omega⟩
            rw [loop, if_neg hsz, hch]
            dsimp only
            rw [hda, hdb]
            dsimp only
            rw [p1, hc, hf]
            dsimp only
            rw [if_pos (show (ent q value vol x).2 < (ent q value vol c).2 from hlt), p2]
            dsimp only
            rw [e1]
            dsimp only
            rw [f1]
            exact ho2 stop f' acc (by omega)
        · obtain ⟨out, heap', s1, s2, s3⟩ := stay (fun _ y hy => (not_lt.mp hlt).trans (p6 y hy))
          refine ⟨out, s2, ?_⟩
          intro stop fuel acc hfuel
          have : 1 ≤ n := by simp only [BTree.size] at hn; omega
          obtain ⟨f', rfl⟩ : ∃ f, fuel = f + 1 := ⟨fuel - 1, by omega⟩
          rw [loop, if_neg hsz, hch]
          dsimp only
          rw [hda, hdb]
          dsimp only
          rw [p1, hc, hf]
          dsimp only
          rw [if_neg (show ¬ (ent q value vol x).2 < (ent q value vol c).2 from hlt), s1]
          exact s3 stop f' acc (by omega)

end ArborX.Ordered
