import Verif.Nearest.Model
import Verif.Heap.Theorems
import Verif.Traversal.Lemmas
import Mathlib.Tactic.Abel
import Mathlib.Algebra.Order.Group.Multiset

set_option linter.unusedSectionVars false

namespace ArborX.Nearest

open ArborX.Heap (StrictWeak IsHeap)

variable {α V D : Type} [LinearOrder D]

lemma cmp_sw : StrictWeak (cmp (D := D)) :=
  ⟨fun x y h => by simp [cmp] at *; exact h.le,
   fun x y z h1 h2 => by simp [cmp] at *; exact h2.trans h1⟩

/-- State of the result heap after the leaves `P` have been dealt with. The value at the leaf `i` is only given up if `up i` is not below the radius. -/
structure Proc (q : Query α V D) (up : ℕ → D) (P : Multiset (ℕ × D)) (heap : List (ℕ × D)) (r : D) : Prop where
  isHeap : IsHeap cmp heap heap.length
  len : heap.length ≤ q.k
  le_inf : r ≤ q.inf
  short : heap.length < q.k → r = q.inf
  full : heap.length = q.k → ∃ t, Heap.top heap = some t ∧ r = t.2
  fin : ∀ x ∈ heap, x.2 < q.inf
  below : ∀ x ∈ heap, x.2 ≤ up x.1
  rej : ∃ R : Multiset (ℕ × D), P = (heap : Multiset (ℕ × D)) + R ∧ ∀ x ∈ R, r ≤ up x.1

variable {q : Query α V D} {up : ℕ → D}

lemma Proc.prune {P : Multiset (ℕ × D)} {heap : List (ℕ × D)} {r : D} (h : Proc q up P heap r)
    (Q : Multiset (ℕ × D)) (hQ : ∀ x ∈ Q, r ≤ up x.1) : Proc q up (Q + P) heap r := by
  obtain ⟨R, h1, h2⟩ := h.rej
  refine { h with rej := ⟨Q + R, by rw [h1]; abel, ?_⟩ }
  intro x hx
  rcases Multiset.mem_add.mp hx with hx | hx
  · exact hQ x hx
  · exact h2 x hx

lemma Proc.init (hk : 1 ≤ q.k) : Proc q up 0 [] q.inf where
  isHeap := by intro p c x y hc hcn; simp at hcn
  len := by simp
  le_inf := le_rfl
  short := fun _ => rfl
  full := fun h => by simp at h; omega
  fin := by simp
  below := by simp
  rej := ⟨0, by simp, by simp⟩

lemma Proc.perm {P P' : Multiset (ℕ × D)} {heap : List (ℕ × D)} {r : D} (h : Proc q up P heap r)
    (e : P = P') : Proc q up P' heap r := e ▸ h

variable {mem : Mem α V}

lemma offer_leaf (hk : 1 ≤ q.k) {P : Multiset (ℕ × D)} {heap : List (ℕ × D)} {r : D}
    (h : Proc q up P heap r) {i : ℕ} (hi : i < mem.size) {d : D} (hup : d ≤ up i) :
    ∃ heap' r', offer mem q i d heap r = some (heap', r', false) ∧ r' ≤ r ∧
      Proc q up ((i, d) ::ₘ P) heap' r' := by
  unfold offer
  by_cases hd : d < r
  · rw [if_pos hd, if_pos hi]
    obtain ⟨R, hR1, hR2⟩ := h.rej
    by_cases hl : heap.length < q.k
    · rw [if_pos hl]
      obtain ⟨heap', p1, p2, p3⟩ := Heap.push_correct cmp_sw (i, d) h.isHeap hl
      rw [p1]
      dsimp only
      have hlen : heap'.length = heap.length + 1 := by simpa using p3.length_eq
      have hr := h.short hl
      have hP : (i, d) ::ₘ P = (heap' : Multiset (ℕ × D)) + R := by
        rw [Multiset.coe_eq_coe.mpr p3, ← Multiset.cons_coe, hR1, Multiset.cons_add]
      have hfin : ∀ x ∈ heap', x.2 < q.inf := by
        intro x hx
        rcases List.mem_cons.mp (p3.mem_iff.mp hx) with rfl | hx
        · exact hr ▸ hd
        · exact h.fin x hx
      have hbelow : ∀ x ∈ heap', x.2 ≤ up x.1 := by
        intro x hx
        rcases List.mem_cons.mp (p3.mem_iff.mp hx) with rfl | hx
        · exact hup
        · exact h.below x hx
      by_cases he : heap'.length = q.k
      · rw [if_pos he]
        have h0 : 0 < heap'.length := by omega
        have ht : Heap.top heap' = some (heap'[0]'h0) := List.getElem?_eq_getElem h0
        rw [ht]
        have hle : (heap'[0]'h0).2 ≤ r := by
          rw [hr]; exact (hfin _ (List.getElem_mem h0)).le
        refine ⟨_, _, rfl, hle, ⟨p2, he.le, hle.trans h.le_inf, by omega, fun _ => ⟨_, ht, rfl⟩, hfin, hbelow,
          R, hP, fun x hx => hle.trans (hR2 x hx)⟩⟩
      · rw [if_neg he]
        exact ⟨_, _, rfl, le_rfl, ⟨p2, by omega, h.le_inf, fun _ => hr, fun e => absurd e he, hfin, hbelow,
          R, hP, hR2⟩⟩
    · rw [if_neg hl]
      have hlk : heap.length = q.k := le_antisymm h.len (by omega)
      have hne : heap ≠ [] := by rintro rfl; simp at hlk; omega
      obtain ⟨t, heap', t1, t2, t3, t4, t5⟩ := Heap.popPush_correct cmp_sw (i, d) h.isHeap hne
      rw [t3]
      dsimp only
      have hlen : heap'.length = heap.length := by simpa using t5.length_eq
      obtain ⟨t', ht', hrt⟩ := h.full hlk
      have : t' = t := by rw [t1] at ht'; simpa using ht'.symm
      subst this
      rw [if_pos (by omega)]
      have h0 : 0 < heap'.length := by omega
      have ht : Heap.top heap' = some (heap'[0]'h0) := List.getElem?_eq_getElem h0
      rw [ht]
      have hmem : ∀ x ∈ heap', x = (i, d) ∨ x ∈ heap := by
        intro x hx
        exact List.mem_cons.mp (t5.mem_iff.mp (List.mem_cons_of_mem _ hx))
      have hle : (heap'[0]'h0).2 ≤ r := by
        rcases hmem _ (List.getElem_mem h0) with e | e
        · rw [e]; exact hd.le
        · have := t2 _ e
          simp only [cmp, decide_eq_false_iff_not, not_lt] at this
          rw [hrt]; exact this
      refine ⟨_, _, rfl, hle, ⟨t4, by omega, hle.trans h.le_inf, by omega, fun _ => ⟨_, ht, rfl⟩, ?_, ?_,
        t' ::ₘ R, ?_, ?_⟩⟩
      · intro x hx
        rcases hmem x hx with e | e
        · rw [e]; exact lt_of_lt_of_le hd h.le_inf
        · exact h.fin x e
      · intro x hx
        rcases hmem x hx with e | e
        · rw [e]; exact hup
        · exact h.below x e
      · rw [hR1]
        have := Multiset.coe_eq_coe.mpr t5
        simp only [← Multiset.cons_coe] at this
        rw [← Multiset.cons_add, ← this, Multiset.cons_add, Multiset.add_cons]
      · intro x hx
        rcases Multiset.mem_cons.mp hx with rfl | hx
        · exact (hrt ▸ hle).trans (h.below _ (List.mem_of_getElem? t1))
        · exact hle.trans (hR2 x hx)
  · rw [if_neg hd]
    refine ⟨heap, r, rfl, le_rfl, ?_⟩
    have := h.prune {(i, d)} (by simpa using (not_lt.mp hd).trans hup)
    rwa [Multiset.singleton_add] at this

variable [SemilatticeSup V] {value : ℕ → α} {vol : α → V}

/-- leaves of a tree with their distances -/
def lp (q : Query α V D) (value : ℕ → α) (T : BTree) : Multiset (ℕ × D) :=
  ((T.leaves.map (fun i => (i, q.dl (value i))) : List (ℕ × D)) : Multiset (ℕ × D))

lemma lp_node (a b : BTree) : lp q value (.node a b) = lp q value a + lp q value b := by
  simp [lp, BTree.leaves]

/-- distance of the root of a subtree -/
def distT (q : Query α V D) (value : ℕ → α) (vol : α → V) : BTree → D
  | .leaf i => q.dl (value i)
  | .node a b => q.dv ((BTree.node a b).vol (fun i => vol (value i)))

/-- a volume is never farther than the values inside -/
def Admissible (q : Query α V D) (vol : α → V) : Prop := ∀ a v, vol a ≤ v → q.dv v ≤ q.dl a

/-- Neither the value at the leaf `i` nor a volume around it is farther than `up i`. -/
def Bounds (q : Query α V D) (value : ℕ → α) (vol : α → V) (up : ℕ → D) : Prop :=
  ∀ i, q.dl (value i) ≤ up i ∧ ∀ v, vol (value i) ≤ v → q.dv v ≤ up i

lemma Admissible.bounds (had : Admissible q vol) (value : ℕ → α) : Bounds q value vol (fun i => q.dl (value i)) :=
  fun _ => ⟨le_rfl, fun v hv => had _ v hv⟩

lemma distT_up (hup : Bounds q value vol up) (T : BTree) {i : ℕ} (hi : i ∈ T.leaves) :
    distT q value vol T ≤ up i := by
  cases T with
  | leaf j => simp [BTree.leaves] at hi; subst hi; exact (hup i).1
  | node a b => exact (hup i).2 _ (Traversal.BTree.le_vol (fun i => vol (value i)) _ _ hi)

lemma distT_le (had : Admissible q vol) (T : BTree) {i : ℕ} (hi : i ∈ T.leaves) :
    distT q value vol T ≤ q.dl (value i) := distT_up (had.bounds value) T hi

lemma layout_rope {T : BTree} {id : ℕ} {rope : Option ℕ} (h : Layout mem value vol T id rope) :
    Traversal.getRope mem id = some rope := by
  cases T with
  | leaf i => obtain ⟨rfl, hlt, hl⟩ := h; simp [Traversal.getRope, hlt, hl]
  | node a b =>
    obtain ⟨ia, ib, hsz, hn, -, -⟩ := h
    simp [Traversal.getRope, hn, Nat.not_lt.mpr hsz]

lemma layout_dist {T : BTree} {id : ℕ} {rope : Option ℕ} (h : Layout mem value vol T id rope) :
    distance mem q id = some (distT q value vol T) := by
  cases T with
  | leaf i => obtain ⟨rfl, hlt, hl⟩ := h; simp [distance, hlt, hl, distT]
  | node a b =>
    obtain ⟨ia, ib, hsz, hn, -, -⟩ := h
    simp [distance, hn, Nat.not_lt.mpr hsz, distT]

lemma layout_children {a b : BTree} {id : ℕ} {rope : Option ℕ}
    (h : Layout mem value vol (.node a b) id rope) :
    ∃ ia ib, children mem id = some (ia, ib) ∧ Layout mem value vol a ia (some ib) ∧
      Layout mem value vol b ib rope := by
  obtain ⟨ia, ib, hsz, hn, ha, hb⟩ := h
  refine ⟨ia, ib, ?_, ha, hb⟩
  simp [children, hn, Nat.not_lt.mpr hsz, layout_rope ha]

def isNode : BTree → Bool
  | .leaf _ => false
  | .node _ _ => true

lemma offer_child (hk : 1 ≤ q.k) (hup : Bounds q value vol up) {P : Multiset (ℕ × D)}
    {heap : List (ℕ × D)} {r : D} (h : Proc q up P heap r) {T : BTree} {id : ℕ} {rope : Option ℕ}
    (hT : Layout mem value vol T id rope) :
    ∃ heap' r' t, offer mem q id (distT q value vol T) heap r = some (heap', r', t) ∧ r' ≤ r ∧
      (t = false → Proc q up (lp q value T + P) heap' r') ∧
      (t = true → Proc q up P heap' r' ∧ isNode T = true) := by
  cases T with
  | leaf i =>
    obtain ⟨rfl, hlt, hl⟩ := hT
    obtain ⟨heap', r', h1, h2, h3⟩ := offer_leaf (mem := mem) hk h hlt (hup id).1
    refine ⟨heap', r', false, h1, h2, fun _ => h3.perm ?_, by simp⟩
    simp [lp, BTree.leaves]
  | node a b =>
    have hsz : ¬ id < mem.size := by obtain ⟨ia, ib, hsz, -⟩ := hT; omega
    unfold offer
    by_cases hd : distT q value vol (.node a b) < r
    · rw [if_pos hd, if_neg hsz]
      exact ⟨heap, r, true, rfl, le_rfl, by simp, fun _ => ⟨h, rfl⟩⟩
    · rw [if_neg hd]
      refine ⟨heap, r, false, rfl, le_rfl, fun _ => h.prune _ ?_, by simp⟩
      intro x hx
      simp only [lp, Multiset.mem_coe, List.mem_map] at hx
      obtain ⟨i, hi, rfl⟩ := hx
      exact (not_lt.mp hd).trans (distT_up hup _ hi)

/-- Entries the traversal of a subtree may add to the stack. -/
def need : BTree → ℕ
  | .leaf _ => 0
  | .node a b => max (need a) (need b) + (if isNode a && isNode b then 1 else 0)

/-- what happens when the stack is popped -/
def popCont (mem : Mem α V) (q : Query α V D) (fuel : ℕ) (stack : List (ℕ × D))
    (heap : List (ℕ × D)) (r : D) : Res (List (ℕ × D)) :=
  match stack with
  | [] => .done heap
  | (n, d) :: st => loop mem q fuel n d st heap r

lemma loop_tree (hk : 1 ≤ q.k) (hup : Bounds q value vol up) (T : BTree) :
    ∀ id rope, Layout mem value vol T id rope → isNode T = true →
    ∀ dn, (∀ i ∈ T.leaves, dn ≤ up i) →
    ∀ stack heap r P, Proc q up P heap r → stack.length + need T + 1 ≤ q.cap →
    ∃ c heap' r', 1 ≤ c ∧ c ≤ T.size ∧ Proc q up (lp q value T + P) heap' r' ∧ r' ≤ r ∧
      ∀ fuel, loop mem q (fuel + c) id dn stack heap r = popCont mem q fuel stack heap' r' := by
  induction T with
  | leaf i => intro id rope _ hn; simp [isNode] at hn
  | node a b iha ihb =>
    intro id rope hT _ dn hdn stack heap r P hP hcap
    obtain ⟨ia, ib, hch, ha, hb⟩ := layout_children hT
    by_cases hdr : dn < r
    · obtain ⟨h1, r1, t1, e1, l1, f1, g1⟩ := offer_child (mem := mem) hk hup hP ha
      cases t1 with
      | false =>
        have p1 := f1 rfl
        obtain ⟨h2, r2, t2, e2, l2, f2, g2⟩ := offer_child (mem := mem) hk hup p1 hb
        cases t2 with
        | false =>
          refine ⟨1, h2, r2, le_rfl, by simp [BTree.size], (f2 rfl).perm ?_, l2.trans l1, ?_⟩
          · rw [lp_node]; abel
          · intro fuel
            rw [loop.eq_def]; dsimp only; rw [if_pos hdr, hch]
            dsimp only
            rw [layout_dist ha, layout_dist hb]
            dsimp only
            rw [e1]; dsimp only; rw [e2]
            simp only [Bool.not_false, Bool.and_self, if_true]
            rfl
        | true =>
          obtain ⟨p2, nb⟩ := g2 rfl
          obtain ⟨c, h3, r3, c1, c2, p3, l3, hl⟩ := ihb ib rope hb nb (distT q value vol b)
            (fun i hi => distT_up hup b hi) stack h2 r2 _ p2 (by simp only [need] at hcap; omega)
          refine ⟨c + 1, h3, r3, by omega, by simp [BTree.size]; omega, p3.perm ?_,
            l3.trans (l2.trans l1), ?_⟩
          · rw [lp_node]; abel
          · intro fuel
            rw [← Nat.add_assoc, loop.eq_def]; dsimp only; rw [if_pos hdr, hch]
            dsimp only
            rw [layout_dist ha, layout_dist hb]
            dsimp only
            rw [e1]; dsimp only; rw [e2]
            simp only [Bool.not_false, Bool.not_true, Bool.and_false, Bool.false_and,
              Bool.false_eq_true, if_false]
            exact hl fuel
      | true =>
        obtain ⟨p1, na⟩ := g1 rfl
        obtain ⟨h2, r2, t2, e2, l2, f2, g2⟩ := offer_child (mem := mem) hk hup p1 hb
        cases t2 with
        | false =>
          have p2 := f2 rfl
          obtain ⟨c, h3, r3, c1, c2, p3, l3, hl⟩ := iha ia _ ha na (distT q value vol a)
            (fun i hi => distT_up hup a hi) stack h2 r2 _ p2 (by simp only [need] at hcap; omega)
          refine ⟨c + 1, h3, r3, by omega, by simp [BTree.size]; omega, p3.perm ?_,
            l3.trans (l2.trans l1), ?_⟩
          · rw [lp_node]; abel
          · intro fuel
            rw [← Nat.add_assoc, loop.eq_def]; dsimp only; rw [if_pos hdr, hch]
            dsimp only
            rw [layout_dist ha, layout_dist hb]
            dsimp only
            rw [e1]; dsimp only; rw [e2]
            simp only [Bool.not_false, Bool.not_true, Bool.false_and,
              Bool.false_eq_true, if_false, Bool.or_true, Bool.and_self, if_true]
            exact hl fuel
        | true =>
          obtain ⟨p2, nb⟩ := g2 rfl
          have hcap' : stack.length + max (need a) (need b) + 2 ≤ q.cap := by
            simp only [need, na, nb, Bool.and_self, if_true] at hcap; omega
          by_cases hle : distT q value vol a ≤ distT q value vol b
          · obtain ⟨c, h3, r3, c1, c2, p3, l3, hl⟩ := iha ia _ ha na (distT q value vol a)
              (fun i hi => distT_up hup a hi) ((ib, distT q value vol b) :: stack) h2 r2 _ p2
              (by simp only [List.length_cons]; omega)
            obtain ⟨c', h4, r4, c1', c2', p4, l4, hl'⟩ := ihb ib rope hb nb (distT q value vol b)
              (fun i hi => distT_up hup b hi) stack h3 r3 _ p3 (by omega)
            refine ⟨c' + c + 1, h4, r4, by omega, by simp [BTree.size]; omega, p4.perm ?_,
              l4.trans (l3.trans (l2.trans l1)), ?_⟩
            · rw [lp_node]; abel
            · intro fuel
              rw [← Nat.add_assoc, loop.eq_def]; dsimp only; rw [if_pos hdr, hch]
              dsimp only
              rw [layout_dist ha, layout_dist hb]
              dsimp only
              rw [e1]; dsimp only; rw [e2]
              simp only [Bool.not_true, Bool.false_eq_true, if_false, hle,
                decide_true, Bool.or_false, Bool.and_self, if_true]
              rw [if_pos (by omega), ← Nat.add_assoc, hl]
              exact hl' fuel
          · obtain ⟨c, h3, r3, c1, c2, p3, l3, hl⟩ := ihb ib rope hb nb (distT q value vol b)
              (fun i hi => distT_up hup b hi) ((ia, distT q value vol a) :: stack) h2 r2 _ p2
              (by simp only [List.length_cons]; omega)
            obtain ⟨c', h4, r4, c1', c2', p4, l4, hl'⟩ := iha ia _ ha na (distT q value vol a)
              (fun i hi => distT_up hup a hi) stack h3 r3 _ p3 (by omega)
            refine ⟨c' + c + 1, h4, r4, by omega, by simp [BTree.size]; omega, p4.perm ?_,
              l4.trans (l3.trans (l2.trans l1)), ?_⟩
            · rw [lp_node]; abel
            · intro fuel
              rw [← Nat.add_assoc, loop.eq_def]; dsimp only; rw [if_pos hdr, hch]
              dsimp only
              rw [layout_dist ha, layout_dist hb]
              dsimp only
              rw [e1]; dsimp only; rw [e2]
              simp only [Bool.not_true, Bool.false_eq_true, if_false, hle,
                decide_false, Bool.or_false, Bool.and_false, if_true]
              rw [if_pos (by omega), ← Nat.add_assoc, hl]
              exact hl' fuel
    · refine ⟨1, heap, r, le_rfl, by simp [BTree.size], hP.prune _ ?_, le_rfl, ?_⟩
      · intro x hx
        simp only [lp, Multiset.mem_coe, List.mem_map] at hx
        obtain ⟨i, hi, rfl⟩ := hx
        exact (not_lt.mp hdr).trans (hdn i hi)
      · intro fuel
        rw [loop.eq_def]; dsimp only; rw [if_neg hdr]
        rfl

lemma need_lt_height (T : BTree) : need T ≤ T.height - 1 := by
  induction T with
  | leaf i => simp [need]
  | node a b iha ihb =>
    simp only [need, BTree.height]
    cases a <;> cases b <;> simp_all [isNode, BTree.height, need] <;> omega

lemma output_map {n : ℕ} (hleaf : ∀ i < n, ∃ rope, mem.leaf i = some ⟨rope, value i⟩) :
    ∀ l : List (ℕ × D), (∀ x ∈ l, x.1 < n) → output mem l = some (l.map (fun x => value x.1))
  | [], _ => rfl
  | (i, d) :: l, h => by
    obtain ⟨rope, hr⟩ := hleaf i (h (i, d) (by simp))
    simp [output, hr, output_map hleaf l (fun x hx => h x (by simp [hx]))]

lemma layout_leaf (T : BTree) : ∀ id rope, Layout mem value vol T id rope →
    ∀ i ∈ T.leaves, ∃ rope, mem.leaf i = some ⟨rope, value i⟩ := by
  induction T with
  | leaf j =>
    rintro id rope ⟨rfl, hlt, hl⟩ i hi
    simp [BTree.leaves] at hi; subst hi; exact ⟨_, hl⟩
  | node a b iha ihb =>
    rintro id rope ⟨ia, ib, hsz, hn, ha, hb⟩ i hi
    simp only [BTree.leaves, List.mem_append] at hi
    rcases hi with hi | hi
    · exact iha _ _ ha i hi
    · exact ihb _ _ hb i hi

end ArborX.Nearest
