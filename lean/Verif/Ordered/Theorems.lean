import Verif.Ordered.Lemmas
import Verif.Traversal.Theorems

/-!
# Property theorems: ordered spatial query (C07)
-/

set_option linter.unusedSectionVars false

namespace ArborX.Ordered

open BVH Construction
open ArborX.Traversal (scan scan_spec)
open ArborX.Nearest (layout_children)
open ArborX.Heap (IsHeap)

variable {α V D : Type} {w : ℕ} [SemilatticeSup V] [OrderBot V] [LinearOrder D]

/-- The buffer is large enough for the query: no more than `cap + 1` disjoint subtrees of the hierarchy built for `I` are at finite distance. -/
def BufferFits (I : Input α V w) (q : Query α V D) : Prop :=
  ∀ T, CartTree (deltaBits (fun i => I.code (I.perm i))) 0 (I.n - 1) T → width q (fun i => I.values (I.perm i)) I.vol T ≤ q.cap + 1

/-- **C07 (partial).** The full statement: the callback is called on exactly the values at
finite distance, in non-decreasing order of distance, for every number of values, and the
first call that asks to stop is the last. It is false of the code, see
`ordered_spurious_call` and `ordered_buffer_overflow`. Proved here: if the buffer is large
enough (`ordered_small`: at most 65 values; `ordered_few_hits`: any number of values of which
the query meets few), then the values at finite distance come
first, all of them, in non-decreasing order of distance, followed by at most one value at
infinite distance; the order depends neither on the callback nor on the schedule of the
construction; the callback is called on a prefix of that order and the query stops at the
first call that asks to, and only there. Missing: exclusion of the last call and of the
buffer overflow, which the code does not ensure. -/
theorem ordered_query_partial (I : Input α V w) (h : I.Valid) (q : Query α V D)
    (had : Admissible q I.vol) (hinf : ∀ a, q.dl a ≤ q.inf) (hcap : BufferFits I q) :
    ∃ near extra : List α,
      near.Perm (I.stored.filter (fun a => decide (q.dl a < q.inf))) ∧
      near.Pairwise (fun a b => q.dl a ≤ q.dl b) ∧
      extra.length ≤ 1 ∧ (∀ a ∈ extra, a ∈ I.stored ∧ q.dl a = q.inf) ∧
      ∀ sched, I.Finished sched → ∀ (stop : List α → Bool) (fuel : ℕ), 2 * I.n ≤ fuel →
      ∃ calls, orderedQuery (I.build sched) q stop fuel = .done calls ∧
        calls <+: near ++ extra ∧
        (∀ p, p <+: calls → p ≠ [] → p ≠ calls → stop p = false) ∧
        (calls = near ++ extra ∨ stop calls = true) := by
  rcases Nat.lt_or_ge I.n 2 with hn | hn
  · refine ⟨I.stored.filter (fun a => decide (q.dl a < q.inf)), [], List.Perm.refl _, ?_, by simp,
      by simp, fun sched _ stop fuel _ => ?_⟩
    · have : (I.stored.filter (fun a => decide (q.dl a < q.inf))).length ≤ 1 :=
        (List.length_filter_le _ _).trans (by simp [Input.stored]; omega)
      rcases hl : I.stored.filter (fun a => decide (q.dl a < q.inf)) with _ | ⟨x, _ | ⟨y, l⟩⟩
      · simp
      · simp
      · rw [hl] at this; simp at this
    · have key : ∀ l : List α, l.length ≤ 1 → ∀ p, p <+: l → p ≠ [] → p ≠ l → stop p = false := by
        intro l hl p hp h1 h2
        exfalso
        apply h2
        apply hp.eq_of_length
        have := hp.length_le
        have : p.length ≠ 0 := by simpa using h1
        omega
      refine ⟨I.stored.filter (fun a => decide (q.dl a < q.inf)), ?_, by simp, key _ ?_, by simp⟩
      · unfold orderedQuery
        rw [build_size]
        rcases (by omega : I.n = 0 ∨ I.n = 1) with h0 | h1
        · rw [if_pos h0]; simp [Input.stored, h0]
        · rw [if_neg (by omega), if_pos h1]
          simp only [oneLeaf, Input.build, h1, Input.stored]
          have := hinf (I.values 0)
          by_cases hp : q.dl (I.values 0) = q.inf
          · simp [hp]
          · have hlt : q.dl (I.values 0) < q.inf := lt_of_le_of_ne this hp
            simp [hp, hlt]
      · refine (List.length_filter_le _ _).trans ?_
        simp [Input.stored]; omega
  · obtain ⟨T, hcart, hT⟩ := build_cartesian I h hn
    obtain ⟨s0, hs0⟩ := exists_complete I.params (h.keys hn)
    obtain ⟨hl, hlay⟩ := hT s0 (fun _ => hs0)
    rw [build_size] at hl hlay
    have hsz := Traversal.size_eq T
    rw [hl, List.length_range] at hsz
    obtain ⟨out, o1, o2⟩ := loop_spec (mem := I.build s0) had T.size I.n T [] []
      ⟨by intro p c x y _ _ hp; simp at hp, by simp, ⟨_, hlay⟩, by simp, by simp, by simp, by simp⟩
      (by simp [sizeL]) (by simpa [widthL] using hcap T hcart)
    simp only [leavesL, hl, List.flatMap_nil, List.append_nil] at o1
    obtain ⟨fin, extra, dropped, e1, e2, e3, e4, e5, e6, e7⟩ := o1
    have hmem : ∀ i ∈ fin ++ extra ++ dropped, I.values (I.perm i) ∈ I.stored := by
      intro i hi
      rw [← h.stored_perm.mem_iff]
      exact List.mem_map_of_mem (e2.mem_iff.mp hi)
    refine ⟨fin.map (fun i => I.values (I.perm i)), extra.map (fun i => I.values (I.perm i)),
      ?_, ?_, by simpa using e5, ?_, ?_⟩
    · have p1 := ((e2.map (fun i => I.values (I.perm i))).trans h.stored_perm).filter
        (fun a => decide (q.dl a < q.inf))
      refine List.Perm.trans (List.Perm.of_eq ?_) p1
      rw [List.map_append, List.map_append, List.filter_append, List.filter_append]
      rw [List.filter_eq_self.mpr, List.filter_eq_nil_iff.mpr, List.filter_eq_nil_iff.mpr]
      · simp
      · intro a ha
        obtain ⟨i, hi, rfl⟩ := List.mem_map.mp ha
        simpa using e7 i hi
      · intro a ha
        obtain ⟨i, hi, rfl⟩ := List.mem_map.mp ha
        simpa using e6 i hi
      · intro a ha
        obtain ⟨i, hi, rfl⟩ := List.mem_map.mp ha
        simpa using (e4 i hi).1
    · exact List.pairwise_map.mpr e3
    · intro a ha
      obtain ⟨i, hi, rfl⟩ := List.mem_map.mp ha
      exact ⟨hmem i (by simp [hi]), le_antisymm (hinf _) (not_lt.mp (e6 i hi))⟩
    · intro sched hf stop fuel hfuel
      obtain ⟨p, h1, h2, h3, h4⟩ := scan_spec stop [] out
      rw [e1, List.map_append] at h1 h4
      refine ⟨p, ?_, h1, by simpa using h3, by simpa using h4⟩
      unfold orderedQuery
      rw [build_size, if_neg (by omega), if_neg (by omega),
        build_schedule_independent I h sched s0 hf (fun _ => hs0), o2 stop fuel [] (by omega), h2]
      simp

/-- **C07.** If every value is at finite distance there is no extra call: the callback sees
all values in non-decreasing order of distance. -/
theorem ordered_query_all_hit (I : Input α V w) (h : I.Valid) (q : Query α V D)
    (had : Admissible q I.vol) (hfin : ∀ a, q.dl a < q.inf) (hcap : BufferFits I q)
    (sched : List ℕ) (hf : I.Finished sched) (fuel : ℕ) (hfuel : 2 * I.n ≤ fuel) :
    ∃ calls, orderedQuery (I.build sched) q (fun _ => false) fuel = .done calls ∧
      calls.Perm I.stored ∧ calls.Pairwise (fun a b => q.dl a ≤ q.dl b) := by
  obtain ⟨near, extra, h1, h2, -, h4, H⟩ := ordered_query_partial I h q had (fun a => (hfin a).le) hcap
  have he : extra = [] := by
    rcases extra with _ | ⟨x, l⟩
    · rfl
    · have := (h4 x (by simp)).2
      exact absurd (hfin x) (by rw [this]; exact lt_irrefl _)
  subst he
  obtain ⟨calls, c1, -, -, c4⟩ := H sched hf (fun _ => false) fuel hfuel
  simp only [List.append_nil, Bool.false_eq_true, or_false] at c4
  subst c4
  refine ⟨calls, c1, ?_, h2⟩
  rw [List.filter_eq_self.mpr (fun a _ => by simpa using hfin a)] at h1
  exact h1

/-! ## When the buffer is large enough -/

lemma cart_leaves {key : ℕ → ℤ} {l r : ℕ} {T : BTree} (h : CartTree key l r T) : l + T.leaves.length = r + 1 := by
  induction h with
  | leaf i => rfl
  | node l p r a b h1 h2 _ _ _ _ iha ihb => simp only [BTree.leaves, List.length_append]; omega

/-- **C07.** The buffer of 64 entries is large enough for at most 65 values. -/
theorem ordered_small (I : Input α V w) (q : Query α V D) (hcap : I.n ≤ q.cap + 1) : BufferFits I q := by
  intro T hT
  refine (width_le_leaves T).trans ?_
  have := cart_leaves hT
  omega

/-- **C07.** It is large enough for any number of values if the query meets no more than 130 nodes of the hierarchy. -/
theorem ordered_few_hits (I : Input α V w) (q : Query α V D)
    (hcap : ∀ T, CartTree (deltaBits (fun i => I.code (I.perm i))) 0 (I.n - 1) T →
      hitNodes q (fun i => I.values (I.perm i)) I.vol T ≤ 2 * q.cap + 2) : BufferFits I q := by
  intro T hT
  have := hcap T hT
  rcases width_le_hitNodes (q := q) (value := fun i => I.values (I.perm i)) (vol := I.vol) T with h | h <;> omega

/-! ## Defect: a call on a value the query does not hit -/

/-- **C07 (defect).** If no value is hit and there are at least two, the callback is still
called, on one of them. -/
theorem ordered_spurious_call (I : Input α V w) (h : I.Valid) (hn : 2 ≤ I.n) (q : Query α V D)
    (had : Admissible q I.vol) (hmiss : ∀ a, q.dl a = q.inf) (hcap : BufferFits I q)
    (sched : List ℕ) (hf : I.Finished sched) (fuel : ℕ) (hfuel : 2 * I.n ≤ fuel) :
    ∃ a ∈ I.stored, orderedQuery (I.build sched) q (fun _ => false) fuel = .done [a] := by
  obtain ⟨T, hcart, hT⟩ := build_cartesian I h hn
  obtain ⟨hl, hlay⟩ := hT sched hf
  rw [build_size] at hl hlay
  have hsz := Traversal.size_eq T
  rw [hl, List.length_range] at hsz
  obtain ⟨out, o1, o2⟩ := loop_spec (mem := I.build sched) had T.size I.n T [] []
    ⟨by intro p c x y _ _ hp; simp at hp, by simp, ⟨_, hlay⟩, by simp, by simp, by simp, by simp⟩
    (by simp [sizeL]) (by simpa [widthL] using hcap T hcart)
  simp only [leavesL, hl, List.flatMap_nil, List.append_nil] at o1
  obtain ⟨fin, extra, dropped, e1, e2, e3, e4, e5, e6, e7⟩ := o1
  have hfin : fin = [] := by
    rcases fin with _ | ⟨x, l⟩
    · rfl
    · have := (e4 x (by simp)).1
      rw [hmiss] at this
      exact absurd this (lt_irrefl _)
  subst hfin
  have hq : orderedQuery (I.build sched) q (fun _ => false) fuel = .done out := by
    unfold orderedQuery
    rw [build_size, if_neg (by omega), if_neg (by omega), o2 _ fuel [] (by omega),
      Traversal.scan_false]
    simp
  -- the loop only ends after a call
  have hcall : ∀ fuel id heap acc r, loop (I.build sched) q (fun _ => false) fuel id heap acc = .done r →
      acc.length < r.length := by
    intro fuel
    induction fuel with
    | zero => intro id heap acc r hr; cases hr
    | succ f ih =>
      intro id heap acc r hr
      rw [loop] at hr
      split at hr
      · split at hr
        · cases hr
        · simp only [Bool.false_eq_true, if_false] at hr
          split at hr
          · cases hr; simp
          · split at hr
            · cases hr
            · have := ih _ _ _ _ hr; simp at this; omega
      · split at hr
        · cases hr
        · split at hr
          · dsimp only at hr
            repeat' split at hr
            all_goals first | exact ih _ _ _ _ hr | cases hr
          · cases hr
  have hlen : 0 < out.length := by
    have := hcall fuel I.n [] [] out (by
      have := hq
      unfold orderedQuery at this
      rwa [build_size, if_neg (by omega), if_neg (by omega)] at this)
    simpa using this
  rcases extra with _ | ⟨x, _ | ⟨y, l⟩⟩
  · rw [e1] at hlen; simp at hlen
  · refine ⟨I.values (I.perm x), ?_, by rw [hq, e1]; simp⟩
    rw [← h.stored_perm.mem_iff]
    exact List.mem_map_of_mem (e2.mem_iff.mp (by simp))
  · simp at e5

/-! ## Defect: overflow of the fixed-size buffer -/

lemma overflow {mem : Mem α V} {q : Query α V D} {value : ℕ → α} {vol : α → V} {d0 d1 : D}
    (h01 : d0 < d1) (h1 : d1 < q.inf) (hdl : ∀ a, q.dl a = d1) (hdv : ∀ v, q.dv v = d0)
    (stop : List α → Bool) (m : ℕ) :
    ∀ id0 T0 L heap acc, Inv mem q value vol id0 T0 L heap →
    q.cap + 2 ≤ T0.leaves.length + (leavesL L).length → L.length ≤ q.cap → m + L.length = q.cap →
    ∀ fuel, m + 1 ≤ fuel → loop mem q stop fuel id0 heap acc = .fault := by
  have hfinT : ∀ T, distT q value vol T < q.inf := by
    intro T
    cases T with
    | leaf i => simp only [distT, hdl]; exact h1
    | node a b => simp only [distT, hdv]; exact h01.trans h1
  have hd0 : ∀ T, d0 ≤ distT q value vol T := by
    intro T
    cases T with
    | leaf i => simp only [distT, hdl]; exact h01.le
    | node a b => simp only [distT, hdv]; exact le_rfl
  have hadd : ∀ L x, addFin q value vol L x = x :: L := by
    intro L x; simp [addFin, hfinT]
  -- pushing on the heap of pending subtrees `L` leads to the fault
  have fin : ∀ (L : List (ℕ × BTree)) (heap : List (ℕ × D)) (f : ℕ × BTree) (k : ℕ)
      (g : List (ℕ × D) → Res (List α)),
      IsHeap cmp heap heap.length → heap.Perm (L.map (ent q value vol)) → k + L.length = q.cap →
      (k ≠ 0 → ∀ heap', IsHeap cmp heap' heap'.length →
        heap'.Perm ((f :: L).map (ent q value vol)) → g heap' = .fault) →
      (match pushFinite q heap (ent q value vol f) with
        | none => Res.fault
        | some h => g h) = Res.fault := by
    intro L heap f k g hh hp hk hg
    have hl : heap.length = L.length := by simpa using hp.length_eq
    rcases Nat.eq_zero_or_pos k with h0 | h0
    · have : pushFinite q heap (ent q value vol f) = none := by
        unfold pushFinite
        rw [if_pos (show (ent q value vol f).2 < q.inf from hfinT _), Heap.push_full _ (by omega)]
      rw [this]
    · obtain ⟨h', a1, a2, a3⟩ := pushFinite_ok (q := q) (value := value) (vol := vol) f hh hp
        (by rw [hadd]; simp; omega)
      rw [a1]
      rw [hadd] at a3
      exact hg (by omega) h' a2 a3
  induction m using Nat.strong_induction_on with
  | _ m ih =>
    intro id0 T0 L heap acc hI hlv hlen hm fuel hfuel
    obtain ⟨fuel, rfl⟩ : ∃ f, fuel = f + 1 := ⟨fuel - 1, by omega⟩
    obtain ⟨rope, hlay⟩ := hI.cur
    cases T0 with
    | leaf i =>
      -- all pending subtrees are leaves, there are not enough of them
      exfalso
      have hone : ∀ (l : List (ℕ × BTree)), (∀ x ∈ l, d1 ≤ distT q value vol x.2) →
          (leavesL l).length = l.length := by
        intro l
        induction l with
        | nil => intro _; simp [leavesL]
        | cons x l ih' =>
          intro hx
          obtain ⟨xi, xT⟩ := x
          have := hx (xi, xT) (by simp)
          cases xT with
          | leaf j =>
            have e := ih' (fun y hy => hx y (by simp [hy]))
            simp only [leavesL] at e
            simp only [leavesL, List.flatMap_cons, BTree.leaves, List.length_append, e,
              List.length_cons, List.length_nil]
            omega
          | node a b =>
            simp only [distT, hdv] at this
            exact absurd this (not_le.mpr h01)
      have := hone L (fun x hx => by have := hI.min x hx; simpa only [distT, hdl] using this)
      simp only [BTree.leaves, List.length_singleton] at hlv
      omega
    | node a b =>
      obtain ⟨ia, ib, hch, hla, hlb⟩ := layout_children hlay
      have hsz : ¬ id0 < mem.size := by obtain ⟨_, _, hsz, -⟩ := hlay; omega
      have hda := layout_dist (q := q) hla
      have hdb := layout_dist (q := q) hlb
      obtain ⟨c, f, hc, hf, hclo, hlc, hlf, hlv'⟩ :
          ∃ c f : ℕ × BTree,
            (if distT q value vol a < distT q value vol b then (ia, distT q value vol a)
              else (ib, distT q value vol b)) = ent q value vol c ∧
            (if distT q value vol a < distT q value vol b then (ib, distT q value vol b)
              else (ia, distT q value vol a)) = ent q value vol f ∧
            distT q value vol c.2 ≤ distT q value vol f.2 ∧
            (∃ rope, Layout mem value vol c.2 c.1 rope) ∧ (∃ rope, Layout mem value vol f.2 f.1 rope) ∧
            c.2.leaves.length + f.2.leaves.length = (BTree.node a b).leaves.length := by
        by_cases h : distT q value vol a < distT q value vol b
        · exact ⟨(ia, a), (ib, b), by simp [h, ent], by simp [h, ent], h.le, ⟨_, hla⟩, ⟨_, hlb⟩,
            by simp [BTree.leaves]⟩
        · exact ⟨(ib, b), (ia, a), by simp [h, ent], by simp [h, ent], not_lt.mp h, ⟨_, hlb⟩,
            ⟨_, hla⟩, by simp [BTree.leaves]; omega⟩
      rw [loop, if_neg hsz, hch]
      dsimp only
      rw [hda, hdb]
      dsimp only
      rw [hc, hf]
      have stay : (∀ y ∈ L, distT q value vol c.2 ≤ distT q value vol y.2) →
          (match pushFinite q heap (ent q value vol f) with
            | none => Res.fault
            | some h1 => loop mem q stop fuel c.1 h1 acc) = Res.fault := by
        intro hmin
        refine fin L heap f m (fun h1 => loop mem q stop fuel c.1 h1 acc) hI.isHeap hI.perm hm ?_
        intro hk h' hh' hp'
        refine ih (m - 1) (by omega) c.1 c.2 (f :: L) h' acc ⟨hh', hp', hlc, ?_, fun x _ => hfinT _,
          ?_, fun _ => hfinT _⟩ ?_ (by simp; omega) (by simp; omega) fuel (by omega)
        · intro x hx
          rcases List.mem_cons.mp hx with rfl | hx
          · exact hlf
          · exact hI.lay x hx
        · intro x hx
          rcases List.mem_cons.mp hx with rfl | hx
          · exact hclo
          · exact hmin x hx
        · simp only [leavesL, List.flatMap_cons, List.length_append] at hlv ⊢
          omega
      by_cases hL : L = []
      · rw [top_none hI.perm hL]
        exact stay (by simp [hL])
      · obtain ⟨x, L', heap', p1, p2, p3, p4, p5, p6⟩ := pop_pending hI.isHeap hI.perm hL
        have hxL : x ∈ L := p3.mem_iff.mpr (by simp)
        rw [p1]
        dsimp only
        by_cases hlt : distT q value vol x.2 < distT q value vol c.2
        · rw [if_pos (show (ent q value vol x).2 < (ent q value vol c).2 from hlt), p2]
          dsimp only
          have hlL := p3.length_eq
          simp only [List.length_cons] at hlL
          have hlvp := (leavesL_perm p3).length_eq
          simp only [leavesL, List.flatMap_cons, List.length_append] at hlvp
          obtain ⟨h1, a1, a2, a3⟩ := pushFinite_ok (q := q) (value := value) (vol := vol) c p4 p5
            (by rw [hadd]; simp; omega)
          rw [a1]
          dsimp only
          rw [hadd] at a3
          refine fin (c :: L') h1 f m (fun h1 => loop mem q stop fuel (ent q value vol x).1 h1 acc)
            a2 a3 (by simp; omega) ?_
          intro hk h' hh' hp'
          have hsub : ∀ y ∈ L', y ∈ L := fun y hy => p3.mem_iff.mpr (by simp [hy])
          refine ih (m - 1) (by omega) x.1 x.2 (f :: c :: L') h' acc ⟨hh', hp', hI.lay x hxL, ?_,
            fun x _ => hfinT _, ?_, fun _ => hfinT _⟩ ?_ (by simp; omega) (by simp; omega) fuel
            (by omega)
          · intro y hy
            simp only [List.mem_cons] at hy
            rcases hy with rfl | rfl | hy
            · exact hlf
            · exact hlc
            · exact hI.lay y (hsub y hy)
          · intro y hy
            simp only [List.mem_cons] at hy
            rcases hy with rfl | rfl | hy
            · exact hlt.le.trans hclo
            · exact hlt.le
            · exact p6 y (hsub y hy)
          · simp only [leavesL, List.flatMap_cons, List.length_append] at hlv ⊢
            omega
        · rw [if_neg (show ¬ (ent q value vol x).2 < (ent q value vol c).2 from hlt)]
          exact stay (fun y hy => (not_lt.mp hlt).trans (p6 y hy))

/-- **C07 (defect).** If every bounding volume is nearer than every value (for instance a
ray starting inside all the boxes of internal nodes) and there are at least two values more
than the buffer has entries (66 values), the query writes past the end of the buffer. -/
theorem ordered_buffer_overflow (I : Input α V w) (h : I.Valid) (q : Query α V D) {d0 d1 : D}
    (h01 : d0 < d1) (h1 : d1 < q.inf) (hdl : ∀ a, q.dl a = d1) (hdv : ∀ v, q.dv v = d0)
    (hcap : q.cap + 2 ≤ I.n) (stop : List α → Bool)
    (sched : List ℕ) (hf : I.Finished sched) (fuel : ℕ) (hfuel : 2 * I.n ≤ fuel) :
    orderedQuery (I.build sched) q stop fuel = .fault := by
  obtain ⟨T, hT⟩ := build_wellFormed I h (by omega)
  obtain ⟨hl, hlay⟩ := hT sched hf
  rw [build_size] at hl hlay
  unfold orderedQuery
  rw [build_size, if_neg (by omega), if_neg (by omega)]
  exact overflow (mem := I.build sched) h01 h1 hdl hdv stop q.cap I.n T [] [] []
    ⟨by intro p c x y _ _ hp; simp at hp, by simp, ⟨_, hlay⟩, by simp, by simp, by simp, by simp⟩
    (by rw [hl]; simpa [leavesL] using hcap) (by simp) (by simp) fuel (by omega)

/-! ## Non-vacuity -/

/-- Distances from 3 on the line, values above 3 are missed. -/
def exampleQuery : Query ℕ (Finset ℕ) (WithTop ℕ) where
  dl := fun a => if a ≤ 3 then ((3 - a : ℕ) : WithTop ℕ) else ⊤
  dv := fun s => s.inf (fun a => if a ≤ 3 then ((3 - a : ℕ) : WithTop ℕ) else ⊤)
  inf := ⊤
  cap := 64

example : Admissible exampleQuery Traversal.exampleInput.vol where
  leaf := fun a v h => Finset.inf_le (h (by simp [Traversal.exampleInput]))
  node := fun _ _ h => Finset.inf_mono h

example : BufferFits Traversal.exampleInput exampleQuery := ordered_small _ _ (by decide)

example : ∀ a, exampleQuery.dl a ≤ exampleQuery.inf := fun _ => le_top

/-- A query that hits nothing. -/
def missQuery : Query ℕ (Finset ℕ) (WithTop ℕ) := ⟨fun _ => ⊤, fun _ => ⊤, ⊤, 64⟩

example : Admissible missQuery Traversal.exampleInput.vol ∧ ∀ a, missQuery.dl a = missQuery.inf :=
  ⟨⟨fun _ _ _ => le_rfl, fun _ _ _ => le_rfl⟩, fun _ => rfl⟩

/-- 66 values with distinct codes, and a query inside every bounding volume. -/
def manyInput : Input ℕ (Finset ℕ) 64 where
  n := 66
  values := id
  vol := fun a => {a}
  code := fun i => BitVec.ofNat 64 i
  perm := id

theorem manyInput_valid : manyInput.Valid where
  width := by decide
  fits := by decide +kernel
  sorted := ⟨by decide +kernel, by
    intro i hi
    have : ∀ i < 65, (BitVec.ofNat 64 i).toNat ≤ (BitVec.ofNat 64 (i + 1)).toNat := by decide +kernel
    exact this i (by simp only [manyInput] at hi; omega)⟩
  top := by decide +kernel

/-- A query that only meets the value 7. -/
def sevenQuery : Query ℕ (Finset ℕ) (WithTop ℕ) := ⟨fun a => if a = 7 then 2 else ⊤, fun s => if 7 ∈ s then 1 else ⊤, ⊤, 64⟩

/-- The buffer is large enough for it, although there are 66 values. -/
theorem sevenQuery_fits : Admissible sevenQuery manyInput.vol ∧ BufferFits manyInput sevenQuery := by
  refine ⟨⟨fun a v h => ?_, fun u v h => ?_⟩, fun T hT => ?_⟩
  · by_cases ha : a = 7
    · subst ha
      have h7 : 7 ∈ v := h (by simp [manyInput])
      show (if 7 ∈ v then (1 : WithTop ℕ) else ⊤) ≤ if 7 = 7 then 2 else ⊤
      rw [if_pos h7, if_pos rfl]
      decide
    · exact le_of_le_of_eq le_top (if_neg ha).symm
  · by_cases hu : 7 ∈ u
    · exact le_of_eq ((if_pos (h hu)).trans (if_pos hu).symm)
    · exact le_of_le_of_eq le_top (if_neg hu).symm
  · have h1 : ∀ T : BTree, width sevenQuery (fun i => manyInput.values (manyInput.perm i)) manyInput.vol T ≤ max 1 (T.leaves.count 7) := by
      intro T
      induction T with
      | leaf i => rw [width]; split_ifs <;> simp
      | node a b iha ihb =>
        have hz : ∀ T : BTree, T.leaves.count 7 = 0 → width sevenQuery (fun i => manyInput.values (manyInput.perm i)) manyInput.vol T = 0 := by
          intro T h0
          refine width_zero fun hc => ?_
          have h7 : 7 ∉ T.leaves := List.count_eq_zero.1 h0
          cases T with
          | leaf i =>
            have : i ≠ 7 := fun e => h7 (by simp [BTree.leaves, e])
            exact absurd hc (by simp [distT, sevenQuery, manyInput, this])
          | node a b =>
            have hv : ∀ T : BTree, 7 ∉ T.leaves → 7 ∉ T.vol (fun i => manyInput.vol (manyInput.values (manyInput.perm i))) := by
              intro T
              induction T with
              | leaf i => intro h; simpa [BTree.leaves, BTree.vol, manyInput] using h
              | node a b iha ihb =>
                intro h
                simp only [BTree.leaves, List.mem_append, not_or] at h
                simp only [BTree.vol, Finset.sup_eq_union, Finset.mem_union, not_or]
                exact ⟨iha h.1, ihb h.2⟩
            have := hv _ h7
            exact absurd hc (by simp [distT, sevenQuery, this])
        rw [width]
        simp only [BTree.leaves, List.count_append]
        have ha := hz a
        have hb := hz b
        split_ifs <;> omega
    have h2 : ∀ {l r : ℕ} {T : BTree}, CartTree (deltaBits (fun i => manyInput.code (manyInput.perm i))) l r T → T.leaves.count 7 ≤ if l ≤ 7 ∧ 7 ≤ r then 1 else 0 := by
      intro l r T h
      induction h with
      | leaf i => simp only [BTree.leaves, List.count_singleton]; split_ifs <;> simp_all
      | node l p r a b h1 h2 _ _ _ _ iha ihb =>
        simp only [BTree.leaves, List.count_append]
        split_ifs at * <;> omega
    have h3 := h1 T
    have h4 := h2 hT
    have h5 : T.leaves.count 7 ≤ 1 := h4.trans (by split_ifs <;> omega)
    show _ ≤ 65
    omega

/-- The overflow happens for the buffer size of the code. -/
example (sched : List ℕ) (hf : manyInput.Finished sched) :
    orderedQuery (manyInput.build sched)
      (⟨fun _ => 1, fun _ => 0, ⊤, 64⟩ : Query ℕ (Finset ℕ) (WithTop ℕ)) (fun _ => false) 132 = .fault :=
  ordered_buffer_overflow manyInput manyInput_valid _ (d0 := 0) (d1 := 1) (by decide) (by decide)
    (fun _ => rfl) (fun _ => rfl) (by decide) _ sched hf _ (by decide)

end ArborX.Ordered
