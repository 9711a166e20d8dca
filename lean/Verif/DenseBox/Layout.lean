import Verif.DenseBox.Model

/-!
# The layout produced by sorting and reordering the points by cells
-/

namespace ArborX.DenseBox

open Perm

variable {V : Type} {w : ℕ}

/-- Offsets as a function. -/
lemma offsets_fun {K : Type} {n : ℕ} {view : ℕ → K} {offs : List ℕ} (h : IsOffsets n view offs) :
    offs.getD 0 0 = 0 ∧ offs.getD (offs.length - 1) 0 = n ∧
    ∀ k < offs.length - 1, offs.getD k 0 < offs.getD (k + 1) 0 ∧ offs.getD (k + 1) 0 ≤ n ∧
      ∀ i, offs.getD k 0 ≤ i → i < offs.getD (k + 1) 0 → view i = view (offs.getD k 0) := by
  have hne : 0 < offs.length := by
    rcases Nat.eq_zero_or_pos offs.length with h0 | h0
    · have := h.head
      rw [List.length_eq_zero_iff] at h0
      rw [h0] at this; simp at this
    · exact h0
  have hlast : offs[offs.length - 1]? = some n := by
    have := h.last
    rwa [List.getLast?_eq_getElem?] at this
  have hle : ∀ x ∈ offs, x ≤ n := by
    intro x hx
    obtain ⟨m, hm, em⟩ := List.mem_iff_getElem.mp hx
    obtain ⟨hl', el⟩ := List.getElem?_eq_some_iff.mp hlast
    rcases Nat.lt_or_ge m (offs.length - 1) with h1 | h1
    · have := List.pairwise_iff_getElem.mp h.sorted m _ hm hl' h1
      omega
    · have : m = offs.length - 1 := by omega
      subst this; omega
  refine ⟨?_, ?_, ?_⟩
  · have := h.head
    rw [List.head?_eq_getElem?] at this
    rw [List.getD_eq_getElem?_getD, this]; rfl
  · rw [List.getD_eq_getElem?_getD, hlast]; rfl
  · intro k hk
    have h1 : k < offs.length := by omega
    have h2 : k + 1 < offs.length := by omega
    rw [List.getD_eq_getElem _ _ h1, List.getD_eq_getElem _ _ h2]
    refine ⟨List.pairwise_iff_getElem.mp h.sorted k (k + 1) h1 h2 (by omega),
      hle _ (List.getElem_mem h2), ?_⟩
    exact (h.run k _ _ (List.getElem?_eq_getElem h1) (List.getElem?_eq_getElem h2)).1

/-- What the rest of the algorithm uses of the layout. -/
structure LayOk (D : DIn V w) (l : Lay) : Prop where
  perm : IsPerm D.n l.perm
  nd : l.nd ≤ D.n
  scell : ∀ i < D.n, l.scell i = D.cell (l.perm i)
  dense : ∀ i < l.nd, D.minPts ≤ ((List.range D.n).filter
    (fun j => decide (D.cell j = D.cell (l.perm i)))).length
  offs : IsOffsets l.nd l.scell l.doffs

/-- The cells tile the sorted view. -/
lemma cells_tiles (D : DIn V w) (S : DSched) (h1 : IsOrder (D.n + 1) S.ord1) : (D.cells S).Tiles D.n := by
  have h := computeOffsets_correct D.n (sortObjects D.n D.cell D.σ).1 S.garbage1 S.ord1 h1
  obtain ⟨a, b, c⟩ := offsets_fun h
  exact ⟨a, b, fun k hk => (c k hk).1.le⟩

lemma layout_ok (D : DIn V w) (S : DSched) (hσ : IsSort D.n D.cell D.σ) (h1 : IsOrder (D.n + 1) S.ord1)
    (h2 : ∀ m, IsOrder (m + 1) (S.ord2 m))
    (hdone : ∀ c < (D.cells S).m, (reorder (D.cells S) D.n S.reorder).thr c = .done) :
    ∃ l, D.layout S = some l ∧ LayOk D l := by
  have hT := cells_tiles D S h1
  obtain ⟨ht, hrows⟩ := hT.total
  have hperm := reorder_perm (D.cells S) D.n hT S.reorder hdone
  have hdone' := hdone
  rw [← ht] at hdone'
  obtain ⟨hf, od, os, hod, hos, hout, hlen⟩ := reorder_correct (D.cells S) S.reorder hdone'
  rw [ht] at hf hout
  obtain ⟨hsp, hsv, hso⟩ := sortObjects_correct D.n D.cell D.σ hσ
  have hoffs := computeOffsets_correct D.n (sortObjects D.n D.cell D.σ).1 S.garbage1 S.ord1 h1
  obtain ⟨-, -, hrun⟩ := offsets_fun hoffs
  set r := reorder (D.cells S) D.n S.reorder with hr
  -- every entry is an entry of the sorted view
  have hentry : ∀ i < D.n, ∃ j < D.n, r.out i = some ((D.cells S).inp j) := by
    intro i hi
    have : r.out i ∈ (List.range D.n).map r.out := List.mem_map_of_mem (List.mem_range.mpr hi)
    obtain ⟨j, hj, e⟩ := List.mem_map.mp (hperm.subset this)
    exact ⟨j, List.mem_range.mp hj, e.symm⟩
  have hnd : (D.cells S).numDense ≤ D.n := by
    rw [← ht, total_split]; omega
  have hlayout : D.layout S = some ⟨fun i => ((r.out i).getD (0, 0)).2, fun i => ((r.out i).getD (0, 0)).1,
      (D.cells S).numDense, computeOffsets (D.cells S).numDense (fun i => ((r.out i).getD (0, 0)).1)
        S.garbage2 (S.ord2 (D.cells S).numDense)⟩ := by
    unfold DIn.layout
    dsimp only
    rw [← hr, if_neg]
    rw [hf]
    have e1 : ((List.range (D.cells S).m).all fun c => decide (r.thr c = .done)) = true := by
      rw [List.all_eq_true]
      intro c hc
      rw [decide_eq_true_eq]
      exact hdone c (List.mem_range.mp hc)
    have e2 : ((List.range D.n).all fun i => (r.out i).isSome) = true := by
      rw [List.all_eq_true]
      intro i hi
      obtain ⟨j, -, e⟩ := hentry i (List.mem_range.mp hi)
      rw [e]; rfl
    rw [e1, e2]
    simp
  refine ⟨_, hlayout, ⟨?_, hnd, ?_, ?_, computeOffsets_correct _ _ _ _ (h2 _)⟩⟩
  · -- permutation
    have h := hperm.map (fun o : Option (ℕ × ℕ) => (o.getD (0, 0)).2)
    rw [List.map_map, List.map_map] at h
    exact h.trans hsp
  · intro i hi
    obtain ⟨j, hj, e⟩ := hentry i hi
    dsimp only
    rw [e]
    exact hsv j hj
  · intro i hi
    dsimp only at hi ⊢
    -- the entry lies in the row of a dense cell
    have hin : i < D.n := by omega
    have hlist : r.out i = (((od ++ os).flatMap (row (D.cells S))).map some)[i]?.getD none := by
      rw [← hout, List.getElem?_map, List.getElem?_range hin]; rfl
    have hlen' : i < (od.flatMap (row (D.cells S))).length := by rw [hlen]; exact hi
    rw [List.flatMap_append, List.getElem?_map, List.getElem?_append_left hlen',
      List.getElem?_eq_getElem hlen'] at hlist
    simp only [Option.map_some, Option.getD_some] at hlist
    have hmem := List.getElem_mem hlen'
    generalize (od.flatMap (row (D.cells S)))[i] = x at hlist hmem
    obtain ⟨c, hc, hx⟩ := List.mem_flatMap.mp hmem
    obtain ⟨hcm, hcd⟩ := List.mem_filter.mp (hod.subset hc)
    rw [List.mem_range] at hcm
    obtain ⟨k, hk, rfl⟩ := List.mem_map.mp hx
    rw [List.mem_range] at hk
    obtain ⟨r1, r2, r3⟩ := hrun c hcm
    change (D.cells S).offs c < (D.cells S).offs (c + 1) at r1
    change (D.cells S).offs (c + 1) ≤ D.n at r2
    have hcell : ∀ k < (D.cells S).size c,
        D.cell ((sortObjects D.n D.cell D.σ).2 ((D.cells S).offs c + k)) =
          (sortObjects D.n D.cell D.σ).1 ((D.cells S).offs c) := by
      intro k hk
      unfold Cells.size at hk
      rw [← hsv _ (by omega)]
      exact r3 _ (Nat.le_add_right _ _) (by change _ < (D.cells S).offs (c + 1); omega)
    have hdense : D.minPts ≤ (D.cells S).size c := by
      unfold Cells.dense at hcd
      rw [decide_eq_true_eq] at hcd
      exact hcd
    refine hdense.trans ?_
    have hL : ((List.range ((D.cells S).size c)).map
        (fun k => (sortObjects D.n D.cell D.σ).2 ((D.cells S).offs c + k))).length = (D.cells S).size c := by simp
    rw [← hL]
    apply List.Subperm.length_le
    apply List.subperm_of_subset
    · refine List.Nodup.map_on ?_ List.nodup_range
      intro a ha b hb e
      rw [List.mem_range] at ha hb
      unfold Cells.size at ha hb
      have := hsp.inj (by omega) (by omega) e
      omega
    · intro j hj
      obtain ⟨k', hk', rfl⟩ := List.mem_map.mp hj
      rw [List.mem_range] at hk'
      rw [List.mem_filter, List.mem_range, decide_eq_true_eq]
      have hk'' := hk'
      unfold Cells.size at hk''
      refine ⟨hsp.lt (by omega), ?_⟩
      rw [hcell k' hk', hlist]
      exact (hcell k hk).symm

end ArborX.DenseBox
