import Verif.Distributed.NearestModel
import Verif.Distributed.Closest
import Verif.Distributed.Spatial
import Verif.StdAlg.Theorems
import Verif.Heap.Theorems

/-!
# Lemmas about distributed nearest queries: the steps on one process
-/

namespace ArborX.Distributed

open BVH Traversal

variable {T X α V K : Type} {w : ℕ}

/-! ## Rows -/

lemma slice_take {n : ℕ} (rows : ℕ → List X) {i : ℕ} (hi : i < n) (c : ℕ) (hc : c ≤ (rows i).length) :
    slice ((List.range n).flatMap rows) (Crs.scan (fun j => (rows j).length) i) (Crs.scan (fun j => (rows j).length) i + c) =
      (rows i).take c := by
  obtain ⟨m, rfl⟩ : ∃ m, n = i + (1 + m) := ⟨n - i - 1, by omega⟩
  unfold slice
  rw [List.range_add, List.flatMap_append, ← Crs.scan_length, List.drop_left', Nat.add_sub_cancel_left]
  · rw [List.range_add, List.map_append, List.flatMap_append]
    simp only [List.range_one, List.map_cons, List.map_nil, Nat.add_zero, List.flatMap_cons, List.flatMap_nil, List.append_nil]
    rw [List.take_append_of_le_length hc]
  · rfl

lemma slice_row {n : ℕ} (rows : ℕ → List X) {i : ℕ} (hi : i < n) :
    slice ((List.range n).flatMap rows) (Crs.scan (fun j => (rows j).length) i) (Crs.scan (fun j => (rows j).length) (i + 1)) = rows i := by
  have := slice_take rows hi (rows i).length le_rfl
  rw [List.take_length] at this
  exact this

lemma offsets_scan {n : ℕ} (len : ℕ → ℕ) : ∀ i ≤ n, (offsetsFrom 0 ((List.range n).map len)).getD i 0 = Crs.scan len i := by
  intro i hi
  rw [offsetsFrom_getD _ _ _ (by simpa using hi), Nat.zero_add]
  apply Crs.scan_congr (n := n) _ i hi
  intro j hj
  simp [List.getD_eq_getElem?_getD, hj]

lemma write_at (off : List ℕ) (row : ℕ → List X) (i q : ℕ) (hq : off.getD q 0 ≤ i ∧ i < off.getD q 0 + (row q).length)
    (order : List ℕ) (hu : ∀ p ∈ order, p ≠ q → ¬ (off.getD p 0 ≤ i ∧ i < off.getD p 0 + (row p).length)) (buf : ℕ → Option X) :
    order.foldl (fun buf q => writeRow (off.getD q 0) (row q) buf) buf i =
      if q ∈ order then (row q)[i - off.getD q 0]? else buf i := by
  induction order generalizing buf with
  | nil => simp
  | cons p order ih =>
    rw [List.foldl_cons, ih (fun p' hp' => hu p' (by simp [hp']))]
    by_cases hpq : p = q
    · subst hpq
      unfold writeRow
      rw [if_pos hq]
      simp
    · by_cases hm : q ∈ order
      · simp [hm]
      · have : ¬ (q = p) := fun e => hpq e.symm
        simp only [hm, if_false, List.mem_cons, this, or_self]
        unfold writeRow
        rw [if_neg (hu p (by simp) hpq)]

lemma writeRows_spec (order : List ℕ) (n : ℕ) (ho : order.Perm (List.range n)) (len : ℕ → ℕ) (rows : ℕ → List X)
    (hl : ∀ i < n, len i = (rows i).length) :
    writeRows order (Crs.toList (Crs.scan len) (n + 1)) rows = some ((List.range n).flatMap rows) := by
  have hs : ∀ i ≤ n, Crs.scan len i = Crs.scan (fun q => (rows q).length) i := fun i hi => Crs.scan_congr (n := n) hl i hi
  have hoff : ∀ i ≤ n, (Crs.toList (Crs.scan len) (n + 1)).getD i 0 = Crs.scan (fun q => (rows q).length) i := by
    intro i hi
    rw [← hs i hi]
    simp [Crs.toList, List.getD_eq_getElem?_getD, show i < n + 1 by omega]
  have hlast : (Crs.toList (Crs.scan len) (n + 1)).getLast?.getD 0 = Crs.scan (fun q => (rows q).length) n := by
    rw [← hoff n le_rfl, List.getLast?_eq_getElem?, List.getD_eq_getElem?_getD]
    simp [Crs.toList]
  unfold writeRows
  rw [hlast]
  have key := Crs.toList_rows (rows := rows) (n := n)
    (out := order.foldl (fun buf q => writeRow ((Crs.toList (Crs.scan len) (n + 1)).getD q 0) (rows q) buf) (fun _ => none)) ?_
  · unfold Crs.toList at key ⊢
    rw [key, initialised_map_some]
  · intro j k v hj hk
    have hk1 : k < (rows j).length := (List.getElem?_eq_some_iff.mp hk).1
    rw [write_at _ _ _ j]
    · rw [if_pos (ho.mem_iff.mpr (List.mem_range.mpr hj)), hoff j hj.le, Nat.add_sub_cancel_left, hk]
    · rw [hoff j hj.le]; omega
    · intro p hp hpj
      have hp := List.mem_range.mp (ho.mem_iff.mp hp)
      rw [hoff p hp.le]
      intro hc
      have := Crs.scan_disjoint (fun q => (rows q).length) (i := p) (j := j)
        (k := Crs.scan (fun q => (rows q).length) j + k - Crs.scan (fun q => (rows q).length) p) (l := k) (by omega) hk1 (by omega)
      exact hpj this.1

lemma toList_scan_offsets (len : ℕ → ℕ) (n : ℕ) : Crs.toList (Crs.scan len) (n + 1) = offsetsFrom 0 ((List.range n).map len) := by
  apply List.ext_getElem
  · simp [Crs.toList, offsetsFrom_length]
  · intro i h1 h2
    have hi : i < n + 1 := by simpa [Crs.toList] using h1
    have := offsets_scan len i (Nat.le_of_lt_succ hi)
    rw [List.getD_eq_getElem _ _ h2] at this
    rw [this]
    simp [Crs.toList]

lemma initialised_map {ι : Type} (l : List ι) (f : ι → Option X) (g : ι → X) (h : ∀ i ∈ l, f i = some (g i)) :
    initialised (l.map f) = some (l.map g) := by
  rw [← initialised_map_some, List.map_map]
  congr 1
  exact List.map_congr_left h

/-! ## The ranks to ask -/

lemma ranksNeeded_spec (sizes : ℕ → ℕ) (k : ℕ) (l : List ℤ) (count : ℕ) :
    ranksNeeded sizes k l count ≤ l.length ∧ (∀ t ∈ l.take (ranksNeeded sizes k l count), sizes t.toNat ≠ 0) ∧
    (k ≤ count + ((l.take (ranksNeeded sizes k l count)).map (fun t => sizes t.toNat)).sum ∨
      ranksNeeded sizes k l count = l.length ∨
      ∃ t, l[ranksNeeded sizes k l count]? = some t ∧ sizes t.toNat = 0) := by
  induction l generalizing count with
  | nil => simp [ranksNeeded]
  | cons t l ih =>
    unfold ranksNeeded
    by_cases h : sizes t.toNat = 0 ∨ k ≤ count
    · rw [if_pos h]
      refine ⟨by simp, by simp, ?_⟩
      rcases h with h | h
      · exact Or.inr (Or.inr ⟨t, by simp, h⟩)
      · exact Or.inl (by simp; exact h)
    · rw [if_neg h]
      push Not at h
      obtain ⟨h1, h2, h3⟩ := ih (count + sizes t.toNat)
      refine ⟨by simpa using h1, ?_, ?_⟩
      · intro t' ht'
        rw [List.take_succ_cons, List.mem_cons] at ht'
        rcases ht' with rfl | ht'
        · exact h.1
        · exact h2 t' ht'
      · rcases h3 with h3 | h3 | h3
        · left
          rw [List.take_succ_cons, List.map_cons, List.sum_cons]
          omega
        · right; left; simpa using h3
        · right; right; simpa using h3

/-! ## The farthest distance -/

variable [LinearOrder K]

lemma lt_strictWeak : Heap.StrictWeak (fun a b : K => decide (a < b)) where
  asymm := by
    intro a b h
    simp only [decide_eq_true_eq, decide_eq_false_iff_not] at h ⊢
    exact h.asymm
  negtrans := by
    intro a b c h1 h2
    simp only [decide_eq_false_iff_not, not_lt] at h1 h2 ⊢
    exact h2.trans h1

lemma farthestOf_spec (k : ℕ) (row : List K) (g : K) (hk : k = 0 → row = []) :
    ∃ R, farthestOf k row g = some R ∧ min k row.length ≤ row.countP (fun x => decide (x ≤ R)) ∧ (row ≠ [] → R ∈ row) := by
  unfold farthestOf
  by_cases h0 : row.length = 0
  · rw [if_pos h0]
    exact ⟨g, rfl, by omega, fun h => absurd (List.length_eq_zero_iff.mp h0) h⟩
  rw [if_neg h0, if_neg (fun h => h0 (by rw [hk h]; rfl))]
  have hk0 : k ≠ 0 := fun h => h0 (by rw [hk h]; rfl)
  obtain ⟨r, v, h1, h2, -, h4, h5, -⟩ := StdAlg.nth_element_correct lt_strictWeak row (first := 0) (nth := min k row.length - 1)
    (last := row.length) (by omega) (by omega) le_rfl
  rw [h1 _ (by omega), Option.bind_some, h4]
  refine ⟨v, rfl, ?_, fun _ => h2.mem_iff.mp (List.mem_of_getElem? h4)⟩
  rw [← h2.countP_eq]
  have hlen : r.length = row.length := h2.length_eq
  have : (r.take (min k row.length)).countP (fun x => decide (x ≤ v)) = (r.take (min k row.length)).length := by
    rw [List.countP_eq_length]
    intro x hx
    obtain ⟨i, hi, rfl⟩ := List.getElem_of_mem hx
    rw [List.length_take] at hi
    rw [List.getElem_take]
    simp only [decide_eq_true_eq]
    rcases Nat.lt_or_ge i (min k row.length - 1) with hlt | hge
    · have := h5 i _ (Nat.zero_le _) hlt (List.getElem?_eq_getElem (by omega))
      simpa using this
    · have : i = min k row.length - 1 := by omega
      subst this
      rw [List.getElem?_eq_getElem (by omega)] at h4
      exact le_of_eq (Option.some.inj h4)
  have h3 := (List.take_sublist (min k row.length) r).countP_le (p := fun x => decide (x ≤ v))
  rw [this, List.length_take] at h3
  omega

/-! ## The queue -/

lemma compare_strictWeak : Heap.StrictWeak (compareDistance : T × K → T × K → Bool) where
  asymm := by
    intro a b h
    simp only [compareDistance, gt_iff_lt, decide_eq_true_eq, decide_eq_false_iff_not] at h ⊢
    exact h.asymm
  negtrans := by
    intro a b c h1 h2
    simp only [compareDistance, gt_iff_lt, decide_eq_false_iff_not, not_lt] at h1 h2 ⊢
    exact h1.trans h2

lemma fillQueue_spec (cap : ℕ) (l c : List (T × K)) (h : Heap.IsHeap compareDistance c c.length) (hc : c.length + l.length ≤ cap) :
    ∃ r, fillQueue cap l c = some r ∧ Heap.IsHeap compareDistance r r.length ∧ r.Perm (l ++ c) := by
  induction l generalizing c with
  | nil => exact ⟨c, rfl, h, by simp⟩
  | cons x l ih =>
    simp only [List.length_cons] at hc
    obtain ⟨r, r1, r2, r3⟩ := Heap.push_correct compare_strictWeak (cap := cap) x h (by omega)
    have hl : r.length = c.length + 1 := by simpa using r3.length_eq
    obtain ⟨r', s1, s2, s3⟩ := ih r r2 (by omega)
    refine ⟨r', by simp only [fillQueue, r1, Option.bind_some, s1], s2, s3.trans ?_⟩
    refine (r3.append_left l).trans ?_
    simp

lemma takeQueue_spec (k : ℕ) (c : List (T × K)) (h : Heap.IsHeap compareDistance c c.length) :
    ∃ taken rest : List (T × K), takeQueue k c = some (taken.map Prod.fst) ∧ (taken ++ rest).Perm c ∧ taken.Pairwise (fun a b => a.2 ≤ b.2) ∧
      taken.length = min k c.length ∧ ∀ a ∈ taken, ∀ b ∈ rest, a.2 ≤ b.2 := by
  induction k generalizing c with
  | zero => exact ⟨[], c, rfl, by simp, by simp, by simp, by simp⟩
  | succ k ih =>
    unfold takeQueue
    by_cases hc : c = []
    · subst hc
      exact ⟨[], [], by simp, by simp, by simp, by simp, by simp⟩
    · rw [if_neg (by simpa using hc)]
      obtain ⟨t, r, h1, h2, h3, h4, h5⟩ := Heap.pop_correct compare_strictWeak h hc
      obtain ⟨taken, rest, i1, i2, i3, i4, i5⟩ := ih r h4
      have hmin : ∀ x ∈ c, t.2 ≤ x.2 := by
        intro x hx
        have := h2 x hx
        simpa [compareDistance] using this
      refine ⟨t :: taken, rest, ?_, ?_, ?_, ?_, ?_⟩
      · rw [h1, Option.bind_some, h3, Option.bind_some, i1]; rfl
      · exact (i2.cons t).trans h5
      · rw [List.pairwise_cons]
        refine ⟨fun x hx => hmin x ?_, i3⟩
        exact h5.mem_iff.mp (by simp [i2.mem_iff.mp (List.mem_append_left _ hx)])
      · have : c.length = r.length + 1 := by simpa using h5.length_eq.symm
        rw [List.length_cons, i4]; omega
      · intro a ha b hb
        rcases List.mem_cons.mp ha with rfl | ha
        · exact hmin b (h5.mem_iff.mp (by simp [i2.mem_iff.mp (List.mem_append_right _ hb)]))
        · exact i5 a ha b hb

lemma filterRow_spec (k : ℕ) (row : List (T × K)) :
    ∃ taken rest : List (T × K), filterRow k row = some (taken.map Prod.fst) ∧ (taken ++ rest).Perm row ∧ taken.Pairwise (fun a b => a.2 ≤ b.2) ∧
      taken.length = min k row.length ∧ ∀ a ∈ taken, ∀ b ∈ rest, a.2 ≤ b.2 := by
  unfold filterRow
  by_cases h0 : row = []
  · subst h0
    exact ⟨[], [], by simp, by simp, by simp, by simp, by simp⟩
  rw [if_neg (by simpa using h0)]
  obtain ⟨r, r1, r2, r3⟩ := fillQueue_spec row.length row [] (by intro p k x y _ hk; simp at hk) (by simp)
  obtain ⟨taken, rest, i1, i2, i3, i4, i5⟩ := takeQueue_spec k r r2
  rw [List.append_nil] at r3
  exact ⟨taken, rest, by rw [r1, Option.bind_some, i1], i2.trans r3, i3, by rw [i4, r3.length_eq], i5⟩

/-- The queue finds the closest values. -/
lemma filterRow_closest (k : ℕ) (row : List (T × K)) (f : α → T) (dl : α → K) (inf : K) (comb : List α)
    (hp : row.Perm (comb.map (fun a => (f a, dl a)))) :
    ∃ calls, filterRow k row = some (calls.map f) ∧ calls.length = min row.length k ∧ IsKClosest dl inf k comb calls := by
  obtain ⟨taken, rest, h1, h2, h3, h4, h5⟩ := filterRow_spec k row
  obtain ⟨L, l1, l2⟩ := perm_map_lift (h2.trans hp)
  obtain ⟨A, B, rfl, hA, hB⟩ := List.map_eq_append_iff.mp l2
  refine ⟨A, ?_, ?_, B, l1, ?_, ?_, ?_, ?_⟩
  · rw [h1, ← hA, List.map_map]; rfl
  · rw [← hA, List.length_map] at h4; omega
  · rw [← hA, List.pairwise_map] at h3
    exact h3
  · rw [← hA, List.length_map] at h4; omega
  · intro a ha b hb
    exact h5 (f a, dl a) (hA ▸ List.mem_map_of_mem ha) (f b, dl b) (hB ▸ List.mem_map_of_mem hb)
  · intro hlt b hb
    exfalso
    have e := h2.length_eq
    rw [← hA, ← hB] at e
    rw [← hA] at h4
    have := List.length_pos_of_mem hb
    simp at e h4
    omega

end ArborX.Distributed
