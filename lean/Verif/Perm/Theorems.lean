import Verif.Perm.Model
import Mathlib.Data.List.Perm.Basic
import Mathlib.Data.List.Nodup
import Mathlib.Data.List.Range
import Mathlib.Order.Basic
import Mathlib.Tactic.Common
import Mathlib.Order.Defs.LinearOrder

/-!
# Property theorems: permutations (C17) and offsets (C42)
-/

namespace ArborX.Perm

open Function (update)

variable {T K : Type}

/-- `perm` is a permutation of `0 .. n-1`. -/
def IsPerm (n : ℕ) (perm : ℕ → ℕ) : Prop := ((List.range n).map perm).Perm (List.range n)

/-- `order` executes every iteration of `0 .. n-1` once. -/
def IsOrder (n : ℕ) (order : List ℕ) : Prop := order.Perm (List.range n)

instance (n : ℕ) (perm : ℕ → ℕ) : Decidable (IsPerm n perm) := by unfold IsPerm; infer_instance

instance (n : ℕ) (order : List ℕ) : Decidable (IsOrder n order) := by unfold IsOrder; infer_instance

lemma IsPerm.lt {n : ℕ} {perm : ℕ → ℕ} (h : IsPerm n perm) {i : ℕ} (hi : i < n) : perm i < n :=
  List.mem_range.mp (h.subset (List.mem_map_of_mem (List.mem_range.mpr hi)))

lemma IsPerm.inj {n : ℕ} {perm : ℕ → ℕ} (h : IsPerm n perm) {i j : ℕ} (hi : i < n) (hj : j < n)
    (e : perm i = perm j) : i = j := by
  have hn : ((List.range n).map perm).Nodup := h.nodup_iff.mpr List.nodup_range
  exact List.inj_on_of_nodup_map hn (List.mem_range.mpr hi) (List.mem_range.mpr hj) e

lemma IsPerm.surj {n : ℕ} {perm : ℕ → ℕ} (h : IsPerm n perm) {j : ℕ} (hj : j < n) :
    ∃ i < n, perm i = j := by
  have := h.symm.subset (List.mem_range.mpr hj)
  obtain ⟨i, hi, e⟩ := List.mem_map.mp this
  exact ⟨i, List.mem_range.mp hi, e⟩

/-- A sequence of writes to distinct places. -/
lemma foldl_writes (f : ℕ → ℕ) (g : ℕ → T) (order : List ℕ) (hd : order.Pairwise (fun i j => f i ≠ f j)) (out : ℕ → T)
    (P : ℕ → Prop) [DecidablePred P] (hP : ∀ i ∈ order, P i) :
    ∃ out', order.foldl (fun o i => o.bind (fun out =>
        if P i then some (update out (f i) (g i)) else none)) (some out) = some out' ∧
      (∀ i ∈ order, out' (f i) = g i) ∧ ∀ k, (∀ i ∈ order, f i ≠ k) → out' k = out k := by
  induction order generalizing out with
  | nil => exact ⟨out, rfl, by simp, fun _ _ => rfl⟩
  | cons a as ih =>
    have ha := hP a List.mem_cons_self
    rw [List.pairwise_cons] at hd
    obtain ⟨out', h1, h2, h3⟩ := ih hd.2 (update out (f a) (g a))
      (fun i hi => hP i (List.mem_cons_of_mem _ hi))
    refine ⟨out', ?_, ?_, ?_⟩
    · simp only [List.foldl_cons, Option.bind_some, if_pos ha]
      exact h1
    · intro i hi
      rcases List.mem_cons.mp hi with rfl | hi
      · rw [h3 (f i) (fun j hj e => hd.1 j hj e.symm), Function.update_self]
      · exact h2 i hi
    · intro k hk
      rw [h3 k (fun i hi => hk i (List.mem_cons_of_mem _ hi)),
        Function.update_of_ne (hk a List.mem_cons_self).symm]

/-- **C17.** `applyPermutation`: entry `i` of the output is entry `perm i` of the input, for
every order of the iterations. -/
theorem applyPermutation_correct (n : ℕ) (perm : ℕ → ℕ) (h : IsPerm n perm) (inp out : ℕ → T)
    (order : List ℕ) (ho : IsOrder n order) :
    ∃ out', applyPermutation n perm n inp n out order = some out' ∧
      ∀ i < n, out' i = inp (perm i) := by
  have hm : ∀ i ∈ order, i < n := fun i hi => List.mem_range.mp (ho.subset hi)
  obtain ⟨out', h1, h2, -⟩ := foldl_writes (fun i => i) (fun i => inp (perm i)) order
    (by
      have : order.Nodup := ho.nodup_iff.mpr List.nodup_range
      exact this) out (fun i => perm i < n) (fun i hi => h.lt (hm i hi))
  refine ⟨out', ?_, fun i hi => h2 i (ho.symm.subset (List.mem_range.mpr hi))⟩
  unfold applyPermutation
  rw [if_pos ⟨rfl, rfl⟩]
  exact h1

/-- **C17.** `applyInversePermutation`: entry `perm i` of the output is entry `i` of the input,
for every order of the iterations. -/
theorem applyInversePermutation_correct (n : ℕ) (perm : ℕ → ℕ) (h : IsPerm n perm) (inp out : ℕ → T)
    (order : List ℕ) (ho : IsOrder n order) :
    ∃ out', applyInversePermutation n perm n inp n out order = some out' ∧
      ∀ i < n, out' (perm i) = inp i := by
  have hm : ∀ i ∈ order, i < n := fun i hi => List.mem_range.mp (ho.subset hi)
  have hlt : ∀ i ∈ order, perm i < n := fun i hi => h.lt (hm i hi)
  obtain ⟨out', h1, h2, -⟩ := foldl_writes perm inp order
    (by
      have hnd : order.Nodup := ho.nodup_iff.mpr List.nodup_range
      refine List.Pairwise.imp_of_mem ?_ hnd
      intro a b ha hb hab e
      exact hab (h.inj (hm a ha) (hm b hb) e)) out (fun i => perm i < n) hlt
  refine ⟨out', ?_, fun i hi => h2 i (ho.symm.subset (List.mem_range.mpr hi))⟩
  unfold applyInversePermutation
  rw [if_pos ⟨rfl, rfl⟩]
  exact h1

/-- **C17.** Permuting, then inverse permuting gives back the view, and the other way round. -/
theorem permutation_round_trip (n : ℕ) (perm : ℕ → ℕ) (h : IsPerm n perm) (inp o1 o2 : ℕ → T)
    (r1 r2 : List ℕ) (h1 : IsOrder n r1) (h2 : IsOrder n r2) :
    (∃ a b, applyPermutation n perm n inp n o1 r1 = some a ∧
      applyInversePermutation n perm n a n o2 r2 = some b ∧ ∀ i < n, b i = inp i) ∧
    (∃ a b, applyInversePermutation n perm n inp n o1 r1 = some a ∧
      applyPermutation n perm n a n o2 r2 = some b ∧ ∀ i < n, b i = inp i) := by
  constructor
  · obtain ⟨a, ha, ha'⟩ := applyPermutation_correct n perm h inp o1 r1 h1
    obtain ⟨b, hb, hb'⟩ := applyInversePermutation_correct n perm h a o2 r2 h2
    refine ⟨a, b, ha, hb, fun i hi => ?_⟩
    obtain ⟨j, hj, rfl⟩ := h.surj hi
    rw [hb' j hj, ha' j hj]
  · obtain ⟨a, ha, ha'⟩ := applyInversePermutation_correct n perm h inp o1 r1 h1
    obtain ⟨b, hb, hb'⟩ := applyPermutation_correct n perm h a o2 r2 h2
    exact ⟨a, b, ha, hb, fun i hi => by rw [hb' i hi, ha' i hi]⟩

/-- **C17.** No element is lost or duplicated. -/
theorem permutation_keeps_elements (n : ℕ) (perm : ℕ → ℕ) (h : IsPerm n perm) (inp : ℕ → T) (out : ℕ → T) :
    ((∀ i < n, out i = inp (perm i)) ∨ (∀ i < n, out (perm i) = inp i)) →
    ((List.range n).map out).Perm ((List.range n).map inp) := by
  have hmap : ∀ f : ℕ → T, ((List.range n).map (fun i => f (perm i))).Perm ((List.range n).map f) := by
    intro f
    have := h.map f
    simpa [List.map_map, Function.comp_def] using this
  rintro (e | e)
  · refine (List.Perm.of_eq ?_).trans (hmap inp)
    exact List.map_congr_left (fun i hi => e i (List.mem_range.mp hi))
  · refine (hmap out).symm.trans (List.Perm.of_eq ?_)
    exact List.map_congr_left (fun i hi => e i (List.mem_range.mp hi))

/-- **C17.** In place. -/
theorem applyPermutationInPlace_correct (n : ℕ) (perm : ℕ → ℕ) (h : IsPerm n perm) (view : ℕ → T)
    (order : List ℕ) (ho : IsOrder n order) :
    ∃ out', applyPermutationInPlace n perm n view order = some out' ∧
      ∀ i < n, out' i = view (perm i) :=
  applyPermutation_correct n perm h view view order ho

/-- **C17.** `sortObjects` sorts the view and returns the permutation that does it. -/
theorem sortObjects_correct [LinearOrder K] (n : ℕ) (view : ℕ → K) (σ : ℕ → ℕ) (hσ : IsSort n view σ) :
    let r := sortObjects n view σ
    IsPerm n r.2 ∧ (∀ i < n, r.1 i = view (r.2 i)) ∧
      ∀ i j, i ≤ j → j < n → r.1 i ≤ r.1 j := by
  have hid : IsPerm n (fun i => i) := by unfold IsPerm; simp
  intro r
  have key : IsPerm n r.2 ∧ (∀ i < n, r.1 i = view (r.2 i)) ∧ ∀ i, i + 1 < n → r.1 i ≤ r.1 (i + 1) := by
    change IsPerm n (sortObjects n view σ).2 ∧ (∀ i < n, (sortObjects n view σ).1 i = view ((sortObjects n view σ).2 i)) ∧
      ∀ i, i + 1 < n → (sortObjects n view σ).1 i ≤ (sortObjects n view σ).1 (i + 1)
    unfold sortObjects sortByKey
    split_ifs with h0 h1
    · exact ⟨hid, fun _ _ => rfl, fun i hi => by omega⟩
    · refine ⟨hid, fun _ _ => rfl, fun i hi => ?_⟩
      rw [List.all_eq_true] at h1
      have a := h1 i (List.mem_range.mpr (by omega))
      have b := h1 (i + 1) (List.mem_range.mpr hi)
      simp only [decide_eq_true_eq] at a b
      dsimp only
      rw [a, b]
    · exact ⟨hσ.1, fun _ _ => rfl, fun i hi => hσ.2 i hi⟩
  refine ⟨key.1, key.2.1, ?_⟩
  intro i j hij
  induction j, hij using Nat.le_induction with
  | base => intro _; exact le_rfl
  | succ j hij ih => intro hj; exact (ih (by omega)).trans (key.2.2 j hj)

/-- Reversing three entries. -/
example : IsPerm 3 (fun i => 2 - i) ∧ IsOrder 3 [1, 2, 0] := by
  constructor <;> decide

example : IsSort 3 (fun i => 2 - i) (fun i => 2 - i) := by
  constructor
  · decide
  · intro i hi
    have : i = 0 ∨ i = 1 := by omega
    rcases this with rfl | rfl <;> decide

/-! ## Offsets -/

lemma prefixCount_eq (p : ℕ → Bool) (m : ℕ) :
    prefixCount p m = ((List.range m).filter p).length := by
  induction m with
  | zero => rfl
  | succ m ih =>
    rw [prefixCount, List.range_succ, List.filter_append, List.length_append, ih]
    cases h : p m <;> simp [h]

lemma prefixCount_mono (p : ℕ → Bool) {i j : ℕ} (h : i ≤ j) : prefixCount p i ≤ prefixCount p j := by
  induction j, h using Nat.le_induction with
  | base => exact le_rfl
  | succ j _ ih => rw [prefixCount]; omega

lemma prefixCount_lt (p : ℕ → Bool) {i j : ℕ} (h : i < j) (hi : p i = true) :
    prefixCount p i < prefixCount p j := by
  have := prefixCount_mono p (Nat.succ_le_of_lt h)
  rw [Nat.succ_eq_add_one, prefixCount, hi] at this
  simp at this
  omega

/-- The filtered list at the prefix count. -/
lemma filter_getElem_prefix (p : ℕ → Bool) (m i : ℕ) (hi : i < m) (hp : p i = true) :
    ((List.range m).filter p)[prefixCount p i]? = some i := by
  induction m with
  | zero => omega
  | succ m ih =>
    rw [List.range_succ, List.filter_append]
    by_cases e : i = m
    · subst e
      rw [List.getElem?_append_right (by rw [prefixCount_eq]), prefixCount_eq]
      simp [hp]
    · have hlt : i < m := by omega
      have h1 := prefixCount_lt p hlt hp
      rw [prefixCount_eq p m] at h1
      rw [List.getElem?_append_left h1]
      exact ih hlt

/-- The offsets are the first indices, in order, for every order of the iterations. -/
lemma computeOffsets_eq [DecidableEq K] (n : ℕ) (view : ℕ → K) (garbage : ℕ → ℕ) (order : List ℕ)
    (ho : IsOrder (n + 1) order) :
    computeOffsets n view garbage order = (List.range (n + 1)).filter (isFirst n view) := by
  set p := isFirst n view with hp
  have hwr : ∀ (order : List ℕ) (g : ℕ → ℕ), order.Nodup →
      ∀ i ∈ order, p i = true →
      (order.foldl (fun o i => if p i then update o (prefixCount p i) i else o) g) (prefixCount p i) = i := by
    intro order
    induction order with
    | nil => intro g _ i hi; simp at hi
    | cons a as ih =>
      intro g hnd i hi hpi
      rw [List.nodup_cons] at hnd
      rw [List.foldl_cons]
      rcases List.mem_cons.mp hi with rfl | hi
      · rw [if_pos hpi]
        have hkeep : ∀ (as : List ℕ) (g : ℕ → ℕ), i ∉ as →
            (as.foldl (fun o i => if p i then update o (prefixCount p i) i else o) g) (prefixCount p i)
              = g (prefixCount p i) := by
          intro as
          induction as with
          | nil => intro g _; rfl
          | cons b bs ihb =>
            intro g hni
            rw [List.foldl_cons, ihb _ (fun h => hni (List.mem_cons_of_mem _ h))]
            by_cases hpb : p b = true
            · rw [if_pos hpb, Function.update_of_ne]
              intro e
              have hne : i ≠ b := fun e => hni (e ▸ List.mem_cons_self)
              rcases Nat.lt_or_gt_of_ne hne with h | h
              · have := prefixCount_lt p h hpi; omega
              · have := prefixCount_lt p h hpb; omega
            · rw [if_neg hpb]
        rw [hkeep as _ hnd.1, Function.update_self]
      · exact ih _ hnd.2 i hi hpi
  unfold computeOffsets
  rw [← hp]
  dsimp only
  apply List.ext_getElem?
  intro k
  rw [List.getElem?_map]
  by_cases hk : k < prefixCount p (n + 1)
  · rw [List.getElem?_range hk, Option.map_some]
    have hk' := hk
    rw [prefixCount_eq] at hk'
    -- the entry `k` of the filtered list
    obtain ⟨i, hi⟩ : ∃ i, ((List.range (n + 1)).filter p)[k]? = some i := ⟨_, List.getElem?_eq_getElem hk'⟩
    have hmem : i ∈ (List.range (n + 1)).filter p := List.mem_of_getElem? hi
    rw [List.mem_filter, List.mem_range] at hmem
    have hpos := filter_getElem_prefix p (n + 1) i hmem.1 hmem.2
    have hnd : ((List.range (n + 1)).filter p).Nodup := List.nodup_range.filter _
    have hkk : k = prefixCount p i := by
      refine (List.getElem?_inj hk' hnd).mp ?_
      rw [hi, hpos]
    rw [hi, hkk]
    congr 1
    exact hwr order garbage (ho.nodup_iff.mpr List.nodup_range) i
      (ho.symm.subset (List.mem_range.mpr hmem.1)) hmem.2
  · have h1 : (List.range (prefixCount p (n + 1)))[k]? = none := by
      rw [List.getElem?_eq_none_iff, List.length_range]; omega
    have h2 : ((List.range (n + 1)).filter p)[k]? = none := by
      rw [List.getElem?_eq_none_iff, ← prefixCount_eq]; omega
    rw [h1, h2]; rfl

/-- Specification of the offsets of a view of `n` keys: the first offset is 0, the last is
`n`, they increase strictly, and between two consecutive offsets `a`, `b` lies a maximal run of
equal keys. -/
structure IsOffsets (n : ℕ) (view : ℕ → K) (offs : List ℕ) : Prop where
  head : offs.head? = some 0
  last : offs.getLast? = some n
  sorted : offs.Pairwise (· < ·)
  run : ∀ k a b, offs[k]? = some a → offs[k + 1]? = some b →
    (∀ i, a ≤ i → i < b → view i = view a) ∧ (b < n → view b ≠ view (b - 1))

/-- **C42.** `computeOffsetsInOrderedView` returns the offsets of the runs of equal keys, for
every view and every order of the iterations of the scan. -/
theorem computeOffsets_correct [DecidableEq K] (n : ℕ) (view : ℕ → K) (garbage : ℕ → ℕ)
    (order : List ℕ) (ho : IsOrder (n + 1) order) :
    IsOffsets n view (computeOffsets n view garbage order) := by
  rw [computeOffsets_eq n view garbage order ho]
  have h0 : isFirst n view 0 = true := by simp [isFirst]
  have hn : isFirst n view n = true := by simp [isFirst]
  have hs : ((List.range (n + 1)).filter (isFirst n view)).Pairwise (· < ·) :=
    List.Pairwise.filter _ List.pairwise_lt_range
  refine ⟨?_, ?_, hs, ?_⟩
  · rw [List.range_succ_eq_map, List.filter_cons, if_pos h0]; rfl
  · rw [List.range_succ, List.filter_append]
    simp [hn]
  · intro k a b ha hb
    have hma := List.mem_of_getElem? ha
    have hmb := List.mem_of_getElem? hb
    rw [List.mem_filter, List.mem_range] at hma hmb
    obtain ⟨hka, ea⟩ := List.getElem?_eq_some_iff.mp ha
    obtain ⟨hkb, eb⟩ := List.getElem?_eq_some_iff.mp hb
    have hab : a < b := by
      have := List.pairwise_iff_getElem.mp hs k (k + 1) hka hkb (by omega)
      omega
    -- no first index strictly between
    have hbetween : ∀ i, a < i → i < b → isFirst n view i = false := by
      intro i h1 h2
      by_contra hne
      have hpi : isFirst n view i = true := by
        cases h : isFirst n view i
        · exact absurd h hne
        · rfl
      have hmi : i ∈ (List.range (n + 1)).filter (isFirst n view) := by
        rw [List.mem_filter, List.mem_range]; exact ⟨by omega, hpi⟩
      obtain ⟨m, hm, em⟩ := List.mem_iff_getElem.mp hmi
      rcases Nat.lt_trichotomy m k with h | h | h
      · have := List.pairwise_iff_getElem.mp hs m k hm hka h
        omega
      · subst h; omega
      · rcases Nat.lt_or_ge (k + 1) m with h' | h'
        · have := List.pairwise_iff_getElem.mp hs (k + 1) m hkb hm h'
          omega
        · have : m = k + 1 := by omega
          subst this; omega
    constructor
    · intro i h1
      induction i, h1 using Nat.le_induction with
      | base => intro _; rfl
      | succ i hi ih =>
        intro h2
        have := hbetween (i + 1) (by omega) h2
        simp [isFirst] at this
        rw [this.2, ih (by omega)]
    · intro hbn
      have := hmb.2
      simp [isFirst] at this
      rcases this with h | h
      · omega
      · exact h

/-- **C42.** In an ordered view the runs are exactly the groups: all places holding the key of
the run lie in it. -/
theorem offsets_groups [LinearOrder K] (n : ℕ) (view : ℕ → K) (offs : List ℕ) (h : IsOffsets n view offs)
    (hord : ∀ i j, i ≤ j → j < n → view i ≤ view j) (k a b : ℕ) (ha : offs[k]? = some a)
    (hb : offs[k + 1]? = some b) (i : ℕ) (hi : i < n) : view i = view a ↔ a ≤ i ∧ i < b := by
  obtain ⟨hka, ea⟩ := List.getElem?_eq_some_iff.mp ha
  obtain ⟨hkb, eb⟩ := List.getElem?_eq_some_iff.mp hb
  have hab : a < b := by
    have := List.pairwise_iff_getElem.mp h.sorted k (k + 1) hka hkb (by omega)
    omega
  have hle : ∀ x ∈ offs, x ≤ n := by
    intro x hx
    obtain ⟨m, hm, em⟩ := List.mem_iff_getElem.mp hx
    have hl := h.last
    rw [List.getLast?_eq_getElem?] at hl
    obtain ⟨hl', el⟩ := List.getElem?_eq_some_iff.mp hl
    rcases Nat.lt_or_ge m (offs.length - 1) with h1 | h1
    · have := List.pairwise_iff_getElem.mp h.sorted m _ hm hl' h1
      omega
    · have : m = offs.length - 1 := by omega
      subst this; omega
  have hbn : b ≤ n := hle b (List.mem_of_getElem? hb)
  obtain ⟨hrun, hmax⟩ := h.run k a b ha hb
  constructor
  · intro e
    constructor
    · by_contra hlt
      -- a is a first index: view (a-1) ≠ view a
      rcases Nat.eq_zero_or_pos k with hk | hk
      · subst hk
        have := h.head
        rw [List.head?_eq_getElem?, ha] at this
        simp at this
        omega
      · obtain ⟨a', ha'⟩ : ∃ a', offs[k - 1]? = some a' := ⟨_, List.getElem?_eq_getElem (by omega)⟩
        have e' : k - 1 + 1 = k := by omega
        have := (h.run (k - 1) a' a ha' (by rw [e']; exact ha)).2 (by omega)
        have h1 := hord i (a - 1) (by omega) (by omega)
        have h2 := hord (a - 1) a (by omega) (by omega)
        exact this (le_antisymm (e ▸ h1) h2)
    · by_contra hge
      have hb' := hmax (by omega)
      have h1 := hord b i (by omega) hi
      have h2 := hord (b - 1) b (by omega) (by omega)
      have h3 := hrun (b - 1) (by omega) (by omega)
      rw [e, ← h3] at h1
      exact hb' (le_antisymm h1 h2)
  · rintro ⟨h1, h2⟩
    exact hrun i h1 h2

/-- Keys 2 2 5 7 7: offsets 0 2 3 5. -/
example : computeOffsets 5 (fun i => [2, 2, 5, 7, 7].getD i 0) (fun _ => 99) [3, 0, 5, 2, 4, 1]
    = [0, 2, 3, 5] ∧ IsOrder 6 [3, 0, 5, 2, 4, 1] := by decide +kernel

end ArborX.Perm
