import Verif.StdAlg.Lemmas
import Verif.Heap.Theorems
import Mathlib.Tactic.IntervalCases

/-!
# Properties C14 (nth_element) and C15 (binary searches)
-/

namespace ArborX.StdAlg

open ArborX.Heap (StrictWeak)

variable {T : Type} {lt : T → T → Bool}

/-- **C14**: for every array and every `first ≤ nth < last`, `nth_element` terminates
within `last - first + 1` rounds without any out-of-range access; the result is a
permutation that leaves everything outside of `[first, last)` in place, no element of
`[first, nth)` is greater than the one at `nth`, and none of `(nth, last)` is smaller. -/
theorem nth_element_correct (sw : StrictWeak lt) (a : List T) {first nth last : ℕ}
    (h1 : first ≤ nth) (h2 : nth < last) (h3 : last ≤ a.length) :
    ∃ r v, (∀ fuel, last - first < fuel → nthElement lt fuel a first nth last = some r) ∧
      r.Perm a ∧ (∀ i, ¬ (first ≤ i ∧ i < last) → r[i]? = a[i]?) ∧ r[nth]? = some v ∧
      (∀ i x, first ≤ i → i < nth → r[i]? = some x → lt v x = false) ∧
      (∀ i x, nth < i → i < last → r[i]? = some x → lt x v = false) := by
  have key : ∀ fuel, last - first < fuel → ∃ r v, nthElement lt fuel a first nth last = some r ∧
      RangePerm first last a r ∧ r[nth]? = some v ∧
      (∀ i x, first ≤ i → i < nth → r[i]? = some x → lt v x = false) ∧
      (∀ i x, nth < i → i < last → r[i]? = some x → lt x v = false) := by
    intro fuel hf
    have := nthLoop_spec sw first last nth fuel a first last hf h3 (Nat.le_refl _) h1 h2
      (Nat.le_refl _) (by intro i j x y hi hi'; omega) (by intro i j x y hi hi' hj hj'; omega)
    unfold nthElement
    rw [if_neg (by omega)]
    exact this
  -- more fuel does not change the result
  have mono : ∀ (fuel : ℕ) (a : List T) first last r, nthLoop lt fuel a first nth last = some r →
      ∀ fuel', fuel ≤ fuel' → nthLoop lt fuel' a first nth last = some r := by
    intro fuel
    induction fuel with
    | zero => intro a f l r h; simp [nthLoop] at h
    | succ n ih =>
      intro a f l r h fuel' hle
      obtain ⟨m, rfl⟩ : ∃ m, fuel' = m + 1 := ⟨fuel' - 1, by omega⟩
      rw [nthLoop] at h ⊢
      split at h
      · rename_i hc; rw [if_pos hc]; exact h
      · rename_i hc
        rw [if_neg hc]
        split at h
        · simp at h
        · rename_i a' p hp
          split at h
          · rename_i e; simp [e, h]
          · rename_i e
            rw [if_neg e]
            split at h
            · rename_i e2; rw [if_pos e2]; exact ih _ _ _ _ h _ (by omega)
            · rename_i e2; rw [if_neg e2]; exact ih _ _ _ _ h _ (by omega)
  obtain ⟨r, v, k1, k2, k3, k4, k5⟩ := key (last - first + 1) (by omega)
  refine ⟨r, v, ?_, k2.perm, k2.out, k3, k4, k5⟩
  intro fuel hf
  unfold nthElement at k1 ⊢
  rw [if_neg (by omega)] at k1 ⊢
  exact mono _ _ _ _ _ k1 _ (by omega)

/-- With `nth == last` nothing happens. -/
theorem nth_element_last (fuel : ℕ) (a : List T) (first last : ℕ) :
    nthElement lt fuel a first last last = some a := by simp [nthElement]

/-- Specification of sortedness of positions `F ≤ i < L`. -/
def SortedOn (lt : T → T → Bool) (a : List T) (F L : ℕ) : Prop :=
  ∀ i j x y, F ≤ i → i ≤ j → j < L → a[i]? = some x → a[j]? = some y → lt y x = false

/-- **C15**: on a sorted range `upper_bound` returns the only position that separates
the elements not greater than `v` from the elements greater than `v`. -/
theorem upper_bound_correct (sw : StrictWeak lt) (a : List T) (v : T) {first last : ℕ}
    (h : first ≤ last) (hl : last ≤ a.length) (hs : SortedOn lt a first last) :
    ∃ r, upperBound lt a first last v = some r ∧ first ≤ r ∧ r ≤ last ∧
      (∀ i x, first ≤ i → i < r → a[i]? = some x → lt v x = false) ∧
      (∀ i x, r ≤ i → i < last → a[i]? = some x → lt v x = true) :=
  upperLoop_spec v a last hl first (last - first) first (Nat.le_refl _) (by omega)
    (by
      intro i j x y hi hij hj hx hy hlt
      by_contra hc
      have hc : lt v y = false := by simpa using hc
      have := sw.negtrans _ _ _ hc (hs i j x y hi hij hj hx hy)
      rw [hlt] at this; simp at this)
    (by intro i x hi hi'; omega) (by intro i x hi hi'; omega)

/-- **C15**: on a sorted range `lower_bound` returns the only position that separates
the elements smaller than `v` from the elements not smaller than `v`. -/
theorem lower_bound_correct (sw : StrictWeak lt) (a : List T) (v : T) {first last : ℕ}
    (h : first ≤ last) (hl : last ≤ a.length) (hs : SortedOn lt a first last) :
    ∃ r, lowerBound lt a first last v = some r ∧ first ≤ r ∧ r ≤ last ∧
      (∀ i x, first ≤ i → i < r → a[i]? = some x → lt x v = true) ∧
      (∀ i x, r ≤ i → i < last → a[i]? = some x → lt x v = false) :=
  lowerLoop_spec v a last hl first (last - first) first (Nat.le_refl _) (by omega)
    (by
      intro i j x y hi hij hj hx hy hlt
      by_contra hc
      have hc : lt x v = false := by simpa using hc
      have := sw.negtrans _ _ _ (hs i j x y hi hij hj hx hy) hc
      rw [hlt] at this; simp at this)
    (by intro i x hi hi'; omega) (by intro i x hi hi'; omega)

/-! Non-vacuity. -/

example : nthElement (fun x y : ℕ => decide (x < y)) 8 [5, 3, 9, 1, 7, 1, 8] 0 3 7 =
    some [1, 1, 3, 5, 7, 8, 9] := by decide +kernel

example : SortedOn (fun x y : ℕ => decide (x < y)) [1, 3, 3, 4, 8] 0 5 := by
  intro i j x y _ hij hj hx hy
  have hi : i < 5 := by omega
  interval_cases i <;> interval_cases j <;> simp at hx hy ⊢ <;> omega

example : upperBound (fun x y : ℕ => decide (x < y)) [1, 3, 3, 4, 8] 0 5 3 = some 3 ∧
    lowerBound (fun x y : ℕ => decide (x < y)) [1, 3, 3, 4, 8] 0 5 3 = some 1 := by decide +kernel

end ArborX.StdAlg
