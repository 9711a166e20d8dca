import Verif.Interp.Solve
import Mathlib.Tactic.Linarith

/-!
# The row echelon form and the monomials that are taken out: lemmas
-/

namespace ArborX.Interp

variable {n k : ℕ}

section General

variable {K : Type} [Field K] [LinearOrder K]

theorem swapPerm_eq (perm : Fin n → Fin n) (i r : Fin n) :
    swapPerm perm i r = perm ∘ Equiv.swap r i := by
  funext a
  rw [swapPerm, Function.comp, Equiv.swap_apply_def]
  split
  · rfl
  · split <;> rfl

theorem swapRows_eq (M : Matrix (Fin n) (Fin n) K) (r i : Fin n) (a b : Fin n) :
    swapRows M r i a b = M (Equiv.swap r i a) b := by
  rw [swapRows, Equiv.swap_apply_def]
  split
  · rfl
  · split <;> rfl

/-- The permutation is one. -/
theorem rowEchelon_perm (tol : K) (todo row : ℕ) (M : Matrix (Fin n) (Fin n) K)
    (perm : Fin n → Fin n) (h : perm.Injective) (e) (he : rowEchelon tol todo row M perm = some e) :
    e.2.Injective := by
  induction todo generalizing row M perm with
  | zero => rw [rowEchelon, Option.some.injEq] at he; subst he; exact h
  | succ todo ih =>
    rw [rowEchelon] at he
    split at he
    · dsimp only at he
      split at he
      · exact ih _ _ _ h he
      · split at he
        · exact absurd he (by simp)
        · refine ih _ _ _ ?_ he
          rw [swapPerm_eq]
          exact h.comp (Equiv.injective _)
    · rw [Option.some.injEq] at he; subst he; exact h

/-- There is no division by zero if the tolerance is positive. -/
theorem rowEchelon_some [IsStrictOrderedRing K] (tol : K) (htol : 0 < tol) (todo row : ℕ)
    (M : Matrix (Fin n) (Fin n) K) (perm : Fin n → Fin n) :
    ∃ e, rowEchelon tol todo row M perm = some e := by
  induction todo generalizing row M perm with
  | zero => exact ⟨_, rfl⟩
  | succ todo ih =>
    rw [rowEchelon]
    split
    · dsimp only
      split
      · exact ih _ _ _
      · rename_i h
        rw [if_neg]
        · exact ih _ _ _
        · intro h0
          rw [h0, abs_zero] at h
          exact h htol
    · exact ⟨_, rfl⟩

omit [Field K] in
theorem pivot_fold (f : Fin n → K) (l : List (Fin n)) (s : Fin n × K) :
    ((l.foldl (fun s i => if f i > s.2 then (i, f i) else s) s) = s ∨
      (l.foldl (fun s i => if f i > s.2 then (i, f i) else s) s).1 ∈ l) ∧
    ((∀ i ∈ l, f i ≤ s.2) → (l.foldl (fun s i => if f i > s.2 then (i, f i) else s) s) = s) := by
  induction l generalizing s with
  | nil => exact ⟨Or.inl rfl, fun _ => rfl⟩
  | cons a l ih =>
    rw [List.foldl_cons]
    constructor
    · split
      · rcases (ih (a, f a)).1 with h | h
        · rw [h]; exact Or.inr (by simp)
        · exact Or.inr (List.mem_cons_of_mem _ h)
      · rcases (ih s).1 with h | h
        · exact Or.inl h
        · exact Or.inr (List.mem_cons_of_mem _ h)
    · intro h
      rw [if_neg (not_lt.2 (h a (by simp)))]
      exact (ih s).2 fun i hi => h i (List.mem_cons_of_mem _ hi)

theorem findPivot_mem (M : Matrix (Fin n) (Fin n) K) (row : ℕ) (col zero : Fin n) :
    findPivot M row col zero = zero ∨ row ≤ (findPivot M row col zero : ℕ) := by
  rcases (pivot_fold (fun i => |M i col|)
    ((List.finRange n).filter fun i : Fin n => decide (row ≤ (i : ℕ))) (zero, 0)).1 with h | h
  · left; rw [findPivot, h]
  · right
    have := (List.mem_filter.1 h).2
    exact of_decide_eq_true this

/-- The first row is the first pivot if its entry is the largest. -/
theorem findPivot_first [IsStrictOrderedRing K] (M : Matrix (Fin (n + 1)) (Fin (n + 1)) K)
    (col : Fin (n + 1)) (h : ∀ i, |M i col| ≤ |M 0 col|) : findPivot M 0 col 0 = 0 := by
  have hl : ((List.finRange (n + 1)).filter fun i : Fin (n + 1) => decide (0 ≤ (i : ℕ)))
      = List.finRange (n + 1) := List.filter_eq_self.2 fun i _ => by simp
  rw [findPivot, hl, List.finRange_succ, List.foldl_cons]
  by_cases h0 : |M 0 col| > 0
  · rw [if_pos h0, (pivot_fold (fun i => |M i col|) _ _).2 fun i _ => h i]
  · rw [if_neg h0, (pivot_fold (fun i => |M i col|) _ _).2]
    exact fun i _ => (h i).trans (not_lt.1 h0)

/-- Where the first row of the matrix is while the later columns are eliminated: a row that does
not change any more and has a large entry at or above the diagonal. -/
def FirstRow (tol : K) (row : ℕ) (z : Fin n) (M : Matrix (Fin n) (Fin n) K)
    (perm : Fin n → Fin n) : Prop :=
  ∃ p c : Fin n, (p : ℕ) < row ∧ p ≤ c ∧ tol ≤ |M p c| ∧ perm p = z

theorem rowEchelon_first (tol : K) (z : Fin n) (todo row : ℕ)
    (M : Matrix (Fin n) (Fin n) K) (perm : Fin n → Fin n) (hrow : row + todo ≤ n)
    (h : FirstRow tol row z M perm) (e) (he : rowEchelon tol todo row M perm = some e) :
    ∃ row', FirstRow tol row' z e.1 e.2 := by
  induction todo generalizing row M perm with
  | zero => rw [rowEchelon, Option.some.injEq] at he; subst he; exact ⟨row, h⟩
  | succ todo ih =>
    rw [rowEchelon] at he
    split at he
    · rename_i hlt
      dsimp only at he
      split at he
      · exact ih _ _ _ (by omega) h he
      · split at he
        · exact absurd he (by simp)
        · rename_i htol h0
          refine ih _ _ _ (by omega) ?_ he
          obtain ⟨p, c, hp, hpc, ht, hz⟩ := h
          generalize hi : findPivot M row ⟨n - (todo + 1), hlt.2⟩ ⟨0, by omega⟩ = i at *
          have hmem := findPivot_mem M row ⟨n - (todo + 1), hlt.2⟩ ⟨0, by omega⟩
          rw [hi] at hmem
          have hpr : p ≠ ⟨row, hlt.1⟩ := fun hh => by rw [hh] at hp; simp at hp
          by_cases hpi : p = i
          · -- the row is moved to the current position
            subst hpi
            refine ⟨⟨row, hlt.1⟩, ⟨n - (todo + 1), hlt.2⟩, Nat.lt_succ_self _, ?_, ?_, ?_⟩
            · show row ≤ n - (todo + 1)
              omega
            · rw [eliminateBelow, if_neg (lt_irrefl _), swapRows, if_pos rfl]
              exact not_lt.1 htol
            · rw [swapPerm, if_pos rfl]; exact hz
          · refine ⟨p, c, by omega, hpc, ?_, ?_⟩
            · rw [eliminateBelow, if_neg (by
                show ¬ (row < (p : ℕ)); omega), swapRows, if_neg hpr, if_neg hpi]
              exact ht
            · rw [swapPerm, if_neg hpr, if_neg hpi]; exact hz
    · rw [Option.some.injEq] at he; subst he; exact ⟨row, h⟩

omit [Field K] in
theorem max_fold (f : Fin n → K) (l : List (Fin n)) (m : K) :
    m ≤ l.foldl (fun m j => if f j > m then f j else m) m ∧
    ∀ j ∈ l, f j ≤ l.foldl (fun m j => if f j > m then f j else m) m := by
  induction l generalizing m with
  | nil => exact ⟨le_rfl, fun j h => by simp at h⟩
  | cons a l ih =>
    rw [List.foldl_cons]
    obtain ⟨h1, h2⟩ := ih (if f a > m then f a else m)
    have hm : m ≤ (if f a > m then f a else m) ∧ f a ≤ (if f a > m then f a else m) := by
      split
      · rename_i h; exact ⟨h.le, le_rfl⟩
      · rename_i h; exact ⟨le_rfl, not_lt.1 h⟩
    refine ⟨hm.1.trans h1, fun j hj => ?_⟩
    rcases List.mem_cons.1 hj with rfl | hj
    · exact hm.2.trans h1
    · exact h2 j hj

theorem le_rowMax (M : Matrix (Fin n) (Fin n) K) (i j : Fin n) (h : i ≤ j) :
    |M i j| ≤ rowMax M i :=
  (max_fold (fun j => |M i j|) _ 0).2 j (List.mem_filter.2 ⟨List.mem_finRange j, by simpa using h⟩)

/-- The indices that are taken out. -/
def Dropped (tol : K) (ech : Matrix (Fin n) (Fin n) K) (perm : Fin n → Fin n)
    (l : List (Fin n)) (r : Fin n) : Prop :=
  ∃ i ∈ l, rowMax ech i < tol ∧ perm i = r

/-- If the first row has the largest entry of the first column, and it is not below the
tolerance, then its index is not taken out. -/
theorem first_kept [IsStrictOrderedRing K] (tol : K) (htol : 0 < tol) (z : Fin n)
    (hz : (z : ℕ) = 0) (M : Matrix (Fin n) (Fin n) K)
    (hmax : ∀ i, |M i z| ≤ |M z z|) (hlarge : tol ≤ |M z z|) (e)
    (he : rowEchelon tol n 0 M id = some e) : ¬ Dropped tol e.1 e.2 (List.finRange n) z := by
  obtain ⟨m, rfl⟩ : ∃ m, n = m + 1 := ⟨n - 1, by have := z.2; omega⟩
  obtain rfl : z = 0 := Fin.ext hz
  have hinj := rowEchelon_perm tol _ _ _ _ Function.injective_id _ he
  have hfirst : ∃ row, FirstRow tol row (0 : Fin (m + 1)) e.1 e.2 := by
    rw [rowEchelon, dif_pos ⟨Nat.succ_pos m, by omega⟩] at he
    dsimp only at he
    have hcol : (⟨m + 1 - (m + 1), by omega⟩ : Fin (m + 1)) = 0 :=
      Fin.ext (Nat.sub_self (m + 1))
    have hzero : (⟨0, by omega⟩ : Fin (m + 1)) = 0 := rfl
    rw [hcol, hzero, findPivot_first M 0 hmax, if_neg (not_lt.2 hlarge), if_neg (by
      intro h0
      rw [h0, abs_zero] at hlarge
      exact absurd htol (not_lt.2 hlarge))] at he
    refine rowEchelon_first tol 0 m 1 _ _ (by omega) ⟨0, 0, by simp, le_rfl, ?_, ?_⟩ e he
    · rw [eliminateBelow, if_neg (lt_irrefl _), swapRows, if_pos rfl]
      exact hlarge
    · rw [swapPerm, if_pos rfl]; rfl
  obtain ⟨_, p, c, _, hpc, ht, hp⟩ := hfirst
  rintro ⟨i, _, hi, hpi⟩
  obtain rfl : i = p := hinj (hpi.trans hp.symm)
  exact absurd hi (not_lt.2 (ht.trans (le_rowMax _ _ _ hpc)))

open Classical in
/-- What is left after the indices have been taken out. -/
theorem dropZero_eq (tol : K) (ech : Matrix (Fin n) (Fin n) K) (perm : Fin n → Fin n)
    (l : List (Fin n)) (M : Matrix (Fin n) (Fin n) K) (P : Fin k → Fin n → K) :
    dropZero tol ech perm l (M, P) =
      ((fun i j => if Dropped tol ech perm l i ∨ Dropped tol ech perm l j then
          (if i = j then 1 else 0) else M i j),
        fun nb i => if Dropped tol ech perm l i then 0 else P nb i) := by
  induction l generalizing M P with
  | nil => simp [dropZero, Dropped]; rfl
  | cons a l ih =>
    have hcons : ∀ r, Dropped tol ech perm (a :: l) r ↔
        (rowMax ech a < tol ∧ perm a = r) ∨ Dropped tol ech perm l r := by
      intro r; simp [Dropped]
    rw [dropZero]
    split
    · rename_i h
      rw [ih]
      simp only [hcons, h, true_and]
      refine Prod.ext ?_ ?_
      · funext i j
        show (if _ then _ else dropMoment M (perm a) i j) = _
        rw [dropMoment]
        by_cases h1 : Dropped tol ech perm l i <;> by_cases h2 : Dropped tol ech perm l j <;>
          by_cases h3 : i = perm a <;> by_cases h4 : j = perm a <;>
          simp [h1, h2, h3, h4, eq_comm (a := perm a)]
        all_goals (intro hh; first | exact absurd hh h4 | exact absurd hh.symm h4 | exact absurd hh h3)
      · funext nb i
        show (if _ then _ else dropColumn P (perm a) nb i) = _
        rw [dropColumn]
        by_cases h1 : Dropped tol ech perm l i <;> by_cases h3 : i = perm a <;>
          simp [h1, h3, eq_comm (a := perm a)]
    · rename_i h
      have hl : ∀ r, Dropped tol ech perm (a :: l) r = Dropped tol ech perm l r := by
        intro r; rw [eq_iff_iff, hcons]; simp [h]
      rw [ih, funext hl]

end General

end ArborX.Interp
