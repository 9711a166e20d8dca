import Verif.Interp.SvdLemmas

/-!
# Symmetric singular value decomposition: theorems

C50: the decomposition ends for every symmetric matrix and gives an orthogonal matrix that
diagonalises the input up to the tolerance.
-/

namespace ArborX.Interp

open Matrix

variable {n : ℕ}

/-- The sum of the squares away from the diagonal. -/
def off (S : Matrix (Fin n) (Fin n) ℝ) : ℝ := ∑ i, ∑ j, S i j ^ 2 - ∑ i, S i i ^ 2

theorem off_nonneg (S : Matrix (Fin n) (Fin n) ℝ) : 0 ≤ off S := by
  rw [off, sub_nonneg]
  exact Finset.sum_le_sum fun i _ =>
    Finset.single_le_sum (f := fun j => S i j ^ 2) (fun j _ => sq_nonneg _) (Finset.mem_univ i)

theorem sq_sum_eq (S : Matrix (Fin n) (Fin n) ℝ) :
    ∑ i, ∑ j, S i j ^ 2 = (S * Sᵀ).trace := by
  simp only [Matrix.trace, Matrix.diag, Matrix.mul_apply, Matrix.transpose_apply, pow_two]

theorem off_rot (p q : Fin n) (hpq : p < q) (A : Mat n) (hb : A p q ≠ 0) :
    off (sym (rotateA p q A)) = off (sym A) - 2 * A p q ^ 2 := by
  have hne := hpq.ne
  have hR := rot_orth p q hne _ _ (cos_sin (A p p) (A p q) (A q q))
  have hR' := mul_eq_one_comm.1 hR
  have hS := rotateA_sym p q hpq A hb
  have hF : ∑ i, ∑ j, sym (rotateA p q A) i j ^ 2 = ∑ i, ∑ j, sym A i j ^ 2 := by
    rw [sq_sum_eq, sq_sum_eq, hS]
    generalize rot p q (cosTheta (A p p) (A p q) (A q q)) (sinTheta (A p p) (A p q) (A q q)) = R
      at hR hR'
    rw [Matrix.transpose_mul, Matrix.transpose_mul, Matrix.transpose_transpose]
    have : R * sym A * Rᵀ * (R * ((sym A)ᵀ * Rᵀ)) = R * (sym A * (sym A)ᵀ * Rᵀ) := by
      calc R * sym A * Rᵀ * (R * ((sym A)ᵀ * Rᵀ))
          = R * sym A * (Rᵀ * R) * ((sym A)ᵀ * Rᵀ) := by simp only [Matrix.mul_assoc]
        _ = R * (sym A * (sym A)ᵀ * Rᵀ) := by rw [hR', Matrix.mul_one]; simp only [Matrix.mul_assoc]
    rw [this, Matrix.trace_mul_comm, Matrix.mul_assoc, hR', Matrix.mul_one]
  -- the diagonal
  have hdiag : ∀ i, sym (rotateA p q A) i i ^ 2 = sym A i i ^ 2
      + (if i = p then sym (rotateA p q A) p p ^ 2 - A p p ^ 2 else 0)
      + (if i = q then sym (rotateA p q A) q q ^ 2 - A q q ^ 2 else 0) := by
    intro i
    by_cases hip : i = p
    · subst hip; rw [if_pos rfl, if_neg hne, sym_self A]; ring
    · by_cases hiq : i = q
      · subst hiq; rw [if_neg hip, if_pos rfl, sym_self A]; ring
      · rw [if_neg hip, if_neg hiq, hS, mul_rotT p q hne, if_neg hip, if_neg hiq,
          rot_mul p q hne, if_neg hip, if_neg hiq]; ring
  have hpp : sym (rotateA p q A) p p = A p p - tanTheta (A p p) (A p q) (A q q) * A p q := by
    rw [hS, mul_rotT p q hne, if_pos rfl, rot_mul p q hne, if_pos rfl, rot_mul p q hne,
      if_pos rfl, sym_self, sym_self, sym_lt A hpq, sym_comm, sym_lt A hpq]
    have ht := tan_spec (A p p) (A p q) (A q q) hb
    have hc := cos_sq (A p p) (A p q) (A q q)
    have hsin : sinTheta (A p p) (A p q) (A q q)
      = -tanTheta (A p p) (A p q) (A q q) * cosTheta (A p p) (A p q) (A q q) := rfl
    rw [hsin]
    generalize tanTheta (A p p) (A p q) (A q q) = t at *
    generalize cosTheta (A p p) (A p q) (A q q) = c at *
    linear_combination (t * c ^ 2) * ht + (A p p - t * A p q) * hc
  have hqq : sym (rotateA p q A) q q = A q q + tanTheta (A p p) (A p q) (A q q) * A p q := by
    rw [hS, mul_rotT p q hne, if_neg (Ne.symm hne), if_pos rfl, rot_mul p q hne,
      if_neg (Ne.symm hne), if_pos rfl, rot_mul p q hne, if_neg (Ne.symm hne),
      if_pos rfl, sym_self, sym_self, sym_lt A hpq, sym_comm, sym_lt A hpq]
    have ht := tan_spec (A p p) (A p q) (A q q) hb
    have hc := cos_sq (A p p) (A p q) (A q q)
    have hsin : sinTheta (A p p) (A p q) (A q q)
      = -tanTheta (A p p) (A p q) (A q q) * cosTheta (A p p) (A p q) (A q q) := rfl
    rw [hsin]
    generalize tanTheta (A p p) (A p q) (A q q) = t at *
    generalize cosTheta (A p p) (A p q) (A q q) = c at *
    linear_combination -(t * c ^ 2) * ht + (A q q + t * A p q) * hc
  rw [off, off, hF]
  rw [Finset.sum_congr rfl (fun i _ => hdiag i)]
  simp only [Finset.sum_add_distrib, Finset.sum_ite_eq', Finset.mem_univ, if_true]
  rw [hpp, hqq]
  have ht := tan_spec (A p p) (A p q) (A q q) hb
  generalize tanTheta (A p p) (A p q) (A q q) = t at *
  linear_combination (-2 * A p q) * ht

/-- What the loop preserves: `U` is orthogonal and `U * A * Uᵀ` is the input. -/
def SvdInv (A0 : Matrix (Fin n) (Fin n) ℝ) (A U : Mat n) : Prop :=
  U * Uᵀ = 1 ∧ U * sym A * Uᵀ = A0

theorem svdInv_step (A0 : Matrix (Fin n) (Fin n) ℝ) (A U : Mat n) (h : SvdInv A0 A U)
    (p q : Fin n) (hpq : p < q) (hb : A p q ≠ 0) :
    SvdInv A0 (rotateA p q A)
      (rotateU p q (cosTheta (A p p) (A p q) (A q q)) (sinTheta (A p p) (A p q) (A q q)) U) := by
  have hR := rot_orth p q hpq.ne _ _ (cos_sin (A p p) (A p q) (A q q))
  have hR' := mul_eq_one_comm.1 hR
  rw [SvdInv, rotateU_eq p q hpq.ne, rotateA_sym p q hpq A hb]
  generalize rot p q (cosTheta (A p p) (A p q) (A q q)) (sinTheta (A p p) (A p q) (A q q)) = R
    at hR hR'
  rw [Matrix.transpose_mul, Matrix.transpose_transpose]
  constructor
  · calc U * Rᵀ * (R * Uᵀ) = U * (Rᵀ * R) * Uᵀ := by simp only [Matrix.mul_assoc]
      _ = 1 := by rw [hR', Matrix.mul_one, h.1]
  · calc U * Rᵀ * (R * sym A * Rᵀ) * (R * Uᵀ)
        = U * (Rᵀ * R) * sym A * (Rᵀ * R) * Uᵀ := by simp only [Matrix.mul_assoc]
      _ = A0 := by rw [hR', Matrix.mul_one, Matrix.mul_one, h.2]

theorem svdLoop_spec (eps : ℝ) (heps : 0 < eps) (A0 : Matrix (Fin n) (Fin n) ℝ) (fuel : ℕ)
    (A U : Mat n) (h : SvdInv A0 A U) (hf : off (sym A) < 2 * eps ^ 2 * fuel) :
    ∃ A' U', svdLoop eps fuel A U = some (A', U') ∧ SvdInv A0 A' U' ∧
      ∀ i j, i < j → |A' i j| ≤ eps := by
  induction fuel generalizing A U with
  | zero =>
    have := off_nonneg (sym A)
    simp at hf
    linarith
  | succ fuel ih =>
    obtain ⟨hmax, hpos, hnone⟩ := argmax_spec A
    rw [svdLoop]
    by_cases hle : (argmaxUpper A).1 ≤ eps
    · rw [if_pos hle]
      exact ⟨A, U, rfl, h, fun i j hij => (hmax i j hij).trans hle⟩
    · rw [if_neg hle]
      cases hpq : (argmaxUpper A).2 with
      | none => rw [hnone hpq] at hle; exact absurd heps.le hle
      | some pq =>
        obtain ⟨p, q⟩ := pq
        obtain ⟨e, hlt⟩ := hpos p q hpq
        rw [e, not_le] at hle
        have hb : A p q ≠ 0 := by
          intro h0
          rw [h0, abs_zero] at hle
          linarith
        refine ih _ _ (svdInv_step A0 A U h p q hlt hb) ?_
        rw [off_rot p q hlt A hb]
        have : eps ^ 2 < A p q ^ 2 := by
          rw [← sq_abs (A p q)]
          exact pow_lt_pow_left₀ hle heps.le (by norm_num)
        push_cast at hf
        linarith

/-- **C50** (symmetric singular value decomposition).  For every symmetric matrix and every
positive tolerance the loop ends, and returns an orthogonal `U` and a `D` such that the input is
`U * (diagonal D + E) * Uᵀ` for a symmetric `E` that is zero on the diagonal and at most the
tolerance elsewhere. -/
theorem symmetricSVD_spec (eps : ℝ) (heps : 0 < eps) (A : Matrix (Fin n) (Fin n) ℝ)
    (hA : ∀ i j, A i j = A j i) :
    ∃ N : ℕ, ∀ fuel ≥ N, ∃ D U, symmetricSVD eps fuel A = some (D, U) ∧
      U * Uᵀ = 1 ∧ Uᵀ * U = 1 ∧
      ∃ E : Matrix (Fin n) (Fin n) ℝ, A = U * (diagonal D + E) * Uᵀ ∧
        (∀ i j, |E i j| ≤ eps) ∧ (∀ i, E i i = 0) ∧ ∀ i j, E i j = E j i := by
  obtain ⟨N, hN⟩ := exists_nat_gt (off A / (2 * eps ^ 2))
  refine ⟨N, fun fuel hfuel => ?_⟩
  have h0 : SvdInv A A (fun i j : Fin n => if i = j then (1 : ℝ) else 0) := by
    have e : (fun i j : Fin n => if i = j then (1 : ℝ) else 0)
        = (1 : Matrix (Fin n) (Fin n) ℝ) := by
      ext i j; simp [Matrix.one_apply]
    rw [e]
    exact ⟨by simp, by rw [sym_of_symm A hA]; simp⟩
  obtain ⟨A', U, hrun, hinv, hsmall⟩ := svdLoop_spec eps heps A fuel A _ h0 (by
    rw [sym_of_symm A hA]
    rw [div_lt_iff₀ (by positivity)] at hN
    have : (N : ℝ) ≤ fuel := by exact_mod_cast hfuel
    nlinarith [sq_nonneg eps, heps])
  refine ⟨fun i => A' i i, U, by rw [symmetricSVD, hrun]; rfl, hinv.1, mul_eq_one_comm.1 hinv.1,
    sym A' - diagonal (fun i => A' i i), ?_, ?_, ?_, ?_⟩
  · rw [add_sub_cancel, hinv.2]
  · intro i j
    rw [Matrix.sub_apply]
    rcases lt_trichotomy i j with h | h | h
    · rw [diagonal_apply_ne _ h.ne, sym_lt A' h, sub_zero]; exact hsmall i j h
    · subst h; rw [diagonal_apply_eq, sym_self, sub_self, abs_zero]; exact heps.le
    · rw [diagonal_apply_ne _ h.ne', sym_comm, sym_lt A' h, sub_zero]; exact hsmall j i h
  · intro i
    rw [Matrix.sub_apply, diagonal_apply_eq, sym_self, sub_self]
  · intro i j
    rw [Matrix.sub_apply, Matrix.sub_apply, sym_comm]
    by_cases h : i = j
    · subst h; rfl
    · rw [diagonal_apply_ne _ h, diagonal_apply_ne _ (Ne.symm h)]

/-- Non-vacuity: the matrix is symmetric and not diagonal. -/
example : ∃ A : Matrix (Fin 2) (Fin 2) ℝ, (∀ i j, A i j = A j i) ∧ A 0 1 ≠ 0 :=
  ⟨!![1, 2; 2, 3], by intro i j; fin_cases i <;> fin_cases j <;> rfl, by simp⟩

end ArborX.Interp
