import Verif.Interp.Mls
import Verif.Interp.SvdTheorems

/-!
# Moving least squares: linear algebra

How far the coefficients are from solving the least squares problem, in terms of the tolerance
of the decomposition.
-/

namespace ArborX.Interp

open Matrix

variable {n k : ℕ}

theorem finRange_sum {β : Type*} [AddCommMonoid β] (m : ℕ) (f : Fin m → β) :
    ((List.finRange m).map f).sum = ∑ i, f i := by
  rw [← List.ofFn_eq_map, List.sum_ofFn]

theorem matrixFromSVD_eq (D : Fin n → ℝ) (U : Mat n) :
    matrixFromSVD D U = U * diagonal D * Uᵀ := by
  have h : ∀ i j, (U * diagonal D * Uᵀ) i j = ∑ k, U i k * D k * U j k := by
    intro i j
    rw [Matrix.mul_apply]
    simp only [Matrix.mul_diagonal, Matrix.transpose_apply]
  ext i j
  rw [h, matrixFromSVD, finRange_sum]
  rcases le_total i j with hij | hij
  · rw [min_eq_left hij, max_eq_right hij]
  · rw [min_eq_right hij, max_eq_left hij]
    exact Finset.sum_congr rfl (fun k _ => by ring)

theorem moment_apply (phi : Fin k → ℝ) (P : Fin k → Fin n → ℝ) (i j : Fin n) :
    momentMatrix phi P i j = ∑ nb, P nb i * P nb j * phi nb := by
  rw [momentMatrix, finRange_sum]

theorem moment_symm (phi : Fin k → ℝ) (P : Fin k → Fin n → ℝ) (i j : Fin n) :
    momentMatrix phi P i j = momentMatrix phi P j i := by
  rw [moment_apply, moment_apply]
  exact Finset.sum_congr rfl (fun k _ => by ring)

/-- The quadratic form of the moment matrix. -/
theorem moment_quad (phi : Fin k → ℝ) (P : Fin k → Fin n → ℝ) (a : Fin n → ℝ) :
    ∑ i, a i * ∑ j, momentMatrix phi P i j * a j = ∑ nb, phi nb * (∑ i, P nb i * a i) ^ 2 := by
  simp only [moment_apply, Finset.mul_sum, Finset.sum_mul, pow_two]
  rw [Finset.sum_comm]
  rw [Finset.sum_congr rfl fun j _ => Finset.sum_comm, Finset.sum_comm]
  refine Finset.sum_congr rfl fun nb _ => ?_
  refine Finset.sum_congr rfl fun j _ => Finset.sum_congr rfl fun i _ => by ring

/-- Applying the coefficients to values `P a`. -/
theorem coefficients_apply (phi : Fin k → ℝ) (P : Fin k → Fin n → ℝ) (B : Mat n) (z : Fin n)
    (a : Fin n → ℝ) :
    ∑ nb, coefficients phi P B z nb * ∑ i, P nb i * a i
      = ((B * momentMatrix phi P) *ᵥ a) z := by
  simp only [coefficients, finRange_sum, mulVec, dotProduct, Matrix.mul_apply, moment_apply,
    Finset.mul_sum, Finset.sum_mul]
  rw [Finset.sum_comm]
  refine Finset.sum_congr rfl fun j _ => ?_
  rw [Finset.sum_comm]
  refine Finset.sum_congr rfl fun i _ => Finset.sum_congr rfl fun nb _ => by ring

theorem abs_sum_le (U : Mat n) (h : U * Uᵀ = 1) (z : Fin n) : (∑ k, |U z k|) ^ 2 ≤ n := by
  have h1 : ∑ k, U z k ^ 2 = 1 := by
    have := congrFun (congrFun h z) z
    rw [Matrix.mul_apply, Matrix.one_apply_eq] at this
    rw [← this]
    exact Finset.sum_congr rfl fun k _ => by rw [Matrix.transpose_apply, pow_two]
  have h2 := inner_mul_le_norm_mul_norm' U z
  simpa [h1] using h2
where
  inner_mul_le_norm_mul_norm' (U : Mat n) (z : Fin n) :
      (∑ k, |U z k|) ^ 2 ≤ n * ∑ k, U z k ^ 2 := by
    have := Finset.sum_mul_sq_le_sq_mul_sq Finset.univ (fun _ : Fin n => (1 : ℝ))
      (fun k => |U z k|)
    simpa using this

/-- Entries of `U * (diagonal d * E) * Uᵀ`. -/
theorem error_entry (U : Mat n) (hU : U * Uᵀ = 1) (d : Fin n → ℝ) (E : Matrix (Fin n) (Fin n) ℝ)
    (u e : ℝ) (hd : ∀ i, |d i| ≤ u) (hE : ∀ i j, |E i j| ≤ e) (z i : Fin n) :
    |(U * (diagonal d * E) * Uᵀ) z i| ≤ n * (u * e) := by
  have hu : 0 ≤ u := (abs_nonneg _).trans (hd z)
  have he : 0 ≤ e := (abs_nonneg _).trans (hE z z)
  have expand : (U * (diagonal d * E) * Uᵀ) z i = ∑ l, ∑ k, U z k * (d k * E k l) * U i l := by
    simp only [Matrix.mul_apply (M := U * (diagonal d * E)), Matrix.mul_apply (M := U),
      Matrix.diagonal_mul, Matrix.transpose_apply, Finset.sum_mul]
  rw [expand]
  calc |∑ l, ∑ k, U z k * (d k * E k l) * U i l|
      ≤ ∑ l, ∑ k, |U z k| * (u * e) * |U i l| := by
        refine (Finset.abs_sum_le_sum_abs _ _).trans (Finset.sum_le_sum fun l _ => ?_)
        refine (Finset.abs_sum_le_sum_abs _ _).trans (Finset.sum_le_sum fun k _ => ?_)
        rw [abs_mul, abs_mul, abs_mul]
        have : |d k| * |E k l| ≤ u * e := mul_le_mul (hd k) (hE k l) (abs_nonneg _) hu
        exact mul_le_mul_of_nonneg_right (mul_le_mul_of_nonneg_left this (abs_nonneg _))
          (abs_nonneg _)
    _ = (u * e) * ((∑ k, |U z k|) * ∑ l, |U i l|) := by
        rw [Finset.sum_mul_sum, Finset.mul_sum, Finset.sum_comm]
        refine Finset.sum_congr rfl fun l _ => ?_
        rw [Finset.mul_sum]
        exact Finset.sum_congr rfl fun k _ => by ring
    _ ≤ (u * e) * n := by
        refine mul_le_mul_of_nonneg_left ?_ (mul_nonneg hu he)
        have h1 := abs_sum_le U hU z
        have h2 := abs_sum_le U hU i
        nlinarith [sq_nonneg ((∑ k, |U z k|) - ∑ l, |U i l|)]
    _ = n * (u * e) := by ring

theorem mulVec_bound (E : Matrix (Fin n) (Fin n) ℝ) (e : ℝ) (z : Fin n) (h : ∀ i, |E z i| ≤ e)
    (a : Fin n → ℝ) : |(E *ᵥ a) z| ≤ e * ∑ i, |a i| := by
  rw [mulVec, dotProduct, Finset.mul_sum]
  refine (Finset.abs_sum_le_sum_abs _ _).trans (Finset.sum_le_sum fun i _ => ?_)
  rw [abs_mul]
  exact mul_le_mul_of_nonneg_right (h i) (abs_nonneg _)

/-! ### The largest eigenvalue -/

theorem maxEigen_fold (D : Fin n → ℝ) (l : List (Fin n)) (m : ℝ) :
    m ≤ l.foldl (fun m i => max |D i| m) m ∧
    (∀ i ∈ l, |D i| ≤ l.foldl (fun m i => max |D i| m) m) ∧
    ∀ L, m ≤ L → (∀ i ∈ l, |D i| ≤ L) → l.foldl (fun m i => max |D i| m) m ≤ L := by
  induction l generalizing m with
  | nil => exact ⟨le_rfl, fun i h => by simp at h, fun L h _ => h⟩
  | cons k l ih =>
    rw [List.foldl_cons]
    obtain ⟨a, b, c⟩ := ih (max |D k| m)
    refine ⟨(le_max_right _ _).trans a, fun i hi => ?_, fun L hL h => ?_⟩
    · rcases List.mem_cons.1 hi with rfl | hi
      · exact (le_max_left _ _).trans a
      · exact b i hi
    · exact c L (max_le (h k (by simp)) hL) fun i hi => h i (List.mem_cons_of_mem _ hi)

theorem maxEigen_le (D : Fin n → ℝ) (L : ℝ) (h0 : 0 ≤ L) (h : ∀ i, |D i| ≤ L) :
    maxEigen D ≤ L := (maxEigen_fold D _ 0).2.2 L h0 fun i _ => h i

theorem le_maxEigen (D : Fin n → ℝ) (i : Fin n) : |D i| ≤ maxEigen D :=
  (maxEigen_fold D _ 0).2.1 i (List.mem_finRange i)

theorem maxEigen_nonneg (D : Fin n → ℝ) : 0 ≤ maxEigen D := (maxEigen_fold D _ 0).1

/-- The pseudo-inverse is `U * D⁻¹ * Uᵀ` if no eigenvalue is below the tolerance. -/
theorem pseudoInverse_eq (eps : ℝ) (D : Fin n → ℝ) (U : Mat n)
    (h : ∀ i, tolerance eps D < |D i|) :
    pseudoInverse eps D U = U * diagonal (fun i => 1 / D i) * Uᵀ := by
  rw [pseudoInverse, matrixFromSVD_eq]
  have : (fun i => if |D i| ≤ ↑n * maxEigen D * eps then 0 else 1 / D i) = fun i => 1 / D i := by
    funext i
    exact if_neg (not_le.2 (h i))
  rw [this]

/-- The product of the inverse and the matrix. -/
theorem inverse_mul (D : Fin n → ℝ) (U E : Matrix (Fin n) (Fin n) ℝ) (hU : U * Uᵀ = 1)
    (hD : ∀ i, D i ≠ 0) :
    U * diagonal (fun i => 1 / D i) * Uᵀ * (U * (diagonal D + E) * Uᵀ)
      = 1 + U * (diagonal (fun i => 1 / D i) * E) * Uᵀ := by
  have hU' : Uᵀ * U = 1 := mul_eq_one_comm.1 hU
  have hdd : diagonal (fun i => 1 / D i) * diagonal D = 1 := by
    rw [diagonal_mul_diagonal, ← diagonal_one]
    congr 1
    funext i
    exact one_div_mul_cancel (hD i)
  calc U * diagonal (fun i => 1 / D i) * Uᵀ * (U * (diagonal D + E) * Uᵀ)
      = U * diagonal (fun i => 1 / D i) * (Uᵀ * U) * (diagonal D + E) * Uᵀ := by
        simp only [Matrix.mul_assoc]
    _ = U * (diagonal (fun i => 1 / D i) * diagonal D + diagonal (fun i => 1 / D i) * E) * Uᵀ := by
        rw [hU', Matrix.mul_one, ← Matrix.mul_add]
        simp only [Matrix.mul_assoc]
    _ = 1 + U * (diagonal (fun i => 1 / D i) * E) * Uᵀ := by
        rw [hdd, Matrix.mul_add, Matrix.add_mul, Matrix.mul_one, hU]

/-- The diagonal of the decomposition are values of the quadratic form. -/
theorem diag_quad (M D' : Matrix (Fin n) (Fin n) ℝ) (U : Matrix (Fin n) (Fin n) ℝ)
    (hU' : Uᵀ * U = 1) (hM : M = U * D' * Uᵀ) (i : Fin n) :
    D' i i = ∑ r, U r i * ∑ s, M r s * U s i ∧ ∑ r, U r i ^ 2 = 1 := by
  constructor
  · have : D' = Uᵀ * (M * U) := by
      rw [hM]
      calc D' = (Uᵀ * U) * D' * (Uᵀ * U) := by rw [hU', Matrix.one_mul, Matrix.mul_one]
        _ = Uᵀ * (U * D' * Uᵀ * U) := by simp only [Matrix.mul_assoc]
    conv_lhs => rw [this]
    simp only [Matrix.mul_apply (M := Uᵀ), Matrix.mul_apply (M := M), Matrix.transpose_apply]
  · have := congrFun (congrFun hU' i) i
    rw [Matrix.mul_apply, Matrix.one_apply_eq] at this
    rw [← this]
    exact Finset.sum_congr rfl fun k _ => by rw [Matrix.transpose_apply, pow_two]

/-- If the quadratic form of the least squares problem is at least `lam` and at most `Lam` on
unit vectors and the tolerance is small against these, then the moment matrix is not taken for
singular, and the coefficients map the values `P a` to `a 0` up to the tolerance. -/
theorem solve_regular (eps : ℝ) (heps : 0 < eps) (phi : Fin k → ℝ) (P : Fin k → Fin n → ℝ)
    (z : Fin n) (lam Lam : ℝ) (hlam : 0 < lam)
    (hlow : ∀ a : Fin n → ℝ, lam * ∑ i, a i ^ 2 ≤ ∑ nb, phi nb * (∑ i, P nb i * a i) ^ 2)
    (hup : ∀ a : Fin n → ℝ, ∑ nb, phi nb * (∑ i, P nb i * a i) ^ 2 ≤ Lam * ∑ i, a i ^ 2)
    (hsmall : n * Lam * eps < lam) :
    ∃ N : ℕ, ∀ fuel ≥ N, ∃ c, solve eps fuel phi P z = some c ∧
      ∀ a : Fin n → ℝ, |∑ nb, c nb * ∑ i, P nb i * a i - a z| ≤ n * eps / lam * ∑ i, |a i| := by
  obtain ⟨N, hN⟩ := symmetricSVD_spec eps heps (momentMatrix phi P) (moment_symm phi P)
  refine ⟨N, fun fuel hf => ?_⟩
  obtain ⟨D, U, hrun, hU, hU', E, hM, hE, hE0, _⟩ := hN fuel hf
  have hD : ∀ i, lam ≤ D i ∧ D i ≤ Lam := by
    intro i
    obtain ⟨h1, h2⟩ := diag_quad (momentMatrix phi P) (diagonal D + E) U hU' hM i
    rw [Matrix.add_apply, diagonal_apply_eq, hE0, add_zero, moment_quad] at h1
    have h3 := hlow fun r => U r i
    have h4 := hup fun r => U r i
    rw [h2, ← h1, mul_one] at h3 h4
    exact ⟨h3, h4⟩
  have hDpos : ∀ i, 0 < D i := fun i => hlam.trans_le (hD i).1
  have htol : ∀ i, tolerance eps D < |D i| := by
    intro i
    rw [abs_of_pos (hDpos i), tolerance]
    have : maxEigen D ≤ Lam := maxEigen_le D Lam ((hDpos i).le.trans (hD i).2) fun j => by
      rw [abs_of_pos (hDpos j)]; exact (hD j).2
    calc (n : ℝ) * maxEigen D * eps ≤ n * Lam * eps :=
          mul_le_mul_of_nonneg_right (mul_le_mul_of_nonneg_left this (Nat.cast_nonneg n)) heps.le
      _ < lam := hsmall
      _ ≤ D i := (hD i).1
  refine ⟨coefficients phi P (pseudoInverse eps D U) z, ?_, fun a => ?_⟩
  · rw [solve, hrun]
    exact if_neg (by rintro ⟨i, hi⟩; exact absurd hi (not_le.2 (htol i)))
  · rw [coefficients_apply, pseudoInverse_eq eps D U htol]
    conv_lhs => rw [hM]
    rw [inverse_mul D U E hU fun i => (hDpos i).ne', Matrix.add_mulVec, Matrix.one_mulVec,
      Pi.add_apply, add_sub_cancel_left]
    refine (mulVec_bound _ (n * (1 / lam * eps)) z (fun i => ?_) a).trans (le_of_eq (by ring))
    refine error_entry U hU _ E (1 / lam) eps (fun j => ?_) hE z i
    rw [abs_of_pos (one_div_pos.2 (hDpos j))]
    exact one_div_le_one_div_of_le hlam (hD j).1

end ArborX.Interp
