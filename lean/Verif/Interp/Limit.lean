import Verif.Interp.Poly
import Mathlib.Algebra.MvPolynomial.Funext

/-!
# Moving least squares: lemmas for small tolerances
-/

namespace ArborX.Interp

open ArborX.Geometry MvPolynomial

variable {n k dim : ℕ}

/-- A form that is positive away from zero is bounded from below on unit vectors. -/
theorem exists_lower (w : Fin k → ℝ) (P : Fin k → Fin n → ℝ) (hn : 0 < n)
    (hpos : ∀ a : Fin n → ℝ, a ≠ 0 → 0 < ∑ j, w j * (∑ i, P j i * a i) ^ 2) :
    ∃ lam : ℝ, 0 < lam ∧
      ∀ a : Fin n → ℝ, lam * ∑ i, a i ^ 2 ≤ ∑ j, w j * (∑ i, P j i * a i) ^ 2 := by
  have hne : (Metric.sphere (0 : Fin n → ℝ) 1).Nonempty := by
    have : Nontrivial (Fin n → ℝ) := ⟨⟨0, fun _ => 1, fun h => by
      simpa using congrFun h ⟨0, hn⟩⟩⟩
    exact NormedSpace.sphere_nonempty.2 zero_le_one
  have hcont : Continuous fun a : Fin n → ℝ => ∑ j, w j * (∑ i, P j i * a i) ^ 2 := by fun_prop
  obtain ⟨a0, ha0, hmin⟩ := (isCompact_sphere (0 : Fin n → ℝ) 1).exists_isMinOn hne
    hcont.continuousOn
  have hm : 0 < ∑ j, w j * (∑ i, P j i * a0 i) ^ 2 := by
    refine hpos a0 fun h => ?_
    rw [h] at ha0
    simp at ha0
  refine ⟨(∑ j, w j * (∑ i, P j i * a0 i) ^ 2) / n, div_pos hm (by exact_mod_cast hn), fun a => ?_⟩
  by_cases ha : a = 0
  · subst ha; simp
  · have hna : 0 < ‖a‖ := norm_pos_iff.2 ha
    have h1 := hmin (a := ‖a‖⁻¹ • a) (by
      rw [mem_sphere_zero_iff_norm, norm_smul, norm_inv, norm_norm, inv_mul_cancel₀ hna.ne'])
    have h2 : ∑ j, w j * (∑ i, P j i * (‖a‖⁻¹ • a) i) ^ 2
        = ‖a‖⁻¹ ^ 2 * ∑ j, w j * (∑ i, P j i * a i) ^ 2 := by
      rw [Finset.mul_sum]
      refine Finset.sum_congr rfl fun j _ => ?_
      have : ∑ i, P j i * (‖a‖⁻¹ • a) i = ‖a‖⁻¹ * ∑ i, P j i * a i := by
        rw [Finset.mul_sum]
        exact Finset.sum_congr rfl fun i _ => by
          rw [Pi.smul_apply, smul_eq_mul]; ring
      rw [this]; ring
    have h1' : ∑ j, w j * (∑ i, P j i * a0 i) ^ 2
        ≤ ‖a‖⁻¹ ^ 2 * ∑ j, w j * (∑ i, P j i * a i) ^ 2 := h2 ▸ h1
    have h3 : ∑ i, a i ^ 2 ≤ n * ‖a‖ ^ 2 := by
      calc ∑ i, a i ^ 2 ≤ ∑ _i : Fin n, ‖a‖ ^ 2 := Finset.sum_le_sum fun i _ => by
            have := norm_le_pi_norm a i
            rw [Real.norm_eq_abs] at this
            rw [← sq_abs]
            exact pow_le_pow_left₀ (abs_nonneg _) this 2
        _ = n * ‖a‖ ^ 2 := by simp
    generalize ∑ j, w j * (∑ i, P j i * a0 i) ^ 2 = m at *
    generalize ∑ j, w j * (∑ i, P j i * a i) ^ 2 = g at *
    have hnn : (0 : ℝ) < n := by exact_mod_cast hn
    have h4 : m * ‖a‖ ^ 2 ≤ g := by
      have := mul_le_mul_of_nonneg_right h1' (sq_nonneg ‖a‖)
      calc m * ‖a‖ ^ 2 ≤ ‖a‖⁻¹ ^ 2 * g * ‖a‖ ^ 2 := this
        _ = g := by field_simp
    calc m / n * ∑ i, a i ^ 2 ≤ m / n * (n * ‖a‖ ^ 2) :=
          mul_le_mul_of_nonneg_left h3 (div_pos hm hnn).le
      _ = m * ‖a‖ ^ 2 := by field_simp
      _ ≤ g := h4

/-- An upper bound of the form. -/
theorem exists_upper (w : Fin k → ℝ) (P : Fin k → Fin n → ℝ) (hw : ∀ j, 0 ≤ w j) :
    ∀ a : Fin n → ℝ, ∑ j, w j * (∑ i, P j i * a i) ^ 2
      ≤ (∑ j, w j * ∑ i, P j i ^ 2) * ∑ i, a i ^ 2 := by
  intro a
  rw [Finset.sum_mul]
  refine Finset.sum_le_sum fun j _ => ?_
  rw [mul_assoc]
  exact mul_le_mul_of_nonneg_left (Finset.sum_mul_sq_le_sq_mul_sq _ _ _) (hw j)

theorem eq_of_dist_zero (x y : Pt ℝ dim) (h : distancePoint x y ≤ 0) : x = y := by
  have h0 : ∑ d, (y d - x d) * (y d - x d) ≤ 0 := Real.sqrt_eq_zero'.1
    (le_antisymm h (Real.sqrt_nonneg _))
  funext d
  have := (Finset.sum_eq_zero_iff_of_nonneg (fun d _ => mul_self_nonneg (y d - x d))).1
    (le_antisymm h0 (Finset.sum_nonneg fun d _ => mul_self_nonneg _)) d (Finset.mem_univ d)
  have := mul_self_eq_zero.1 this
  linarith

/-- For small tolerances the normalised points do not depend on the tolerance. -/
theorem normalize_const (t : Pt ℝ dim) (src : Fin k → Pt ℝ dim) :
    ∃ (e : ℝ) (R : ℝ) (y : Fin k → Pt ℝ dim), 0 < e ∧ 0 < R ∧
      (∀ eps, 0 < eps → eps ≤ e → normalize eps t src = y) ∧
      ∀ j, (fun d => t d + R * y j d) = src j := by
  by_cases h : ∃ j, 0 < distancePoint (src j) t
  · obtain ⟨j, hj⟩ := h
    refine ⟨_, radius (distancePoint (src j) t) t src,
      normalize (distancePoint (src j) t) t src, hj, radius_pos _ hj t src, fun eps he hle => ?_,
      denormalize _ hj t src⟩
    have : radius eps t src = radius (distancePoint (src j) t) t src := by
      rw [radius, radius]
      congr 1
      obtain ⟨a1, b1, c1⟩ := radius_fold t src (List.finRange k) eps
      obtain ⟨a2, b2, c2⟩ := radius_fold t src (List.finRange k) (distancePoint (src j) t)
      exact le_antisymm (c1 _ (hle.trans a2) b2) (c2 _ (b1 j (List.mem_finRange j)) b1)
    funext j' d
    rw [normalize, normalize, this]
  · have hs : ∀ j, src j = t := fun j =>
      eq_of_dist_zero _ _ (not_lt.1 fun h' => h ⟨j, h'⟩)
    refine ⟨1, 1, fun _ _ => 0, one_pos, one_pos, fun eps _ _ => ?_, fun j => ?_⟩
    · funext j d
      rw [normalize, hs j]; simp
    · rw [hs j]; simp

/-- Values of `f` for any radius that describes the same normalised points. -/
theorem values_of (t : Pt ℝ dim) (R : ℝ) (src y : Fin k → Pt ℝ dim) (deg : ℕ)
    (hy : ∀ j, (fun d => t d + R * y j d) = src j)
    (f : MvPolynomial (Fin dim) ℝ) (hf : f.totalDegree ≤ deg) :
    (∀ j, eval (src j) f = ∑ i, (∏ d, y j d ^ expoAt dim deg i d)
      * coeffs deg (recentre t R f) i) ∧
    eval t f = coeffs deg (recentre t R f) ⟨0, basisSize_pos dim deg⟩ := by
  have hq := (totalDegree_recentre t R f).trans hf
  constructor
  · intro j
    rw [← eval_coeffs deg _ hq, eval_recentre, hy j]
  · rw [coeffs, expoAt_zero]
    have h : eval (fun _ => 0) (recentre t R f) = eval t f := by
      rw [eval_recentre]; simp
    rw [← h, ← constantCoeff_eq, eq_comm]
    have := eval_zero' (R := ℝ) (σ := Fin dim)
    exact (congrFun (congrArg DFunLike.coe this) (recentre t R f)).symm

/-- If no polynomial vanishes at all sources then the least squares form is positive. -/
theorem form_pos (t : Pt ℝ dim) (R : ℝ) (hR : 0 < R) (src y : Fin k → Pt ℝ dim) (deg : ℕ)
    (hy : ∀ j, (fun d => t d + R * y j d) = src j)
    (huni : ∀ f : MvPolynomial (Fin dim) ℝ, f.totalDegree ≤ deg →
      (∀ j, eval (src j) f = 0) → f = 0)
    (w : Fin k → ℝ) (hw : ∀ j, 0 < w j) (a : Fin (basisSize dim deg) → ℝ) (ha : a ≠ 0) :
    0 < ∑ j, w j * (∑ i, (∏ d, y j d ^ expoAt dim deg i d) * a i) ^ 2 := by
  have hnn : ∀ j, 0 ≤ w j * (∑ i, (∏ d, y j d ^ expoAt dim deg i d) * a i) ^ 2 := fun j =>
    mul_nonneg (hw j).le (sq_nonneg _)
  refine lt_of_le_of_ne (Finset.sum_nonneg fun j _ => hnn j) fun h0 => ha ?_
  have hz := (Finset.sum_eq_zero_iff_of_nonneg (fun j _ => hnn j)).1 h0.symm
  -- the polynomial with coefficients `a` vanishes at the normalised points
  have hvan : ∀ j, eval (y j) (ofCoeffs deg a) = 0 := by
    intro j
    rw [eval_coeffs deg _ (totalDegree_ofCoeffs deg a), coeffs_ofCoeffs]
    have := hz j (Finset.mem_univ j)
    rcases mul_eq_zero.1 this with h | h
    · exact absurd h (hw j).ne'
    · exact pow_eq_zero_iff (two_ne_zero) |>.1 h
  have hback : ∀ x : Pt ℝ dim, eval (fun d => t d + R * x d)
      (recentre (fun d => -t d / R) (1 / R) (ofCoeffs deg a)) = eval x (ofCoeffs deg a) := by
    intro x
    rw [eval_recentre]
    congr 1
    have : (fun d => -t d / R + 1 / R * (t d + R * x d)) = x := by
      funext d; field_simp; ring
    rw [this]
  have hf := huni (recentre (fun d => -t d / R) (1 / R) (ofCoeffs deg a))
    ((totalDegree_recentre _ _ _).trans (totalDegree_ofCoeffs deg a)) (fun j => by
      rw [← hy j, hback, hvan])
  have hq : ofCoeffs deg a = 0 := by
    refine MvPolynomial.funext fun x => ?_
    rw [← hback x, hf, map_zero, map_zero]
  rw [← coeffs_ofCoeffs deg a, hq]
  funext i
  simp [coeffs]

end ArborX.Interp
