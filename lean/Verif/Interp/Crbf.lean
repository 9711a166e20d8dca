import Mathlib.Analysis.SpecialFunctions.Log.Deriv
import Mathlib.Analysis.SpecialFunctions.Pow.Real
import Mathlib.Analysis.Calculus.Deriv.MeanValue
import Mathlib.Tactic.Ring
import Mathlib.Tactic.Linarith
import Mathlib.Tactic.Positivity
import Mathlib.Tactic.LinearCombination
import Mathlib.Tactic.NormNum

/-!
# Moving least squares: compactly supported radial basis functions

Models `src/interpolation/detail/ArborX_InterpDetailsCompactRadialBasisFunction.hpp` over ℝ
(no rounding), and shows what the interpolation needs of the functions: they are positive
strictly inside the unit ball and vanish outside.
-/

namespace ArborX.Interp

/-- The functions that the header defines (CompactRadialBasisFunction.hpp 70-91). -/
inductive CRBF
  | wendland0 | wendland2 | wendland4 | wendland6
  | wu2 | wu4
  | buhmann2 | buhmann3 | buhmann4

/-- `evaluatePolynomial` (CompactRadialBasisFunction.hpp 30-38): coefficients with the highest
first, Horner's scheme. -/
def evaluatePolynomial (x : ℝ) (coeffs : List ℝ) : ℝ :=
  coeffs.foldl (fun eval coeff => x * eval + coeff) 0

/-- The expression `FUNC` of each `CRBF_DEF` (CompactRadialBasisFunction.hpp 71-91); `x` is in
`[0, 1]`. -/
noncomputable def CRBF.func : CRBF → ℝ → ℝ
  | .wendland0, x => evaluatePolynomial x [-1, 1] ^ 2
  | .wendland2, x => evaluatePolynomial x [-1, 1] ^ 4 * evaluatePolynomial x [4, 1]
  | .wendland4, x => evaluatePolynomial x [-1, 1] ^ 6 * evaluatePolynomial x [35, 18, 3]
  | .wendland6, x => evaluatePolynomial x [-1, 1] ^ 8 * evaluatePolynomial x [32, 25, 8, 1]
  | .wu2, x => evaluatePolynomial x [-1, 1] ^ 4 * evaluatePolynomial x [3, 12, 16, 4]
  | .wu4, x => evaluatePolynomial x [-1, 1] ^ 6 * evaluatePolynomial x [5, 30, 72, 82, 36, 6]
  | .buhmann2, x => if x = 0 then 1 / 6
      else evaluatePolynomial x [12 * Real.log x - 21, 32, -12, 0, 1] / 6
  | .buhmann3, x => evaluatePolynomial x
      [5, 0, -84, 0, 1024 * Real.sqrt x - 1890, 1024 * Real.sqrt x, -84, 0, 5] / 5
  | .buhmann4, x => evaluatePolynomial x
      [99, 0, -4620, 9216 * Real.sqrt x, -11264 * Real.sqrt x + 6930, 0, -396, 0, 35] / 35

/-- `evaluate` of each of the classes (CompactRadialBasisFunction.hpp 49-65): the argument is
clamped to `[0, 1]`, the result is an absolute value. -/
noncomputable def CRBF.evaluate (F : CRBF) (y : ℝ) : ℝ := |F.func (min |y| 1)|

/-- Outside the unit ball the functions vanish. -/
theorem CRBF.evaluate_zero (F : CRBF) (y : ℝ) (h : 1 ≤ |y|) : F.evaluate y = 0 := by
  rw [CRBF.evaluate, min_eq_right h, abs_eq_zero]
  cases F <;> norm_num [CRBF.func, evaluatePolynomial]

/-- The derivative of `buhmann2` (times 6) is `24 t` times this function. -/
theorem buhmann2_g_neg (t : ℝ) (ht : 0 < t) (ht1 : t < 1) :
    2 * t ^ 2 * Real.log t - 3 * t ^ 2 + 4 * t - 1 < 0 := by
  let g : ℝ → ℝ := fun t => 2 * t ^ 2 * Real.log t - 3 * t ^ 2 + 4 * t - 1
  have hg : ∀ t : ℝ, 0 < t → HasDerivAt g (4 * (t * Real.log t - t + 1)) t := by
    intro t ht
    have h := ((((hasDerivAt_pow 2 t).const_mul 2).mul (Real.hasDerivAt_log ht.ne')).sub
      ((hasDerivAt_pow 2 t).const_mul 3)).add ((hasDerivAt_id t).const_mul 4) |>.sub_const 1
    refine h.congr_deriv ?_
    have : t ^ 2 * t⁻¹ = t := by rw [pow_two, mul_assoc, mul_inv_cancel₀ ht.ne', mul_one]
    push_cast
    linear_combination 2 * this
  have hlog : ∀ t : ℝ, 0 < t → t < 1 → 0 < t * Real.log t - t + 1 := by
    intro t ht ht1
    have h := Real.log_lt_sub_one_of_pos (inv_pos.2 ht) (by
      intro h; rw [inv_eq_one] at h; exact ht1.ne h)
    rw [Real.log_inv] at h
    have := mul_lt_mul_of_pos_left h ht
    rw [mul_sub, mul_inv_cancel₀ ht.ne'] at this
    linarith
  obtain ⟨c, hc, hc'⟩ := exists_hasDerivAt_eq_slope g (fun t => 4 * (t * Real.log t - t + 1))
    ht1 (fun s hs => (hg s (ht.trans_le hs.1)).continuousAt.continuousWithinAt)
    (fun s hs => hg s (ht.trans hs.1))
  have hpos := hlog c (ht.trans hc.1) hc.2
  have hg1 : g 1 = 0 := by simp [g]; norm_num
  rw [hg1, eq_div_iff (by linarith)] at hc'
  have : 0 < 4 * (c * Real.log c - c + 1) * (1 - t) := by
    refine mul_pos (by linarith) (by linarith)
  change g t < 0
  linarith

theorem buhmann2_deriv (t : ℝ) (ht : 0 < t) :
    HasDerivAt (fun t : ℝ =>
      12 * t ^ 4 * Real.log t - 21 * t ^ 4 + 32 * t ^ 3 - 12 * t ^ 2 + 1)
      (24 * t * (2 * t ^ 2 * Real.log t - 3 * t ^ 2 + 4 * t - 1)) t := by
  have h := (((((hasDerivAt_pow 4 t).const_mul 12).mul (Real.hasDerivAt_log ht.ne')).sub
    ((hasDerivAt_pow 4 t).const_mul 21)).add ((hasDerivAt_pow 3 t).const_mul 32)).sub
    ((hasDerivAt_pow 2 t).const_mul 12) |>.add_const 1
  refine h.congr_deriv ?_
  have : t ^ 4 * t⁻¹ = t ^ 3 := by
    rw [pow_succ, mul_assoc, mul_inv_cancel₀ ht.ne', mul_one]
  push_cast
  linear_combination 12 * this

theorem buhmann2_pos (x : ℝ) (h0 : 0 < x) (h1 : x < 1) :
    0 < 12 * x ^ 4 * Real.log x - 21 * x ^ 4 + 32 * x ^ 3 - 12 * x ^ 2 + 1 := by
  let g : ℝ → ℝ := fun t => 2 * t ^ 2 * Real.log t - 3 * t ^ 2 + 4 * t - 1
  let f : ℝ → ℝ := fun t =>
    12 * t ^ 4 * Real.log t - 21 * t ^ 4 + 32 * t ^ 3 - 12 * t ^ 2 + 1
  have hf : ∀ t : ℝ, 0 < t → HasDerivAt f (24 * t * g t) t := fun t ht => buhmann2_deriv t ht
  obtain ⟨c, hc, hc'⟩ := exists_hasDerivAt_eq_slope f (fun t => 24 * t * g t)
    h1 (fun s hs => (hf s (h0.trans_le hs.1)).continuousAt.continuousWithinAt)
    (fun s hs => hf s (h0.trans hs.1))
  have hneg : g c < 0 := buhmann2_g_neg c (h0.trans hc.1) hc.2
  have hf1 : f 1 = 0 := by simp [f]; norm_num
  rw [hf1, eq_div_iff (by linarith)] at hc'
  have : 24 * c * g c * (1 - x) < 0 :=
    mul_neg_of_neg_of_pos (mul_neg_of_pos_of_neg (by linarith [h0.trans hc.1]) hneg)
      (by linarith)
  have : 0 < f x := by linarith
  exact this

/-- Strictly inside the unit ball the functions are positive. -/
theorem CRBF.evaluate_pos (F : CRBF) (y : ℝ) (h : |y| < 1) : 0 < F.evaluate y := by
  rw [CRBF.evaluate, min_eq_left h.le]
  refine abs_pos.2 (ne_of_gt ?_)
  have h0 : 0 ≤ |y| := abs_nonneg y
  generalize |y| = x at h h0
  have h1 : 0 < 1 - x := by linarith
  have e : evaluatePolynomial x [-1, 1] = 1 - x := by
    simp only [evaluatePolynomial, List.foldl]; ring
  cases F
  case buhmann2 =>
    simp only [CRBF.func]
    split_ifs with hx
    · norm_num
    · have := buhmann2_pos x (lt_of_le_of_ne h0 (Ne.symm hx)) h
      refine div_pos ?_ (by norm_num)
      simp only [evaluatePolynomial, List.foldl]
      linarith
  case buhmann3 =>
    simp only [CRBF.func]
    refine div_pos ?_ (by norm_num)
    have hs := Real.sq_sqrt h0
    have hs0 := Real.sqrt_nonneg x
    have hs1 : Real.sqrt x < 1 := by
      rw [Real.sqrt_lt' one_pos]; linarith
    generalize Real.sqrt x = s at hs hs0 hs1
    subst hs
    have h1 : 0 < 1 - s := by linarith
    have : evaluatePolynomial (s ^ 2)
        [5, 0, -84, 0, 1024 * s - 1890, 1024 * s, -84, 0, 5]
        = (1 - s) ^ 6 * (5 + 30 * s + 105 * s ^ 2 + 280 * s ^ 3 + 546 * s ^ 4 + 756 * s ^ 5
          + 546 * s ^ 6 + 280 * s ^ 7 + 105 * s ^ 8 + 30 * s ^ 9 + 5 * s ^ 10) := by
      simp only [evaluatePolynomial, List.foldl]; ring
    rw [this]
    positivity
  case buhmann4 =>
    simp only [CRBF.func]
    refine div_pos ?_ (by norm_num)
    have hs := Real.sq_sqrt h0
    have hs0 := Real.sqrt_nonneg x
    have hs1 : Real.sqrt x < 1 := by
      rw [Real.sqrt_lt' one_pos]; linarith
    generalize Real.sqrt x = s at hs hs0 hs1
    subst hs
    have h1 : 0 < 1 - s := by linarith
    have : evaluatePolynomial (s ^ 2)
        [99, 0, -4620, 9216 * s, -11264 * s + 6930, 0, -396, 0, 35]
        = (1 - s) ^ 6 * (35 + 210 * s + 735 * s ^ 2 + 1960 * s ^ 3 + 4014 * s ^ 4
          + 6444 * s ^ 5 + 7854 * s ^ 6 + 5544 * s ^ 7 + 2079 * s ^ 8 + 594 * s ^ 9
          + 99 * s ^ 10) := by
      simp only [evaluatePolynomial, List.foldl]; ring
    rw [this]
    positivity
  all_goals
    simp only [CRBF.func, e]
    try simp only [evaluatePolynomial, List.foldl, mul_zero, zero_add]
    positivity

end ArborX.Interp
