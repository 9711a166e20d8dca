import Verif.Interp.Poly
import Mathlib.Analysis.SpecialFunctions.Log.NegMulLog

/-!
# Moving least squares: the weight of a source decreases with its distance

All nine radial basis functions are even, continuous and, on the unit interval, strictly
decreasing.  So a source that is nearer to the target never gets a smaller weight than a source
that is farther away, whatever function the user picks.
-/

namespace ArborX.Interp

open ArborX ArborX.Geometry Set

/-! ### Products of a power of `1 - s` and a polynomial -/

/-- A polynomial with the lowest coefficient first (proof device). -/
def ev : List ℝ → ℝ → ℝ
  | [], _ => 0
  | a :: l, x => a + x * ev l x

/-- Its derivative. -/
def dv : List ℝ → ℝ → ℝ
  | [], _ => 0
  | _ :: l, x => ev l x + x * dv l x

theorem hasDerivAt_ev (l : List ℝ) (x : ℝ) : HasDerivAt (ev l) (dv l x) x := by
  induction l with
  | nil => exact hasDerivAt_const x (0 : ℝ)
  | cons a l ih =>
    refine (((hasDerivAt_id x).mul ih).const_add a).congr_deriv ?_
    simp [dv]

theorem strictAnti_pow_ev (m : ℕ) (l : List ℝ)
    (h : ∀ s, 0 < s → s < 1 → 0 < (m + 1) * ev l s - (1 - s) * dv l s) :
    StrictAntiOn (fun s => (1 - s) ^ (m + 1) * ev l s) (Icc 0 1) := by
  have hd : ∀ s, HasDerivAt (fun s => (1 - s) ^ (m + 1) * ev l s)
      (-((1 - s) ^ m * ((m + 1) * ev l s - (1 - s) * dv l s))) s := by
    intro s
    have h1 : HasDerivAt (fun s : ℝ => 1 - s) (-1) s := by
      simpa using (hasDerivAt_id s).const_sub 1
    refine ((h1.pow (m + 1)).mul (hasDerivAt_ev l s)).congr_deriv ?_
    simp only [Nat.add_sub_cancel, Pi.pow_apply]
    push_cast
    ring
  refine strictAntiOn_of_deriv_neg (convex_Icc 0 1)
    (fun s _ => (hd s).continuousAt.continuousWithinAt) fun s hs => ?_
  rw [interior_Icc] at hs
  rw [(hd s).deriv, neg_lt_zero]
  exact mul_pos (pow_pos (by linarith [hs.2]) _) (h s hs.1 hs.2)

theorem continuous_ev (l : List ℝ) : Continuous (ev l) :=
  continuous_iff_continuousAt.2 fun x => (hasDerivAt_ev l x).continuousAt

/-! ### The nine functions -/

theorem evp (x : ℝ) : evaluatePolynomial x [-1, 1] = 1 - x := by
  simp only [evaluatePolynomial, List.foldl]; ring

/-- The exponent and the cofactor of the functions that are polynomials in `x` or in `√x`. -/
def CRBF.shape : CRBF → ℕ × List ℝ
  | .wendland0 => (1, [1])
  | .wendland2 => (3, [1, 4])
  | .wendland4 => (5, [3, 18, 35])
  | .wendland6 => (7, [1, 8, 25, 32])
  | .wu2 => (3, [4, 16, 12, 3])
  | .wu4 => (5, [6, 36, 82, 72, 30, 5])
  | .buhmann2 => (0, [])
  | .buhmann3 => (5, [5, 30, 105, 280, 546, 756, 546, 280, 105, 30, 5])
  | .buhmann4 => (5, [35, 210, 735, 1960, 4014, 6444, 7854, 5544, 2079, 594, 99])

theorem CRBF.shape_anti (F : CRBF) (hF : F ≠ .buhmann2) :
    StrictAntiOn (fun s => (1 - s) ^ (F.shape.1 + 1) * ev F.shape.2 s) (Icc 0 1) := by
  refine strictAnti_pow_ev _ _ fun s h0 h1 => ?_
  cases F <;> first | exact absurd rfl hF | skip
  all_goals
    simp only [CRBF.shape, ev, dv, Nat.cast_ofNat, Nat.cast_one]
    ring_nf
    positivity

theorem buhmann3_eq (x : ℝ) (h0 : 0 ≤ x) : CRBF.func .buhmann3 x
    = (1 - √x) ^ 6 * ev (CRBF.shape .buhmann3).2 (√x) / 5 := by
  have hs := Real.sq_sqrt h0
  simp only [CRBF.func]
  generalize Real.sqrt x = s at hs
  subst hs
  simp only [evaluatePolynomial, List.foldl, CRBF.shape, ev]
  ring

theorem buhmann4_eq (x : ℝ) (h0 : 0 ≤ x) : CRBF.func .buhmann4 x
    = (1 - √x) ^ 6 * ev (CRBF.shape .buhmann4).2 (√x) / 35 := by
  have hs := Real.sq_sqrt h0
  simp only [CRBF.func]
  generalize Real.sqrt x = s at hs
  subst hs
  simp only [evaluatePolynomial, List.foldl, CRBF.shape, ev]
  ring

theorem buhmann2_eq (x : ℝ) : CRBF.func .buhmann2 x
    = (12 * x ^ 4 * Real.log x - 21 * x ^ 4 + 32 * x ^ 3 - 12 * x ^ 2 + 1) / 6 := by
  simp only [CRBF.func]
  split_ifs with h
  · subst h; norm_num
  · simp only [evaluatePolynomial, List.foldl]; ring

theorem poly_eq (F : CRBF) (h2 : F ≠ .buhmann2) (h3 : F ≠ .buhmann3) (h4 : F ≠ .buhmann4) (x : ℝ) :
    F.func x = (1 - x) ^ (F.shape.1 + 1) * ev F.shape.2 x := by
  cases F <;> first | exact absurd rfl h2 | exact absurd rfl h3 | exact absurd rfl h4 | skip
  all_goals
    simp only [CRBF.func, evp, CRBF.shape, ev]
    try simp only [evaluatePolynomial, List.foldl, mul_zero, zero_add]
    ring

theorem continuous_buhmann2 : Continuous (CRBF.func .buhmann2) := by
  have : CRBF.func .buhmann2 = fun x =>
      (12 * x ^ 3 * (x * Real.log x) - 21 * x ^ 4 + 32 * x ^ 3 - 12 * x ^ 2 + 1) / 6 := by
    funext x
    rw [buhmann2_eq]
    ring
  rw [this]
  have := Real.continuous_mul_log
  fun_prop

theorem CRBF.func_anti (F : CRBF) : StrictAntiOn F.func (Icc 0 1) := by
  by_cases h2 : F = .buhmann2
  · subst h2
    refine strictAntiOn_of_deriv_neg (convex_Icc 0 1) continuous_buhmann2.continuousOn
      fun t ht => ?_
    rw [interior_Icc] at ht
    have hd := (buhmann2_deriv t ht.1).div_const 6
    have e : CRBF.func .buhmann2 = fun x =>
      (12 * x ^ 4 * Real.log x - 21 * x ^ 4 + 32 * x ^ 3 - 12 * x ^ 2 + 1) / 6 :=
      funext buhmann2_eq
    rw [e, hd.deriv]
    have := buhmann2_g_neg t ht.1 ht.2
    refine div_neg_of_neg_of_pos (mul_neg_of_pos_of_neg (by linarith [ht.1]) this) (by norm_num)
  · have hs : ∀ x ∈ Icc (0 : ℝ) 1, √x ∈ Icc (0 : ℝ) 1 := fun x hx =>
      ⟨Real.sqrt_nonneg x, Real.sqrt_le_one.2 hx.2⟩
    by_cases h3 : F = .buhmann3
    · subst h3
      intro x hx y hy hxy
      rw [buhmann3_eq x hx.1, buhmann3_eq y hy.1]
      have := CRBF.shape_anti .buhmann3 (by simp) (hs x hx) (hs y hy)
        (Real.sqrt_lt_sqrt hx.1 hxy)
      exact div_lt_div_of_pos_right this (by norm_num)
    by_cases h4 : F = .buhmann4
    · subst h4
      intro x hx y hy hxy
      rw [buhmann4_eq x hx.1, buhmann4_eq y hy.1]
      have := CRBF.shape_anti .buhmann4 (by simp) (hs x hx) (hs y hy)
        (Real.sqrt_lt_sqrt hx.1 hxy)
      exact div_lt_div_of_pos_right this (by norm_num)
    · intro x hx y hy hxy
      rw [poly_eq F h2 h3 h4, poly_eq F h2 h3 h4]
      exact CRBF.shape_anti F h2 hx hy hxy

theorem CRBF.func_cont (F : CRBF) : ContinuousOn F.func (Icc 0 1) := by
  by_cases h2 : F = .buhmann2
  · subst h2; exact continuous_buhmann2.continuousOn
  by_cases h3 : F = .buhmann3
  · subst h3
    refine ContinuousOn.congr (Continuous.continuousOn ?_) fun x hx => buhmann3_eq x hx.1
    have := continuous_ev (CRBF.shape .buhmann3).2
    fun_prop
  by_cases h4 : F = .buhmann4
  · subst h4
    refine ContinuousOn.congr (Continuous.continuousOn ?_) fun x hx => buhmann4_eq x hx.1
    have := continuous_ev (CRBF.shape .buhmann4).2
    fun_prop
  · refine ContinuousOn.congr (Continuous.continuousOn ?_) fun x _ => poly_eq F h2 h3 h4 x
    have := continuous_ev F.shape.2
    fun_prop

theorem CRBF.func_one (F : CRBF) : F.func 1 = 0 := by
  have := F.evaluate_zero 1 (by norm_num)
  rw [CRBF.evaluate, abs_eq_zero] at this
  simpa using this

theorem clamp_mem (y : ℝ) : min |y| 1 ∈ Icc (0 : ℝ) 1 :=
  ⟨le_min (abs_nonneg y) zero_le_one, min_le_right _ _⟩

/-- The absolute value that `evaluate` takes is not needed without rounding. -/
theorem CRBF.evaluate_eq (F : CRBF) (y : ℝ) : F.evaluate y = F.func (min |y| 1) := by
  rw [CRBF.evaluate, abs_of_nonneg]
  rw [← F.func_one]
  exact F.func_anti.antitoneOn (clamp_mem y) ⟨zero_le_one, le_rfl⟩ (clamp_mem y).2

/-! ### The properties -/

/-- C84.  Every radial basis function of the library is even, continuous on the whole line,
never increases with the distance, and strictly decreases until it vanishes at distance 1. -/
theorem crbf_decreasing (F : CRBF) :
    (∀ y, F.evaluate (-y) = F.evaluate y) ∧
    Continuous F.evaluate ∧
    (∀ y z, |y| ≤ |z| → F.evaluate z ≤ F.evaluate y) ∧
    (∀ y z, |y| < |z| → |y| < 1 → F.evaluate z < F.evaluate y) ∧
    (∀ y, F.evaluate y = 0 ↔ 1 ≤ |y|) := by
  refine ⟨fun y => by rw [CRBF.evaluate, CRBF.evaluate, abs_neg], ?_, fun y z h => ?_,
    fun y z h h1 => ?_, fun y => ⟨fun h => ?_, F.evaluate_zero y⟩⟩
  · have : F.evaluate = F.func ∘ fun y : ℝ => min |y| 1 := funext F.evaluate_eq
    rw [this]
    exact F.func_cont.comp_continuous (by fun_prop) clamp_mem
  · rw [F.evaluate_eq, F.evaluate_eq]
    exact F.func_anti.antitoneOn (clamp_mem y) (clamp_mem z) (min_le_min_right 1 h)
  · rw [F.evaluate_eq, F.evaluate_eq]
    refine F.func_anti (clamp_mem y) (clamp_mem z) ?_
    rw [min_eq_left h1.le]
    exact lt_min h h1
  · by_contra hy
    exact (F.evaluate_pos y (not_le.1 hy)).ne' h

/-- C84.  In a moving least squares interpolation, of two sources of a target the one that is
nearer to the target has the larger weight, sources at the same distance have the same weight,
and no weight exceeds that of a source placed on the target; for every function, every
dimension and every set of sources. -/
theorem mls_nearer_weighs_more {dim k : ℕ} (F : CRBF) (eps : ℝ) (heps : 0 < eps)
    (t : Pt ℝ dim) (src : Fin k → Pt ℝ dim) (i j : Fin k) :
    (weights F (normalize eps t src) j < weights F (normalize eps t src) i ↔
      distancePoint (src i) t < distancePoint (src j) t) ∧
    (weights F (normalize eps t src) i = weights F (normalize eps t src) j ↔
      distancePoint (src i) t = distancePoint (src j) t) ∧
    weights F (normalize eps t src) i ≤ F.evaluate 0 := by
  have hR := radius_pos eps heps t src
  have hw : ∀ i, weights F (normalize eps t src) i
      = F.evaluate (distancePoint (src i) t / radius eps t src) := fun i => by
    rw [weights, normalize_dist eps heps]
  have ha : ∀ i, |distancePoint (src i) t / radius eps t src|
      = distancePoint (src i) t / radius eps t src := fun i =>
    abs_of_nonneg (div_nonneg (distancePoint_nonneg _ _) hR.le)
  have hlt : ∀ i, |distancePoint (src i) t / radius eps t src| < 1 := fun i => by
    rw [ha, div_lt_one hR]
    exact dist_lt_radius eps heps t src i
  obtain ⟨_, _, hle, hst, _⟩ := crbf_decreasing F
  have key : ∀ i j, distancePoint (src i) t < distancePoint (src j) t →
      weights F (normalize eps t src) j < weights F (normalize eps t src) i := by
    intro i j h
    rw [hw, hw]
    refine hst _ _ ?_ (hlt i)
    rw [ha, ha]
    exact div_lt_div_of_pos_right h hR
  have heq : ∀ i j, distancePoint (src i) t = distancePoint (src j) t →
      weights F (normalize eps t src) i = weights F (normalize eps t src) j := by
    intro i j h
    rw [hw, hw, h]
  refine ⟨⟨fun h => ?_, key i j⟩, ⟨fun h => ?_, heq i j⟩, ?_⟩
  · rcases lt_trichotomy (distancePoint (src i) t) (distancePoint (src j) t) with h' | h' | h'
    · exact h'
    · exact absurd (heq i j h') h.ne'
    · exact absurd (key j i h') h.asymm
  · rcases lt_trichotomy (distancePoint (src i) t) (distancePoint (src j) t) with h' | h' | h'
    · exact absurd h (key i j h').ne'
    · exact h'
    · exact absurd h (key j i h').ne
  · rw [hw]
    exact hle _ _ (by rw [abs_zero]; exact abs_nonneg _)

/-- The functions are not trivial: at distance `1/4` the function `buhmann3` exceeds its value at
`9/16`, and both are positive. -/
example : 0 < CRBF.evaluate .buhmann3 (9 / 16) ∧
    CRBF.evaluate .buhmann3 (9 / 16) < CRBF.evaluate .buhmann3 (1 / 4) := by
  refine ⟨CRBF.evaluate_pos _ _ ?_, (crbf_decreasing .buhmann3).2.2.2.1 _ _ ?_ ?_⟩ <;>
    norm_num [abs_of_pos]

/-- Two sources at different distances of the target: the premises of the comparison hold. -/
example : weights .wendland2 (normalize (1 / 1000) (fun _ => 0 : Pt ℝ 1)
      (fun j : Fin 2 => fun _ => if j = 0 then 1 else 2)) 1
    < weights .wendland2 (normalize (1 / 1000) (fun _ => 0 : Pt ℝ 1)
      (fun j : Fin 2 => fun _ => if j = 0 then 1 else 2)) 0 := by
  refine (mls_nearer_weighs_more .wendland2 (1 / 1000) (by norm_num) _ _ 0 1).1.2 ?_
  norm_num [distancePoint]
  exact (Real.lt_sqrt (by norm_num)).2 (by norm_num)

end ArborX.Interp
