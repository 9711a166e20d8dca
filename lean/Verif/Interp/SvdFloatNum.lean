import Verif.Interp.SvdFloat
import Verif.Fp.Ieee
import Verif.Fp.Lemmas
import Mathlib.Tactic.Linarith
import Mathlib.Tactic.Positivity
import Mathlib.Tactic.FieldSimp

/-!
# Symmetric singular value decomposition in floating-point arithmetic: single numbers
-/

namespace ArborX.Fp

open Nearest

/-- Rounding has the relative error `u` and, for small numbers, the absolute error `η`; one is a number of the type, and numbers up to eight do not overflow. -/
structure Format.Close (F : Format) (u η : ℝ) : Prop where
  u0 : 0 < u
  u1 : u ≤ 1 / 1000
  η0 : 0 ≤ η
  η1 : η ≤ u / 10
  one : F.rnd 1 = ((1 : ℝ) : EReal)
  small : ∀ x : ℝ, |x| ≤ 8 → ∃ y : ℝ, F.rnd x = y
  err : ∀ x y : ℝ, F.rnd x = y → |y - x| ≤ u * |x| + η

/-- The number is finite. -/
def Real (x : Num) : Prop := ∃ r : ℝ, x = some (r : EReal)

variable {F : Format} {u η : ℝ}

lemma round_real (F : Format) (r : ℝ) : F.round (r : EReal) = F.rnd r := by
  unfold Format.round
  rw [if_neg (by simp), EReal.toReal_coe]

/-- A finite result of a rounding comes from a finite number. -/
lemma round_eq_real {x : EReal} {r : ℝ} (h : F.round x = r) : ∃ y : ℝ, x = y ∧ F.rnd y = r := by
  unfold Format.round at h
  induction x with
  | bot => simp at h
  | top => simp at h
  | coe y => rw [if_neg (by simp), EReal.toReal_coe] at h; exact ⟨y, rfl, h⟩

lemma nadd_real (F : Format) (x y : ℝ) : F.nadd (some (x : EReal)) (some (y : EReal)) = some (F.rnd (x + y)) := by
  simp only [Format.nadd, exAdd]
  rw [if_neg (by simp), ← EReal.coe_add, Option.map_some, round_real]

lemma nmul_real (F : Format) (x y : ℝ) : F.nmul (some (x : EReal)) (some (y : EReal)) = some (F.rnd (x * y)) := by
  simp only [Format.nmul, exMul]
  rw [if_neg (by simp), ← EReal.coe_mul, Option.map_some, round_real]

lemma exAdd_eq_real {x y : Num} {r : EReal} (h : exAdd x y = some r) : ∃ a b : EReal, x = some a ∧ y = some b ∧ ¬ ((a = ⊤ ∧ b = ⊥) ∨ (a = ⊥ ∧ b = ⊤)) ∧ r = a + b := by
  unfold exAdd at h
  split at h
  · rename_i a b
    split_ifs at h with h'
    exact ⟨a, b, rfl, rfl, h', (Option.some.inj h).symm⟩
  · cases h

/-- A finite sum has finite terms. -/
lemma exAdd_real {x y : Num} {r : ℝ} (h : exAdd x y = some (r : EReal)) : ∃ a b : ℝ, x = some (a : EReal) ∧ y = some (b : EReal) ∧ r = a + b := by
  obtain ⟨a, b, rfl, rfl, hn, e⟩ := exAdd_eq_real h
  induction a with
  | bot => simp at e
  | top =>
    induction b with
    | bot => simp at hn
    | top => simp at e
    | coe b => simp at e
  | coe a =>
    induction b with
    | bot => simp at e
    | top => simp at e
    | coe b => exact ⟨a, b, rfl, rfl, by exact_mod_cast e⟩

lemma exMul_real (x y : ℝ) : exMul (some (x : EReal)) (some (y : EReal)) = some ((x * y : ℝ) : EReal) := by
  simp only [exMul]
  rw [if_neg (by simp), ← EReal.coe_mul]

lemma nmac_real_fma (F : Format) (hf : F.fma = true) (z x y : ℝ) : F.nmac (some (z : EReal)) (some (x : EReal)) (some (y : EReal)) = some (F.rnd (z + x * y)) := by
  rw [Format.nmac, if_pos hf, exMul_real]
  simp only [exAdd]
  rw [if_neg (by simp), ← EReal.coe_add, Option.map_some, round_real]

/-- If `z + x * y` is finite then so is `z`. -/
lemma nmac_eq_real {z x y : Num} {r : ℝ} (h : F.nmac z x y = some (r : EReal)) : Real z := by
  unfold Format.nmac at h
  split_ifs at h
  · obtain ⟨v, hv, e⟩ := Option.map_eq_some_iff.1 h
    obtain ⟨w, rfl, _⟩ := round_eq_real e
    obtain ⟨a, _, ha, _⟩ := exAdd_real hv
    exact ⟨a, ha⟩
  · rw [Format.nadd] at h
    obtain ⟨v, hv, e⟩ := Option.map_eq_some_iff.1 h
    obtain ⟨w, rfl, _⟩ := round_eq_real e
    obtain ⟨a, _, ha, _⟩ := exAdd_real hv
    exact ⟨a, ha⟩

/-- If `z + x * y` is finite then so is `x * y`. -/
lemma nmac_eq_real' {z x y : Num} {r : ℝ} (h : F.nmac z x y = some (r : EReal)) : Real (exMul x y) := by
  unfold Format.nmac at h
  split_ifs at h
  · obtain ⟨v, hv, e⟩ := Option.map_eq_some_iff.1 h
    obtain ⟨w, rfl, _⟩ := round_eq_real e
    obtain ⟨_, b, _, hb, _⟩ := exAdd_real hv
    exact ⟨b, hb⟩
  · rw [Format.nadd] at h
    obtain ⟨v, hv, e⟩ := Option.map_eq_some_iff.1 h
    obtain ⟨w, rfl, _⟩ := round_eq_real e
    obtain ⟨_, b, _, hb, _⟩ := exAdd_real hv
    obtain ⟨v', hv', e'⟩ := Option.map_eq_some_iff.1 hb
    obtain ⟨w', rfl, _⟩ := round_eq_real e'
    exact ⟨w', hv'⟩

@[simp] lemma exMul_none_left (x : Num) : exMul none x = none := by unfold exMul; rfl
@[simp] lemma exMul_none_right (x : Num) : exMul x none = none := by cases x <;> rfl
@[simp] lemma exAdd_none_left (x : Num) : exAdd none x = none := by unfold exAdd; rfl
@[simp] lemma exAdd_none_right (x : Num) : exAdd x none = none := by cases x <;> rfl
@[simp] lemma exDiv_none_left (x : Num) : exDiv none x = none := by unfold exDiv; rfl
@[simp] lemma exDiv_none_right (x : Num) : exDiv x none = none := by cases x <;> rfl
@[simp] lemma nmul_none_left (F : Format) (x : Num) : F.nmul none x = none := by simp [Format.nmul]
@[simp] lemma nmul_none_right (F : Format) (x : Num) : F.nmul x none = none := by simp [Format.nmul]
@[simp] lemma nadd_none_left (F : Format) (x : Num) : F.nadd none x = none := by simp [Format.nadd]
@[simp] lemma nadd_none_right (F : Format) (x : Num) : F.nadd x none = none := by simp [Format.nadd]
@[simp] lemma nmac_none_left (F : Format) (x y : Num) : F.nmac none x y = none := by simp [Format.nmac]
@[simp] lemma nmac_none_mid (F : Format) (z y : Num) : F.nmac z none y = none := by simp [Format.nmac]
@[simp] lemma nmac_none_right (F : Format) (z x : Num) : F.nmac z x none = none := by simp [Format.nmac]
@[simp] lemma ndot_none_c (F : Format) (x s y : Num) : F.ndot none x s y = none := by simp [Format.ndot]
@[simp] lemma ndot_none_x (F : Format) (c s y : Num) : F.ndot c none s y = none := by simp [Format.ndot]
@[simp] lemma ndot_none_y (F : Format) (c x s : Num) : F.ndot c x s none = none := by simp [Format.ndot]

/-- The error of `c * x + s * y`. -/
lemma ndot_err (hF : F.Close u η) {c x s y r : ℝ} (h : F.ndot (some (c : EReal)) (some (x : EReal)) (some (s : EReal)) (some (y : EReal)) = some (r : EReal)) :
    |r - (c * x + s * y)| ≤ 3 * u * (|c * x| + |s * y|) + 4 * η := by
  have hu0 := hF.u0
  have hu1 := hF.u1
  have hη := hF.η0
  have hA := abs_nonneg (c * x)
  have hB := abs_nonneg (s * y)
  unfold Format.ndot at h
  obtain ⟨z, hz⟩ := nmac_eq_real h
  rw [nmul_real] at hz
  have hz' : F.rnd (c * x) = z := Option.some.inj hz
  have e1 := hF.err _ _ hz'
  rw [nmul_real, hz'] at h
  by_cases hf : F.fma = true
  · rw [nmac_real_fma F hf] at h
    have e2 := hF.err _ _ (Option.some.inj h)
    have h3 : |z + s * y| ≤ |c * x| + |s * y| + |z - c * x| := by
      have : z + s * y = c * x + s * y + (z - c * x) := by ring
      rw [this]
      exact (abs_add_le _ _).trans (add_le_add (abs_add_le _ _) le_rfl)
    have h4 : |r - (c * x + s * y)| ≤ |r - (z + s * y)| + |z - c * x| := by
      have : r - (c * x + s * y) = (r - (z + s * y)) + (z - c * x) := by ring
      rw [this]
      exact abs_add_le _ _
    have h5 := mul_le_mul_of_nonneg_left h3 hu0.le
    have h6 : u * |z - c * x| ≤ 1 / 1000 * |z - c * x| := mul_le_mul_of_nonneg_right hu1 (abs_nonneg _)
    have h7 := mul_nonneg hu0.le hA
    have h8 := mul_nonneg hu0.le hB
    linarith
  · obtain ⟨w, hw⟩ : Real (F.nmul (some (s : EReal)) (some (y : EReal))) := by
      rw [Format.nmac, if_neg hf, Format.nadd] at h
      obtain ⟨v, hv, e⟩ := Option.map_eq_some_iff.1 h
      obtain ⟨w, rfl, _⟩ := round_eq_real e
      obtain ⟨_, b, _, hb, _⟩ := exAdd_real hv
      exact ⟨b, hb⟩
    have hw' : F.rnd (s * y) = w := by rw [nmul_real] at hw; exact Option.some.inj hw
    rw [Format.nmac, if_neg hf, hw, nadd_real] at h
    have e2 := hF.err _ _ hw'
    have e3 := hF.err _ _ (Option.some.inj h)
    have h3 : |z + w| ≤ |c * x| + |s * y| + (|z - c * x| + |w - s * y|) := by
      have : z + w = (c * x + s * y) + ((z - c * x) + (w - s * y)) := by ring
      rw [this]
      exact (abs_add_le _ _).trans (add_le_add (abs_add_le _ _) (abs_add_le _ _))
    have h4 : |r - (c * x + s * y)| ≤ |r - (z + w)| + (|z - c * x| + |w - s * y|) := by
      have : r - (c * x + s * y) = (r - (z + w)) + ((z - c * x) + (w - s * y)) := by ring
      rw [this]
      exact (abs_add_le _ _).trans (add_le_add le_rfl (abs_add_le _ _))
    have h5 := mul_le_mul_of_nonneg_left h3 hu0.le
    have h6 : u * |z - c * x| ≤ 1 / 1000 * |z - c * x| := mul_le_mul_of_nonneg_right hu1 (abs_nonneg _)
    have h6' : u * |w - s * y| ≤ 1 / 1000 * |w - s * y| := mul_le_mul_of_nonneg_right hu1 (abs_nonneg _)
    have h7 := mul_nonneg hu0.le hA
    have h8 := mul_nonneg hu0.le hB
    linarith

/-! ## The rotation -/

@[simp] lemma nneg_real (x : ℝ) : nneg (some (x : EReal)) = some ((-x : ℝ) : EReal) := rfl

lemma nabs_real (x : ℝ) : nabs (some (x : EReal)) = some ((|x| : ℝ) : EReal) := by
  simp only [nabs, Option.map_some, abs_eq_max_neg]
  rw [(EReal.coe_strictMono.monotone.map_max : ((max x (-x) : ℝ) : EReal) = _), EReal.coe_neg]

@[simp] lemma nabs_none : nabs none = none := rfl
@[simp] lemma nneg_none : nneg none = none := rfl

lemma nabs_nonneg {x : Num} {y : EReal} (h : nabs x = some y) : 0 ≤ y := by
  cases x with
  | none => cases h
  | some x =>
    have := Option.some.inj h
    rw [← this]
    rcases le_total 0 x with hx | hx
    · exact le_max_of_le_left hx
    · exact le_max_of_le_right (by rw [EReal.le_neg]; simpa using hx)

lemma rnd_zero' (F : Format) : F.rnd 0 = ((0 : ℝ) : EReal) := by rw [F.rnd_zero]; rfl

lemma round_mono (F : Format) : Monotone F.round := by
  intro x y h
  unfold Format.round
  induction x with
  | bot => simp
  | top => rw [top_le_iff] at h; simp [h]
  | coe x =>
    induction y with
    | bot => simp at h
    | top => simp
    | coe y =>
      rw [if_neg (by simp), if_neg (by simp)]
      exact F.mono (by simpa using h)

lemma round_one (hF : F.Close u η) : F.round 1 = 1 := by
  have := round_real F 1
  rw [hF.one] at this
  exact_mod_cast this

/-- The quotient of one and a number that is at least one is at most one. -/
lemma inv_le_one (hF : F.Close u η) {y : Num} {r : EReal} (h : F.ndiv (some 1) y = some r) (hy : ∀ v, y = some v → 1 ≤ v) : ∃ t : ℝ, r = t ∧ 0 ≤ t ∧ t ≤ 1 := by
  obtain ⟨v, hv, e⟩ := Option.map_eq_some_iff.1 h
  cases y with
  | none => simp at hv
  | some y =>
    have h1 := hy y rfl
    simp only [exDiv] at hv
    have hy0 : y ≠ 0 := fun h0 => by rw [h0] at h1; exact absurd h1 (by simp)
    rw [if_neg hy0, if_neg (by rintro ⟨h | h, _⟩ <;> exact absurd h (by decide))] at hv
    have hv' : (1 : EReal) / y = v := Option.some.inj hv
    have hv0 : 0 ≤ v ∧ v ≤ 1 := by
      rw [← hv']
      induction y with
      | bot => exact absurd h1 (by decide)
      | top => simp
      | coe y =>
        have h1' : (1 : ℝ) ≤ y := by exact_mod_cast h1
        have e1 : (1 : EReal) / (y : EReal) = ((1 / y : ℝ) : EReal) := by rw [EReal.coe_div]; rfl
        rw [e1]
        constructor
        · exact_mod_cast (by positivity : (0 : ℝ) ≤ 1 / y)
        · exact_mod_cast (div_le_one (by linarith)).2 h1'
    have hr0 : 0 ≤ r := by
      rw [← e]
      calc (0 : EReal) = F.round 0 := by
            have := round_real F 0
            rw [rnd_zero'] at this
            exact_mod_cast this.symm
        _ ≤ F.round v := round_mono F hv0.1
    have hr1 : r ≤ 1 := by
      rw [← e, ← round_one hF]
      exact round_mono F hv0.2
    induction r with
    | bot => simp at hr0
    | top => exact absurd hr1 (by decide)
    | coe r => exact ⟨r, rfl, by exact_mod_cast hr0, by exact_mod_cast hr1⟩

/-- A sum of numbers that are not negative, one of which is at least one, is at least one. -/
lemma one_le_nadd (hF : F.Close u η) {x y : Num} {r : EReal} (h : F.nadd x y = some r) (hx : ∀ v, x = some v → 0 ≤ v) (hy : ∀ v, y = some v → 1 ≤ v) : 1 ≤ r := by
  obtain ⟨v, hv, e⟩ := Option.map_eq_some_iff.1 h
  obtain ⟨a, b, rfl, rfl, _, rfl⟩ := exAdd_eq_real hv
  rw [← e, ← round_one hF]
  apply round_mono F
  calc (1 : EReal) ≤ b := hy b rfl
    _ = 0 + b := (zero_add b).symm
    _ ≤ a + b := add_le_add (hx a rfl) le_rfl

/-- `1 + x * x` is at least one. -/
lemma one_le_nmac (hF : F.Close u η) {x : Num} {r : EReal} (h : F.nmac (some 1) x x = some r) : 1 ≤ r := by
  have key : ∀ v, exMul x x = some v → 0 ≤ v := by
    intro v hv
    cases x with
    | none => simp at hv
    | some x =>
      simp only [exMul] at hv
      split_ifs at hv
      rw [← Option.some.inj hv]
      induction x with
      | bot => simp
      | top => simp
      | coe x => exact_mod_cast mul_self_nonneg x
  have h0 : F.round 0 = 0 := by
    have := round_real F 0
    rw [rnd_zero'] at this
    exact_mod_cast this
  have hc : ∀ y : Num, (∀ v, y = some v → 0 ≤ v) → F.nadd (some 1) y = some r → 1 ≤ r := by
    intro y hy h
    obtain ⟨v, hv, e⟩ := Option.map_eq_some_iff.1 h
    obtain ⟨a, b, ha, rfl, _, rfl⟩ := exAdd_eq_real hv
    rw [← e, ← round_one hF]
    apply round_mono F
    rw [← Option.some.inj ha]
    calc (1 : EReal) = 1 + 0 := (add_zero _).symm
      _ ≤ 1 + b := add_le_add le_rfl (hy b rfl)
  unfold Format.nmac at h
  split_ifs at h
  · exact hc _ key h
  · refine hc _ (fun v hv => ?_) h
    obtain ⟨w, hw, e⟩ := Option.map_eq_some_iff.1 hv
    rw [← e, ← h0]
    exact round_mono F (key w hw)

/-- The square root of a number that is at least one is at least one. -/
lemma one_le_nsqrt (hF : F.Close u η) {x : Num} {r : EReal} (h : F.nsqrt x = some r) (hx : ∀ v, x = some v → 1 ≤ v) : 1 ≤ r := by
  cases x with
  | none => cases h
  | some x =>
    simp only [Format.nsqrt] at h
    split_ifs at h
    rw [← Option.some.inj h]
    have h1 := hx x rfl
    unfold Format.sqrt
    split_ifs with ht
    · simp
    · induction x with
      | bot => exact absurd h1 (by decide)
      | top => simp at ht
      | coe x =>
        rw [EReal.toReal_coe]
        calc (1 : EReal) = F.rnd 1 := by rw [hF.one]; rfl
          _ ≤ F.rnd (Real.sqrt x) := F.mono (by rw [Real.one_le_sqrt]; exact_mod_cast h1)

/-- The tangent is NaN or a number between minus one and one. -/
lemma tan_cases (hF : F.Close u η) (bit : Num → Num → Num → Bool) (a b c : Num) : F.tan bit a b c = none ∨ ∃ t : ℝ, F.tan bit a b c = some (t : EReal) ∧ |t| ≤ 1 := by
  unfold Format.tan
  generalize F.tau a b c = tau
  cases e : F.ndiv (some 1) (F.nadd (nabs tau) (F.nsqrt (F.nmac (some 1) tau tau))) with
  | none => left; simp [ncopysign]
  | some r =>
    obtain ⟨t, rfl, h0, h1⟩ := inv_le_one hF e (fun v hv => one_le_nadd hF hv (fun w hw => nabs_nonneg hw)
      (fun w hw => one_le_nsqrt hF hw (fun z hz => one_le_nmac hF hz)))
    right
    unfold ncopysign
    rw [nabs_real, abs_of_nonneg h0]
    dsimp only
    split_ifs
    · exact ⟨-t, rfl, by rw [abs_neg, abs_of_nonneg h0]; exact h1⟩
    · exact ⟨t, rfl, by rw [abs_of_nonneg h0]; exact h1⟩

/-- `1 + t * t` for `t` at most one. -/
lemma nmac_one (hF : F.Close u η) {t : ℝ} (ht : |t| ≤ 1) :
    ∃ w : ℝ, F.nmac (some 1) (some (t : EReal)) (some (t : EReal)) = some (w : EReal) ∧ |w - (1 + t * t)| ≤ 3 * u * (1 + t * t) := by
  have hu0 := hF.u0
  have hu1 := hF.u1
  have hη := hF.η0
  have hη1 := hF.η1
  have ht0 : 0 ≤ t * t := mul_self_nonneg t
  have ht1 : t * t ≤ 1 := by
    have := mul_self_le_mul_self (abs_nonneg t) ht
    rwa [abs_mul_abs_self, one_mul] at this
  have h1 : (some (1 : EReal) : Num) = some ((1 : ℝ) : EReal) := rfl
  have huT := mul_nonneg hu0.le ht0
  by_cases hf : F.fma = true
  · rw [h1, nmac_real_fma F hf]
    obtain ⟨w, hw⟩ := hF.small (1 + t * t) (by rw [abs_of_nonneg (by linarith)]; linarith)
    refine ⟨w, by rw [hw], ?_⟩
    have := hF.err _ _ hw
    rw [abs_of_nonneg (by linarith : (0 : ℝ) ≤ 1 + t * t)] at this
    linarith
  · rw [h1, Format.nmac, if_neg hf, nmul_real]
    obtain ⟨q, hq⟩ := hF.small (t * t) (by rw [abs_of_nonneg ht0]; linarith)
    have e1 := hF.err _ _ hq
    rw [abs_of_nonneg ht0] at e1
    have e1' := abs_le.1 e1
    have huT1 : u * (t * t) ≤ u * 1 := mul_le_mul_of_nonneg_left ht1 hu0.le
    rw [hq, nadd_real]
    obtain ⟨w, hw⟩ := hF.small (1 + q) (by rw [abs_of_nonneg (by linarith)]; linarith)
    refine ⟨w, by rw [hw], ?_⟩
    have e2 := hF.err _ _ hw
    rw [abs_of_nonneg (by linarith : (0 : ℝ) ≤ 1 + q)] at e2
    have h4 : |w - (1 + t * t)| ≤ |w - (1 + q)| + |q - t * t| := by
      have : w - (1 + t * t) = (w - (1 + q)) + (q - t * t) := by ring
      rw [this]
      exact abs_add_le _ _
    have h5 : u * (1 + q) ≤ u * (1 + t * t + (u * (t * t) + η)) := mul_le_mul_of_nonneg_left (by linarith) hu0.le
    have h6 : u * (u * (t * t) + η) ≤ 1 / 1000 * (u * (t * t) + η) := mul_le_mul_of_nonneg_right hu1 (by linarith)
    linarith

/-- The square of the cosine. -/
lemma cos_square (hu0 : 0 < u) (hu1 : u ≤ 1 / 1000) {c t w : ℝ} (hwlo : (1 + t * t) * (1 - 3 * u) ≤ w)
    (hcw : c * c * w * ((1 - 2 * u) * (1 - 2 * u)) ≤ (1 + 2 * u) * (1 + 2 * u)) : c * c * (1 + t * t) ≤ 1 + 12 * u := by
  by_contra hcon
  push Not at hcon
  have h1 : c * c * (1 + t * t) * (1 - 3 * u) ≤ c * c * w := by
    have := mul_le_mul_of_nonneg_left hwlo (mul_self_nonneg c)
    linarith
  have h2 : c * c * (1 + t * t) * (1 - 3 * u) * ((1 - 2 * u) * (1 - 2 * u)) ≤ (1 + 2 * u) * (1 + 2 * u) :=
    (mul_le_mul_of_nonneg_right h1 (mul_self_nonneg _)).trans hcw
  have h3 : (1 + 12 * u) * ((1 - 3 * u) * ((1 - 2 * u) * (1 - 2 * u))) < c * c * (1 + t * t) * ((1 - 3 * u) * ((1 - 2 * u) * (1 - 2 * u))) :=
    mul_lt_mul_of_pos_right hcon (mul_pos (by linarith) (mul_pos (by linarith) (by linarith)))
  have h4 : (1 + 2 * u) * (1 + 2 * u) ≤ (1 + 12 * u) * ((1 - 3 * u) * ((1 - 2 * u) * (1 - 2 * u))) := by
    nlinarith [mul_pos hu0 hu0, mul_pos (mul_pos hu0 hu0) hu0, mul_nonneg (mul_pos hu0 hu0).le (by linarith : (0 : ℝ) ≤ 1 / 1000 - u),
      mul_nonneg hu0.le (by linarith : (0 : ℝ) ≤ 1 / 1000 - u)]
  linarith

/-- The square of the sine. -/
lemma sin_square (hu0 : 0 < u) (hu1 : u ≤ 1 / 1000) (hη : 0 ≤ η) (hη1 : η ≤ u / 10) {c t s : ℝ} (htc' : |t * c| ≤ 101 / 100)
    (hG : c * c * (1 + t * t) ≤ 1 + 12 * u) (es : |s - -(t * c)| ≤ u * |t * c| + η) : c * c + s * s ≤ 1 + 15 * u := by
  have hs0 : |s| ≤ |t * c| * (1 + u) + η := by
    have : |s| ≤ |s - -(t * c)| + |t * c| := by
      have e : s = (s - -(t * c)) + -(t * c) := by ring
      calc |s| = |(s - -(t * c)) + -(t * c)| := by rw [← e]
        _ ≤ |s - -(t * c)| + |-(t * c)| := abs_add_le _ _
        _ = _ := by rw [abs_neg]
    linarith
  have hss : s * s ≤ (|t * c| * (1 + u) + η) * (|t * c| * (1 + u) + η) := by
    rw [← abs_mul_abs_self s]
    exact mul_self_le_mul_self (abs_nonneg s) hs0
  have hsq : |t * c| * |t * c| = t * t * (c * c) := by rw [abs_mul_abs_self]; ring
  have h0 := abs_nonneg (t * c)
  have hcomb : c * c + t * t * (c * c) ≤ 1 + 12 * u := by linarith
  have hx : (|t * c| * (1 + u) + η) * (|t * c| * (1 + u) + η) ≤ t * t * (c * c) * (1 + u) ^ 2 + 3 * η := by
    have e : (|t * c| * (1 + u) + η) * (|t * c| * (1 + u) + η) = t * t * (c * c) * (1 + u) ^ 2 + η * (2 * (|t * c| * (1 + u)) + η) := by
      rw [← hsq]; ring
    have h1 : |t * c| * (1 + u) ≤ 101 / 100 * (1001 / 1000) := mul_le_mul htc' (by linarith) (by linarith) (by norm_num)
    have h2 : η * (2 * (|t * c| * (1 + u)) + η) ≤ η * 3 := mul_le_mul_of_nonneg_left (by linarith) hη
    linarith
  have hy : t * t * (c * c) * (1 + u) ^ 2 ≤ t * t * (c * c) + (1 + 12 * u) * (2 * u + u * u) := by
    have h1 : t * t * (c * c) ≤ 1 + 12 * u := by
      have := mul_self_nonneg c
      linarith
    have h2 : t * t * (c * c) * (2 * u + u * u) ≤ (1 + 12 * u) * (2 * u + u * u) := mul_le_mul_of_nonneg_right h1 (by positivity)
    linarith
  have hz : (1 + 12 * u) * (2 * u + u * u) ≤ 5 / 2 * u := by
    have h1 : (1 + 12 * u) * (2 + u) ≤ (1 + 12 * (1 / 1000)) * (2 + 1 / 1000) :=
      mul_le_mul (by linarith) (by linarith) (by linarith) (by norm_num)
    have h2 := mul_le_mul_of_nonneg_left h1 hu0.le
    linarith
  linarith

/-- Cosine and sine are finite, and the rotation lengthens vectors by little. -/
lemma cos_sin_bound (hF : F.Close u η) {t : ℝ} (ht : |t| ≤ 1) :
    ∃ c s : ℝ, F.cos (some (t : EReal)) = some (c : EReal) ∧ F.sin (some (t : EReal)) = some (s : EReal) ∧ c * c + s * s ≤ 1 + 15 * u := by
  have hu0 := hF.u0
  have hu1 := hF.u1
  have hη := hF.η0
  have hη1 := hF.η1
  have ht0 : 0 ≤ t * t := mul_self_nonneg t
  have ht1 : t * t ≤ 1 := by
    have := mul_self_le_mul_self (abs_nonneg t) ht
    rwa [abs_mul_abs_self, one_mul] at this
  obtain ⟨w, hw, ew⟩ := nmac_one hF ht
  have ew' := abs_le.1 ew
  have hu3 : 3 * u * (1 + t * t) ≤ 3 * u * 2 := mul_le_mul_of_nonneg_left (by linarith) (by linarith)
  have hwlo : (1 + t * t) * (1 - 3 * u) ≤ w := by linarith
  have hw1 : 99 / 100 ≤ w := by linarith
  have hw2 : w ≤ 21 / 10 := by linarith
  -- the root
  have hs1 : 99 / 100 ≤ Real.sqrt w := Real.le_sqrt_of_sq_le (by linarith)
  have hs2 : Real.sqrt w ≤ 15 / 10 := Real.sqrt_le_iff.2 ⟨by norm_num, by linarith⟩
  have hsw : Real.sqrt w * Real.sqrt w = w := Real.mul_self_sqrt (by linarith)
  obtain ⟨r, hr⟩ := hF.small (Real.sqrt w) (by rw [abs_of_nonneg (by linarith)]; linarith)
  have er := abs_le.1 (hF.err _ _ hr)
  rw [abs_of_nonneg (by linarith : 0 ≤ Real.sqrt w)] at er
  have husw : u * (99 / 100) ≤ u * Real.sqrt w := mul_le_mul_of_nonneg_left hs1 hu0.le
  have husw2 : u * Real.sqrt w ≤ 1 / 1000 * Real.sqrt w := mul_le_mul_of_nonneg_right hu1 (by linarith)
  have hr1 : Real.sqrt w * (1 - 2 * u) ≤ r := by nlinarith
  have hr2 : r ≤ 2 := by linarith
  have hr0 : 9 / 10 ≤ r := by linarith
  have hroot : F.nsqrt (some (w : EReal)) = some (r : EReal) := by
    simp only [Format.nsqrt]
    rw [if_neg (by simpa using (by linarith : (0 : ℝ) ≤ w)), Format.sqrt, if_neg (by simp), EReal.toReal_coe, hr]
  -- the cosine
  have hi1 : 1 / r ≤ 10 / 9 := by rw [div_le_iff₀ (by linarith)]; linarith
  have hi2 : 1 / 2 ≤ 1 / r := one_div_le_one_div_of_le (by linarith) hr2
  obtain ⟨c, hc⟩ := hF.small (1 / r) (by rw [abs_of_nonneg (by linarith)]; linarith)
  have ec := abs_le.1 (hF.err _ _ hc)
  rw [abs_of_nonneg (by linarith : 0 ≤ 1 / r)] at ec
  have hui : u * (1 / 2) ≤ u * (1 / r) := mul_le_mul_of_nonneg_left hi2 hu0.le
  have hui2 : u * (1 / r) ≤ 1 / 1000 * (1 / r) := mul_le_mul_of_nonneg_right hu1 (by linarith)
  have hc1 : c ≤ 1 / r * (1 + 2 * u) := by nlinarith
  have hc0 : 0 ≤ c := by linarith
  have hcos : F.cos (some (t : EReal)) = some (c : EReal) := by
    rw [Format.cos, hw, Format.nrsqrt, hroot, Format.ndiv]
    have hr0' : ((r : ℝ) : EReal) ≠ 0 := by
      have : r ≠ 0 := by linarith
      exact_mod_cast this
    simp only [exDiv]
    rw [if_neg hr0', if_neg (by rintro ⟨_, h | h⟩ <;> simp at h)]
    have e1 : (1 : EReal) / (r : EReal) = ((1 / r : ℝ) : EReal) := by rw [EReal.coe_div]; rfl
    rw [e1, Option.map_some, round_real, hc]
  have hcr : c * r ≤ 1 + 2 * u := by
    have := mul_le_mul_of_nonneg_right hc1 (by linarith : 0 ≤ r)
    have e : 1 / r * (1 + 2 * u) * r = 1 + 2 * u := by field_simp
    linarith
  have hcs : c * Real.sqrt w * (1 - 2 * u) ≤ 1 + 2 * u := by
    have := mul_le_mul_of_nonneg_left hr1 hc0
    linarith
  have hcw : c * c * w * ((1 - 2 * u) * (1 - 2 * u)) ≤ (1 + 2 * u) * (1 + 2 * u) := by
    have h0 : 0 ≤ c * Real.sqrt w * (1 - 2 * u) := mul_nonneg (mul_nonneg hc0 (by linarith)) (by linarith)
    have := mul_self_le_mul_self h0 hcs
    calc c * c * w * ((1 - 2 * u) * (1 - 2 * u)) = c * c * (Real.sqrt w * Real.sqrt w) * ((1 - 2 * u) * (1 - 2 * u)) := by rw [hsw]
      _ = c * Real.sqrt w * (1 - 2 * u) * (c * Real.sqrt w * (1 - 2 * u)) := by ring
      _ ≤ _ := this
  have hG : c * c * (1 + t * t) ≤ 1 + 12 * u := cos_square hu0 hu1 hwlo hcw
  -- the sine
  have hcc : c * c ≤ 1 + 12 * u := by
    have := mul_nonneg (mul_self_nonneg c) ht0
    linarith
  have htc : t * c * (t * c) ≤ 1 + 12 * u := by
    have : t * c * (t * c) = t * t * (c * c) := by ring
    have h2 : t * t * (c * c) ≤ 1 * (c * c) := mul_le_mul_of_nonneg_right ht1 (mul_self_nonneg c)
    linarith
  have htc' : |t * c| ≤ 101 / 100 := by
    by_contra hcon
    push Not at hcon
    have := mul_self_le_mul_self (by norm_num) hcon.le
    rw [abs_mul_abs_self] at this
    linarith
  obtain ⟨s, hs⟩ := hF.small (-t * c) (by rw [neg_mul, abs_neg]; linarith)
  have es := hF.err _ _ hs
  rw [neg_mul, abs_neg] at es
  have hsin : F.sin (some (t : EReal)) = some (s : EReal) := by rw [Format.sin, hcos, nneg_real, nmul_real, hs]
  refine ⟨c, s, hcos, hsin, ?_⟩
  exact sin_square hu0 hu1 hη hη1 htc' hG es

/-- The rotation of a pair of entries. -/
lemma pair_bound (hu0 : 0 < u) (hu1 : u ≤ 1 / 1000) (hη : 0 ≤ η) {c s a b r1 r2 : ℝ} (hcs : c * c + s * s ≤ 1 + 15 * u)
    (h1 : |r1 - (c * a + s * b)| ≤ 3 * u * (|c * a| + |s * b|) + 4 * η) (h2 : |r2 - (-s * a + c * b)| ≤ 3 * u * (|-s * a| + |c * b|) + 4 * η) :
    r1 * r1 + r2 * r2 ≤ (1 + 320 * u) * (a * a + b * b) + 128 * (η * η) / u := by
  have hc : |c| ≤ 2 := by
    by_contra hcon
    push Not at hcon
    have := mul_self_le_mul_self (by norm_num) hcon.le
    rw [abs_mul_abs_self] at this
    nlinarith [mul_self_nonneg s]
  have hs : |s| ≤ 2 := by
    by_contra hcon
    push Not at hcon
    have := mul_self_le_mul_self (by norm_num) hcon.le
    rw [abs_mul_abs_self] at this
    nlinarith [mul_self_nonneg c]
  have ha := abs_nonneg a
  have hb := abs_nonneg b
  have k : ∀ x y : ℝ, |x| ≤ 2 → |x * y| ≤ 2 * |y| := fun x y h => by rw [abs_mul]; exact mul_le_mul_of_nonneg_right h (abs_nonneg y)
  have hd : ∀ d : ℝ, |d| ≤ 3 * u * (2 * |a| + 2 * |b|) + 4 * η → d * d ≤ 144 * (u * u) * (a * a + b * b) + 32 * (η * η) := by
    intro d hd
    have h3 := mul_self_le_mul_self (abs_nonneg d) hd
    rw [abs_mul_abs_self] at h3
    have e1 := abs_mul_abs_self a
    have e2 := abs_mul_abs_self b
    have h4 : (3 * u * (2 * |a| + 2 * |b|) + 4 * η) * (3 * u * (2 * |a| + 2 * |b|) + 4 * η) ≤ 2 * (3 * u * (2 * |a| + 2 * |b|)) ^ 2 + 2 * (4 * η) ^ 2 := by
      nlinarith [sq_nonneg (3 * u * (2 * |a| + 2 * |b|) - 4 * η)]
    have h5 : (2 * |a| + 2 * |b|) ^ 2 ≤ 8 * (a * a + b * b) := by rw [← e1, ← e2]; nlinarith [sq_nonneg (|a| - |b|)]
    have h6 : 2 * (3 * u * (2 * |a| + 2 * |b|)) ^ 2 ≤ 144 * (u * u) * (a * a + b * b) := by
      have := mul_le_mul_of_nonneg_left h5 (by positivity : (0 : ℝ) ≤ 18 * (u * u))
      linarith
    linarith
  have h3u : 0 ≤ 3 * u := by linarith
  have d1 := hd (r1 - (c * a + s * b)) (h1.trans (add_le_add (mul_le_mul_of_nonneg_left (add_le_add (k c a hc) (k s b hs)) h3u) le_rfl))
  have d2 := hd (r2 - (-s * a + c * b)) (h2.trans (add_le_add (mul_le_mul_of_nonneg_left (add_le_add (k (-s) a (by rwa [abs_neg])) (k c b hc)) h3u) le_rfl))
  have split : ∀ x d : ℝ, (x + d) * (x + d) ≤ (1 + u) * (x * x) + (1 + 1 / u) * (d * d) := by
    intro x d
    have h : 0 ≤ (u * x - d) * (u * x - d) / u := div_nonneg (mul_self_nonneg _) hu0.le
    have e : (u * x - d) * (u * x - d) / u = u * (x * x) - 2 * x * d + 1 / u * (d * d) := by field_simp; ring
    linarith
  have s1 := split (c * a + s * b) (r1 - (c * a + s * b))
  have s2 := split (-s * a + c * b) (r2 - (-s * a + c * b))
  rw [show c * a + s * b + (r1 - (c * a + s * b)) = r1 by ring] at s1
  rw [show -s * a + c * b + (r2 - (-s * a + c * b)) = r2 by ring] at s2
  have hN : 0 ≤ a * a + b * b := add_nonneg (mul_self_nonneg a) (mul_self_nonneg b)
  have hsum : (c * a + s * b) * (c * a + s * b) + (-s * a + c * b) * (-s * a + c * b) ≤ (1 + 15 * u) * (a * a + b * b) := by
    have := mul_le_mul_of_nonneg_right hcs hN
    calc _ = (c * c + s * s) * (a * a + b * b) := by ring
      _ ≤ _ := this
  have h1u : 0 ≤ 1 + 1 / u := by positivity
  have m1 := mul_le_mul_of_nonneg_left (add_le_add d1 d2) h1u
  have m2 := mul_le_mul_of_nonneg_left hsum (by linarith : (0 : ℝ) ≤ 1 + u)
  have e1 : (1 + 1 / u) * (144 * (u * u) * (a * a + b * b) + 32 * (η * η) + (144 * (u * u) * (a * a + b * b) + 32 * (η * η)))
      = 288 * (u * u + u) * (a * a + b * b) + 64 * (η * η) + 64 * (η * η) / u := by field_simp; ring
  have e2 : 64 * (η * η) ≤ 64 * (η * η) / u := by
    rw [le_div_iff₀ hu0]
    have := mul_le_mul_of_nonneg_left hu1 (by positivity : (0 : ℝ) ≤ 64 * (η * η))
    have := mul_nonneg hη hη
    linarith
  have e3 : (1 + u) * ((1 + 15 * u) * (a * a + b * b)) + 288 * (u * u + u) * (a * a + b * b) ≤ (1 + 320 * u) * (a * a + b * b) := by
    have : (1 + u) * (1 + 15 * u) + 288 * (u * u + u) ≤ 1 + 320 * u := by
      have := mul_le_mul_of_nonneg_left hu1 hu0.le
      linarith
    have := mul_le_mul_of_nonneg_right this hN
    linarith
  have e4 : 128 * (η * η) / u = 64 * (η * η) / u + 64 * (η * η) / u := by ring
  linarith

/-- The rotation for an infinite entry: the tangent is NaN, or the diagonal entry was finite and no longer is. -/
lemma tan_infinite (hF : F.Close u η) (bit : Num → Num → Num → Bool) (a b c : Num) (hb : b = some ⊤ ∨ b = some ⊥) :
    F.tan bit a b c = none ∨ (Real a ∧ ¬ Real (F.nmac a (nneg (F.tan bit a b c)) b)) := by
  by_cases hr : ∃ d : ℝ, F.nsub c a = some (d : EReal)
  · obtain ⟨d, hd⟩ := hr
    have ha : Real a := by
      unfold Format.nsub at hd
      split at hd
      · rename_i x y
        split_ifs at hd with h1 h2 h3
        · exact absurd (Option.some.inj hd) (by simp)
        · exact absurd (Option.some.inj hd) (by simp)
        · push Not at h2 h3
          induction y with
          | bot => exact absurd rfl h2.2
          | top => exact absurd rfl h3.2
          | coe y => exact ⟨y, rfl⟩
      · cases hd
    have h2b : F.nmul (some 2) b = some ⊤ ∨ F.nmul (some 2) b = some ⊥ := by
      have e2 : (2 : EReal) = ((2 : ℝ) : EReal) := rfl
      have e0 : (2 : EReal) ≠ 0 := by rw [e2]; exact_mod_cast (two_ne_zero : (2 : ℝ) ≠ 0)
      have e3 : (2 : EReal) ≠ ⊤ := by rw [e2]; exact EReal.coe_ne_top _
      have e4 : (2 : EReal) ≠ ⊥ := by rw [e2]; exact EReal.coe_ne_bot _
      rcases hb with rfl | rfl
      · left
        simp only [Format.nmul, exMul]
        rw [if_neg (by simp [e0, e3, e4]), Option.map_some, e2, EReal.coe_mul_top_of_pos (by norm_num)]
        simp [Format.round]
      · right
        simp only [Format.nmul, exMul]
        rw [if_neg (by simp [e0, e3, e4]), Option.map_some, e2, EReal.coe_mul_bot_of_pos (by norm_num)]
        simp [Format.round]
    have htau : F.tau a b c = some 0 := by
      have h0 : F.round 0 = 0 := by
        have := round_real F 0
        rw [rnd_zero'] at this
        exact_mod_cast this
      unfold Format.tau
      rw [hd]
      rcases h2b with h | h <;> rw [h] <;> simp only [Format.ndiv, exDiv] <;> rw [if_neg (by simp), if_neg (by simp), Option.map_some] <;> simp [h0]
    right
    refine ⟨ha, ?_⟩
    have hone : F.ndiv (some 1) (F.nadd (nabs (some 0)) (F.nsqrt (F.nmac (some 1) (some 0) (some 0)))) = some 1 := by
      have z : (some (0 : EReal) : Num) = some ((0 : ℝ) : EReal) := rfl
      have o : (some (1 : EReal) : Num) = some ((1 : ℝ) : EReal) := rfl
      have e1 : F.nmac (some 1) (some 0) (some 0) = some ((1 : ℝ) : EReal) := by
        rw [z, o]
        by_cases hf : F.fma = true
        · rw [nmac_real_fma F hf, mul_zero, add_zero, hF.one]
        · rw [Format.nmac, if_neg hf, nmul_real, mul_zero, rnd_zero', nadd_real, add_zero, hF.one]
      have e2 : F.nsqrt (some ((1 : ℝ) : EReal)) = some ((1 : ℝ) : EReal) := by
        simp only [Format.nsqrt]
        rw [if_neg (by simp), Format.sqrt, if_neg (EReal.coe_ne_top 1), EReal.toReal_coe, Real.sqrt_one, hF.one]
      rw [e1, e2, z, nabs_real, abs_zero, nadd_real, zero_add, hF.one, o]
      simp only [Format.ndiv, exDiv]
      rw [if_neg (by simp), if_neg (by rintro ⟨h | h, _⟩ <;> simp only [EReal.coe_ne_top, EReal.coe_ne_bot] at h), Option.map_some]
      have e3 : ((1 : ℝ) : EReal) / ((1 : ℝ) : EReal) = ((1 : ℝ) : EReal) := by rw [← EReal.coe_div, div_one]
      rw [e3, round_real, hF.one]
    have ht : F.tan bit a b c = some ((1 : ℝ) : EReal) ∨ F.tan bit a b c = some ((-1 : ℝ) : EReal) := by
      unfold Format.tan
      rw [htau, hone]
      unfold ncopysign
      have : nabs (some (1 : EReal)) = some ((1 : ℝ) : EReal) := by
        have := nabs_real 1
        rwa [abs_one] at this
      rw [this]
      dsimp only
      split_ifs
      · right; rfl
      · left; rfl
    rintro ⟨r, hr⟩
    obtain ⟨v, hv⟩ := nmac_eq_real' hr
    have k : ∀ y : ℝ, y ≠ 0 → ∀ z : EReal, z = ⊤ ∨ z = ⊥ → exMul (some (y : EReal)) (some z) ≠ some ((v : ℝ) : EReal) := by
      intro y hy z hz he
      have hy' : (y : EReal) ≠ 0 := by exact_mod_cast hy
      simp only [exMul] at he
      rw [if_neg (by simp [hy', hz])] at he
      have he := Option.some.inj he
      rcases hz with rfl | rfl
      · rcases lt_or_gt_of_ne hy with h | h
        · rw [EReal.coe_mul_top_of_neg h] at he; simp at he
        · rw [EReal.coe_mul_top_of_pos h] at he; simp at he
      · rcases lt_or_gt_of_ne hy with h | h
        · rw [EReal.coe_mul_bot_of_neg h] at he; simp at he
        · rw [EReal.coe_mul_bot_of_pos h] at he; simp at he
    rcases ht with ht | ht <;> rw [ht, nneg_real] at hv <;> rcases hb with rfl | rfl
    · exact k _ (by norm_num) _ (Or.inl rfl) hv
    · exact k _ (by norm_num) _ (Or.inr rfl) hv
    · exact k _ (by norm_num) _ (Or.inl rfl) hv
    · exact k _ (by norm_num) _ (Or.inr rfl) hv
  · left
    have htau : F.tau a b c = none := by
      have h2b : F.nmul (some 2) b = some ⊤ ∨ F.nmul (some 2) b = some ⊥ := by
        have e2 : (2 : EReal) = ((2 : ℝ) : EReal) := rfl
        have e0 : (2 : EReal) ≠ 0 := by rw [e2]; exact_mod_cast (two_ne_zero : (2 : ℝ) ≠ 0)
        have e3 : (2 : EReal) ≠ ⊤ := by rw [e2]; exact EReal.coe_ne_top _
        have e4 : (2 : EReal) ≠ ⊥ := by rw [e2]; exact EReal.coe_ne_bot _
        rcases hb with rfl | rfl
        · left
          simp only [Format.nmul, exMul]
          rw [if_neg (by simp [e0, e3, e4]), Option.map_some, e2, EReal.coe_mul_top_of_pos (by norm_num)]
          simp [Format.round]
        · right
          simp only [Format.nmul, exMul]
          rw [if_neg (by simp [e0, e3, e4]), Option.map_some, e2, EReal.coe_mul_bot_of_pos (by norm_num)]
          simp [Format.round]
      unfold Format.tau
      cases e : F.nsub c a with
      | none => simp [Format.ndiv]
      | some d =>
        have hd : d = ⊤ ∨ d = ⊥ := by
          induction d with
          | bot => exact Or.inr rfl
          | top => exact Or.inl rfl
          | coe d => exact absurd ⟨d, e⟩ hr
        rcases h2b with h | h <;> rw [h] <;> simp only [Format.ndiv, exDiv] <;> rw [if_neg (by simp), if_pos ⟨hd, by simp⟩] <;> rfl
    unfold Format.tan
    rw [htau]
    simp [Format.ndiv, ncopysign]

/-- Without tangent there is no rotation. -/
lemma cos_sin_none (F : Format) : F.cos none = none ∧ F.sin none = none := by
  have h : F.cos none = none := by
    unfold Format.cos Format.nrsqrt
    rw [nmac_none_mid]
    simp [Format.nsqrt, Format.ndiv]
  exact ⟨h, by rw [Format.sin, h, nmul_none_right]⟩

end ArborX.Fp
