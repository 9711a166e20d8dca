import Verif.Fp.Model
import Mathlib.Data.Int.Log
import Mathlib.Algebra.Order.Floor.Ring
import Mathlib.Analysis.Real.Sqrt
import Mathlib.Tactic.Linarith
import Mathlib.Tactic.Positivity
import Mathlib.Tactic.NormNum

/-!
# The formats of IEEE 754

Round to nearest, ties to even, with subnormal numbers and overflow, on real numbers; and its relative error.
-/

namespace ArborX.Fp.Ieee

/-- Nearest integer, ties to even. -/
noncomputable def roundEven (x : ℝ) : ℤ :=
  if x - ⌊x⌋ < 1 / 2 then ⌊x⌋ else if 1 / 2 < x - ⌊x⌋ then ⌊x⌋ + 1 else if ⌊x⌋ % 2 = 0 then ⌊x⌋ else ⌊x⌋ + 1

/-- Exponent of the unit in the last place of a positive number: `p` significant bits, but not below the smallest subnormal number `2 ^ emin`. -/
noncomputable def ulpExp (p : ℕ) (emin : ℤ) (x : ℝ) : ℤ := max (Int.log 2 x - ((p : ℤ) - 1)) emin

/-- The nearest number of the type to a number that is not negative, were there no largest one. -/
noncomputable def near (p : ℕ) (emin : ℤ) (x : ℝ) : ℝ := roundEven (x / 2 ^ ulpExp p emin x) * 2 ^ ulpExp p emin x

/-- The nearest number of the type to a number that is not negative; infinity from `2 ^ emax` on. -/
noncomputable def pos (p : ℕ) (emin emax : ℤ) (x : ℝ) : EReal := if near p emin x < 2 ^ emax then (near p emin x : EReal) else ⊤

/-- Rounding. -/
noncomputable def rnd (p : ℕ) (emin emax : ℤ) (x : ℝ) : EReal := if 0 ≤ x then pos p emin emax x else -pos p emin emax (-x)

/-! ## Rounding to integers -/

lemma roundEven_int (z : ℤ) : roundEven z = z := by simp [roundEven]

lemma roundEven_err (x : ℝ) : |(roundEven x : ℝ) - x| ≤ 1 / 2 := by
  have h1 := Int.floor_le x
  have h2 := Int.lt_floor_add_one x
  unfold roundEven
  split_ifs <;> rw [abs_le] <;> push_cast <;> constructor <;> linarith

lemma roundEven_mono {x y : ℝ} (h : x ≤ y) : roundEven x ≤ roundEven y := by
  have hlo : ∀ z : ℝ, ⌊z⌋ ≤ roundEven z ∧ roundEven z ≤ ⌊z⌋ + 1 := by
    intro z
    unfold roundEven
    split_ifs <;> omega
  rcases lt_or_eq_of_le (Int.floor_mono h) with hf | hf
  · have := hlo x
    have := hlo y
    omega
  · unfold roundEven
    rw [hf]
    have h' : x - (⌊y⌋ : ℝ) ≤ y - ⌊y⌋ := by linarith
    split_ifs <;> first | omega | (exfalso; linarith)

/-! ## Rounding to numbers of the type -/

variable {p : ℕ} {emin emax : ℤ}

lemma ulp_pos (e : ℤ) : (0 : ℝ) < 2 ^ e := by positivity

lemma zpow_split {a b : ℤ} (h : b ≤ a) : (2 : ℝ) ^ a = ((2 ^ (a - b).toNat : ℤ) : ℝ) * 2 ^ b := by
  rw [Int.cast_pow, Int.cast_ofNat, ← zpow_natCast, ← zpow_add₀ (by norm_num)]
  congr 1; omega

lemma log_le {x : ℝ} (hx : 0 < x) : (2 : ℝ) ^ Int.log 2 x ≤ x := by
  have := Int.zpow_log_le_self (b := 2) (r := x) one_lt_two hx
  exact_mod_cast this

lemma lt_log {x : ℝ} : x < (2 : ℝ) ^ (Int.log 2 x + 1) := by
  have := Int.lt_zpow_succ_log_self (b := 2) one_lt_two x
  exact_mod_cast this

/-- Multiples of the unit are kept. -/
lemma near_of_mul {x : ℝ} (z : ℤ) (h : x = z * 2 ^ ulpExp p emin x) : near p emin x = x := by
  unfold near
  have : x / 2 ^ ulpExp p emin x = z := by
    rw [div_eq_iff (ulp_pos _).ne']; exact h
  rw [this, roundEven_int]
  exact h.symm

/-- Rounding does not cross a power of two that is a multiple of the unit, from below ... -/
lemma near_le_pow {x : ℝ} {a : ℤ} (ha : ulpExp p emin x ≤ a) (h : x ≤ 2 ^ a) : near p emin x ≤ 2 ^ a := by
  unfold near
  rw [zpow_split ha]
  refine mul_le_mul_of_nonneg_right ?_ (ulp_pos _).le
  have : x / 2 ^ ulpExp p emin x ≤ ((2 ^ (a - ulpExp p emin x).toNat : ℤ) : ℝ) := by
    rw [div_le_iff₀ (ulp_pos _), ← zpow_split ha]; exact h
  have := roundEven_mono this
  rw [roundEven_int] at this
  exact_mod_cast this

/-- ... nor from above. -/
lemma pow_le_near {x : ℝ} {a : ℤ} (ha : ulpExp p emin x ≤ a) (h : 2 ^ a ≤ x) : 2 ^ a ≤ near p emin x := by
  unfold near
  rw [zpow_split ha]
  refine mul_le_mul_of_nonneg_right ?_ (ulp_pos _).le
  have : ((2 ^ (a - ulpExp p emin x).toNat : ℤ) : ℝ) ≤ x / 2 ^ ulpExp p emin x := by
    rw [le_div_iff₀ (ulp_pos _), ← zpow_split ha]; exact h
  have := roundEven_mono this
  rw [roundEven_int] at this
  exact_mod_cast this

lemma near_zero : near p emin 0 = 0 := near_of_mul 0 (by simp)

lemma near_nonneg {x : ℝ} (hx : 0 ≤ x) : 0 ≤ near p emin x := by
  unfold near
  refine mul_nonneg ?_ (ulp_pos _).le
  have := roundEven_mono (show ((0 : ℤ) : ℝ) ≤ x / 2 ^ ulpExp p emin x by
    rw [Int.cast_zero]; exact div_nonneg hx (ulp_pos _).le)
  rw [roundEven_int] at this
  exact_mod_cast this

lemma near_mono (hp : 1 ≤ p) {x y : ℝ} (hx : 0 ≤ x) (h : x ≤ y) : near p emin x ≤ near p emin y := by
  rcases hx.eq_or_lt with rfl | hx
  · rw [near_zero]; exact near_nonneg h
  have hy : 0 < y := lt_of_lt_of_le hx h
  have hl := Int.log_mono_right (b := 2) hx h
  rcases lt_or_eq_of_le (show ulpExp p emin x ≤ ulpExp p emin y by unfold ulpExp; omega) with hu | hu
  · have h1 : ulpExp p emin y = Int.log 2 y - ((p : ℤ) - 1) := by unfold ulpExp at hu ⊢; omega
    have h2 : Int.log 2 x < Int.log 2 y := by unfold ulpExp at hu h1; omega
    refine (near_le_pow (a := Int.log 2 y) (by omega) ?_).trans (pow_le_near (by omega) (log_le hy))
    exact lt_log.le.trans (zpow_le_zpow_right₀ (by norm_num) (by omega))
  · unfold near
    rw [hu]
    refine mul_le_mul_of_nonneg_right ?_ (ulp_pos _).le
    exact_mod_cast roundEven_mono (div_le_div_of_nonneg_right h (ulp_pos _).le)

lemma near_idem (hp : 1 ≤ p) {x : ℝ} (hx : 0 ≤ x) : near p emin (near p emin x) = near p emin x := by
  rcases hx.eq_or_lt with rfl | hx
  · rw [near_zero, near_zero]
  rcases (near_nonneg (p := p) (emin := emin) hx.le).eq_or_lt with h0 | h0
  · rw [← h0, near_zero]
  set r := near p emin x with hr
  rcases le_or_gt (ulpExp p emin r) (ulpExp p emin x) with hu | hu
  · refine near_of_mul (roundEven (x / 2 ^ ulpExp p emin x) * 2 ^ (ulpExp p emin x - ulpExp p emin r).toNat) ?_
    rw [Int.cast_mul, mul_assoc, ← zpow_split hu]
    rfl
  · have h1 : ulpExp p emin r = Int.log 2 r - ((p : ℤ) - 1) := by unfold ulpExp at hu ⊢; omega
    have h2 : Int.log 2 x < Int.log 2 r := by unfold ulpExp at hu h1; omega
    have h3 : r ≤ 2 ^ Int.log 2 r := near_le_pow (by omega)
      (lt_log.le.trans (zpow_le_zpow_right₀ (by norm_num) (by omega)))
    have h4 : r = 2 ^ Int.log 2 r := le_antisymm h3 (log_le h0)
    refine near_of_mul (2 ^ (Int.log 2 r - ulpExp p emin r).toNat) ?_
    rw [← zpow_split (by omega)]
    exact h4

lemma pos_mono (hp : 1 ≤ p) {x y : ℝ} (hx : 0 ≤ x) (h : x ≤ y) : pos p emin emax x ≤ pos p emin emax y := by
  have := near_mono (emin := emin) hp hx h
  unfold pos
  by_cases hy : near p emin y < 2 ^ emax
  · rw [if_pos hy, if_pos (this.trans_lt hy)]
    exact EReal.coe_le_coe_iff.mpr this
  · rw [if_neg hy]; exact le_top

lemma pos_nonneg {x : ℝ} (hx : 0 ≤ x) : 0 ≤ pos p emin emax x := by
  unfold pos
  split_ifs
  · exact EReal.coe_nonneg.mpr (near_nonneg hx)
  · exact le_top

lemma pos_zero : pos p emin emax 0 = 0 := by
  unfold pos
  rw [near_zero, if_pos (ulp_pos _)]; rfl

lemma pos_idem (hp : 1 ≤ p) {x y : ℝ} (hx : 0 ≤ x) (h : pos p emin emax x = y) : 0 ≤ y ∧ pos p emin emax y = y := by
  unfold pos at h
  split_ifs at h with h1
  · have : near p emin x = y := EReal.coe_eq_coe_iff.mp h
    rw [← this]
    refine ⟨near_nonneg hx, ?_⟩
    unfold pos
    rw [near_idem hp hx, if_pos h1]
  · exact absurd h.symm (EReal.coe_ne_top y)

lemma rnd_mono (hp : 1 ≤ p) : Monotone (rnd p emin emax) := by
  intro x y h
  unfold rnd
  by_cases hx : 0 ≤ x
  · rw [if_pos hx, if_pos (hx.trans h)]
    exact pos_mono hp hx h
  · rw [if_neg hx]
    by_cases hy : 0 ≤ y
    · rw [if_pos hy]
      refine le_trans ?_ (pos_nonneg hy)
      rw [EReal.neg_le, neg_zero]
      exact pos_nonneg (by linarith)
    · rw [if_neg hy, EReal.neg_le_neg_iff]
      exact pos_mono hp (by linarith) (by linarith)

lemma rnd_neg (x : ℝ) : rnd p emin emax (-x) = -rnd p emin emax x := by
  unfold rnd
  rcases lt_trichotomy x 0 with h | h | h
  · rw [if_pos (by linarith), if_neg (not_le.mpr h), neg_neg]
  · subst h; simp [pos_zero]
  · rw [if_neg (by linarith), if_pos h.le, neg_neg]

lemma rnd_idem (hp : 1 ≤ p) (x y : ℝ) (h : rnd p emin emax x = y) : rnd p emin emax y = y := by
  unfold rnd at h
  split_ifs at h with hx
  · obtain ⟨h1, h2⟩ := pos_idem hp hx h
    unfold rnd
    rw [if_pos h1, h2]
  · have h' : pos p emin emax (-x) = ((-y : ℝ) : EReal) := by
      rw [EReal.coe_neg, ← h, neg_neg]
    obtain ⟨h1, h2⟩ := pos_idem hp (by linarith) h'
    have : rnd p emin emax (-y) = ((-y : ℝ) : EReal) := by
      unfold rnd; rw [if_pos h1, h2]
    have e := rnd_neg (p := p) (emin := emin) (emax := emax) (-y)
    rw [neg_neg, this, EReal.coe_neg, neg_neg] at e
    exact e

/-- Round to nearest even with `p ≥ 1` significant bits. -/
noncomputable def format (p : ℕ) (hp : 1 ≤ p) (emin emax : ℤ) (fma : Bool) : Format where
  rnd := rnd p emin emax
  mono := rnd_mono hp
  neg := rnd_neg
  idem := rnd_idem hp
  fma := fma

/-- `float`. -/
noncomputable def float (fma : Bool) : Format := format 24 (by norm_num) (-149) 128 fma

/-- `double`. -/
noncomputable def double (fma : Bool) : Format := format 53 (by norm_num) (-1074) 1024 fma

/-! ## Relative error -/

lemma near_err (hp : 1 ≤ p) {x : ℝ} (hx : 2 ^ (emin + ((p : ℤ) - 1)) ≤ x) : |near p emin x - x| ≤ 2 ^ (-(p : ℤ)) * x := by
  have h0 : 0 < x := lt_of_lt_of_le (ulp_pos _) hx
  have hlog : emin + ((p : ℤ) - 1) ≤ Int.log 2 x := by
    rw [← Int.zpow_le_iff_le_log (b := 2) (by norm_num) h0]
    exact_mod_cast hx
  have hu : ulpExp p emin x = Int.log 2 x - ((p : ℤ) - 1) := by unfold ulpExp; omega
  have e : near p emin x - x = (roundEven (x / 2 ^ ulpExp p emin x) - x / 2 ^ ulpExp p emin x) * 2 ^ ulpExp p emin x := by
    unfold near
    rw [sub_mul, div_mul_cancel₀ _ (ulp_pos _).ne']
  rw [e, abs_mul, abs_of_pos (ulp_pos _)]
  calc _ ≤ 1 / 2 * (2 : ℝ) ^ ulpExp p emin x := mul_le_mul_of_nonneg_right (roundEven_err _) (ulp_pos _).le
    _ = 2 ^ (-(p : ℤ)) * 2 ^ Int.log 2 x := by
      rw [hu, ← zpow_add₀ (by norm_num), show -(p : ℤ) + Int.log 2 x = (-1) + (Int.log 2 x - ((p : ℤ) - 1)) by ring, zpow_add₀ (by norm_num)]
      norm_num
    _ ≤ _ := mul_le_mul_of_nonneg_left (log_le h0) (ulp_pos _).le

lemma near_pow (hp : 1 ≤ p) {a : ℤ} (ha : emin ≤ a) : near p emin (2 ^ a) = 2 ^ a := by
  have hl : Int.log 2 ((2 : ℝ) ^ a) = a := by
    have := Int.log_zpow (R := ℝ) (b := 2) one_lt_two a
    exact_mod_cast this
  refine near_of_mul (2 ^ (a - ulpExp p emin (2 ^ a)).toNat) (zpow_split ?_)
  unfold ulpExp
  rw [hl]; omega

/-- Results between the smallest normal number and half the overflow threshold have the relative error `2 ^ -p`. -/
lemma rnd_err (hp : 1 ≤ p) (hr : emin < emax) {x : ℝ} (h1 : 2 ^ (emin + ((p : ℤ) - 1)) ≤ |x|) (h2 : |x| ≤ 2 ^ (emax - 1)) :
    ∃ y : ℝ, rnd p emin emax x = y ∧ |y - x| ≤ 2 ^ (-(p : ℤ)) * |x| := by
  have key : ∀ x : ℝ, 0 ≤ x → 2 ^ (emin + ((p : ℤ) - 1)) ≤ x → x ≤ 2 ^ (emax - 1) →
      pos p emin emax x = (near p emin x : EReal) ∧ |near p emin x - x| ≤ 2 ^ (-(p : ℤ)) * x := by
    intro x h0 h1 h2
    refine ⟨?_, near_err hp h1⟩
    unfold pos
    rw [if_pos]
    refine lt_of_le_of_lt (near_mono hp h0 h2) ?_
    rw [near_pow hp (by omega)]
    exact zpow_lt_zpow_right₀ (by norm_num) (by omega)
  by_cases hx : 0 ≤ x
  · rw [abs_of_nonneg hx] at h1 h2 ⊢
    obtain ⟨e, h⟩ := key x hx h1 h2
    exact ⟨_, by unfold rnd; rw [if_pos hx, e], h⟩
  · have hx' : 0 ≤ -x := by linarith
    rw [abs_of_neg (by linarith)] at h1 h2 ⊢
    obtain ⟨e, h⟩ := key (-x) hx' h1 h2
    refine ⟨-near p emin (-x), by unfold rnd; rw [if_neg hx, e, EReal.coe_neg], ?_⟩
    rw [← abs_neg]
    convert h using 2
    ring

end ArborX.Fp.Ieee
