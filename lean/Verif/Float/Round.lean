import Verif.BruteForce.Spatial

/-!
# Floating-point rounding

Round to nearest, ties to even, to `p` significant bits (`p = 24` for `float`, `p = 53` for
`double`), on non-negative numbers, without overflow and without subnormal numbers.
-/

namespace ArborX.Float

open BruteForce (roundEven roundEven_int roundEven_err f32)

/-- Nearest number with `p` significant bits to a non-negative rational. -/
def flr (p : ℕ) (x : ℚ) : ℚ :=
  if x ≤ 0 then 0
  else
    let u : ℚ := 2 ^ (Int.log 2 x - ((p : ℤ) - 1))
    roundEven (x / u) * u

/-- Single precision is `p = 24`. -/
lemma f32_eq (x : ℚ) : f32 x = flr 24 x := by
  unfold f32 flr
  norm_num

lemma roundEven_mono {x y : ℚ} (h : x ≤ y) : roundEven x ≤ roundEven y := by
  have hlo : ∀ z : ℚ, ⌊z⌋ ≤ roundEven z ∧ roundEven z ≤ ⌊z⌋ + 1 := by
    intro z
    unfold roundEven
    dsimp only
    split_ifs <;> omega
  rcases lt_or_eq_of_le (Int.floor_mono h) with hf | hf
  · have := hlo x
    have := hlo y
    omega
  · unfold roundEven
    dsimp only
    rw [hf]
    have h' : x - (⌊y⌋ : ℚ) ≤ y - ⌊y⌋ := by linarith
    split_ifs <;> first | omega | (exfalso; linarith)

lemma zpow_log_le {x : ℚ} (hx : 0 < x) : (2 : ℚ) ^ Int.log 2 x ≤ x := by
  have := Int.zpow_log_le_self (b := 2) (r := x) one_lt_two hx
  exact_mod_cast this

lemma lt_zpow_log {x : ℚ} : x < (2 : ℚ) ^ (Int.log 2 x + 1) := by
  have := Int.lt_zpow_succ_log_self (b := 2) one_lt_two x
  exact_mod_cast this

lemma flr_pos_bounds {p : ℕ} (hp : 1 ≤ p) {x : ℚ} (hx : 0 < x) :
    (2 : ℚ) ^ Int.log 2 x ≤ flr p x ∧ flr p x ≤ 2 ^ (Int.log 2 x + 1) := by
  have h2 : (2 : ℚ) ≠ 0 := by norm_num
  unfold flr
  rw [if_neg (not_le.mpr hx)]
  dsimp only
  set E := Int.log 2 x
  have hu : (0 : ℚ) < 2 ^ (E - ((p : ℤ) - 1)) := by positivity
  have e1 : (2 : ℚ) ^ E = ((2 ^ (p - 1) : ℤ) : ℚ) * 2 ^ (E - ((p : ℤ) - 1)) := by
    rw [Int.cast_pow, Int.cast_ofNat, ← zpow_natCast (2 : ℚ) (p - 1), ← zpow_add₀ h2]
    congr 1; omega
  have e2 : (2 : ℚ) ^ (E + 1) = ((2 ^ p : ℤ) : ℚ) * 2 ^ (E - ((p : ℤ) - 1)) := by
    rw [Int.cast_pow, Int.cast_ofNat, ← zpow_natCast (2 : ℚ) p, ← zpow_add₀ h2]
    congr 1; omega
  constructor
  · rw [e1]
    refine mul_le_mul_of_nonneg_right ?_ hu.le
    have : ((2 ^ (p - 1) : ℤ) : ℚ) ≤ x / 2 ^ (E - ((p : ℤ) - 1)) := by
      rw [le_div_iff₀ hu, ← e1]
      exact zpow_log_le hx
    have := roundEven_mono this
    rw [roundEven_int] at this
    exact_mod_cast this
  · rw [e2]
    refine mul_le_mul_of_nonneg_right ?_ hu.le
    have : x / 2 ^ (E - ((p : ℤ) - 1)) ≤ ((2 ^ p : ℤ) : ℚ) := by
      rw [div_le_iff₀ hu, ← e2]
      exact lt_zpow_log.le
    have := roundEven_mono this
    rw [roundEven_int] at this
    exact_mod_cast this

lemma flr_nonneg {p : ℕ} (hp : 1 ≤ p) (x : ℚ) : 0 ≤ flr p x := by
  by_cases hx : 0 < x
  · exact le_trans (by positivity) (flr_pos_bounds hp hx).1
  · unfold flr; rw [if_pos (not_lt.mp hx)]

/-- Rounding is monotone. -/
lemma flr_mono {p : ℕ} (hp : 1 ≤ p) {x y : ℚ} (h : x ≤ y) : flr p x ≤ flr p y := by
  by_cases hx : 0 < x
  swap
  · have : flr p x = 0 := by unfold flr; rw [if_pos (not_lt.mp hx)]
    rw [this]; exact flr_nonneg hp y
  have hy : 0 < y := lt_of_lt_of_le hx h
  rcases lt_or_eq_of_le (Int.log_mono_right (b := 2) hx h) with hl | hl
  · refine (flr_pos_bounds hp hx).2.trans (le_trans ?_ (flr_pos_bounds hp hy).1)
    exact zpow_le_zpow_right₀ (by norm_num) (by omega)
  · unfold flr
    rw [if_neg (not_le.mpr hx), if_neg (not_le.mpr hy)]
    dsimp only
    rw [hl]
    have hu : (0 : ℚ) < 2 ^ (Int.log 2 y - ((p : ℤ) - 1)) := by positivity
    refine mul_le_mul_of_nonneg_right ?_ hu.le
    exact_mod_cast roundEven_mono (div_le_div_of_nonneg_right h hu.le)

/-- A multiple of the unit in the last place is kept. -/
lemma flr_of_mul {p : ℕ} {x : ℚ} (hx : 0 < x) (z : ℤ)
    (h : x = z * 2 ^ (Int.log 2 x - ((p : ℤ) - 1))) : flr p x = x := by
  unfold flr
  rw [if_neg (not_le.mpr hx)]
  dsimp only
  have hu : (2 : ℚ) ^ (Int.log 2 x - ((p : ℤ) - 1)) ≠ 0 := by positivity
  have : x / 2 ^ (Int.log 2 x - ((p : ℤ) - 1)) = z := by
    rw [div_eq_iff hu]; exact h
  rw [this, roundEven_int]
  exact h.symm

/-- Integers below `2 ^ p` are kept. -/
lemma flr_nat {p n : ℕ} (hn : n < 2 ^ p) : flr p n = n := by
  rcases Nat.eq_zero_or_pos n with h | h
  · subst h; simp [flr]
  · have hx : (0 : ℚ) < n := by exact_mod_cast h
    have hl : Int.log 2 (n : ℚ) = Nat.log 2 n := Int.log_natCast 2 n
    have hlt : Nat.log 2 n < p := Nat.log_lt_of_lt_pow (by omega) hn
    refine flr_of_mul hx (n * 2 ^ (p - 1 - Nat.log 2 n)) ?_
    have h2 : (2 : ℚ) ≠ 0 := by norm_num
    rw [hl]
    push_cast
    rw [mul_assoc, ← zpow_natCast (2 : ℚ), ← zpow_add₀ h2]
    have : ((p - 1 - Nat.log 2 n : ℕ) : ℤ) + ((Nat.log 2 n : ℤ) - ((p : ℤ) - 1)) = 0 := by omega
    rw [this]; simp

/-- The integer just below a large power of two is rounded up to it. -/
lemma flr_pred_pow {p b : ℕ} (hp : 1 ≤ p) (hpb : p < b) : flr p ((2 ^ b - 1 : ℕ) : ℚ) = ((2 ^ b : ℕ) : ℚ) := by
  have hb : 2 ≤ 2 ^ b := by
    calc 2 = 2 ^ 1 := rfl
      _ ≤ 2 ^ b := Nat.pow_le_pow_right (by norm_num) (by omega)
  have hpos : 0 < 2 ^ b - 1 := by omega
  have hx : (0 : ℚ) < ((2 ^ b - 1 : ℕ) : ℚ) := by exact_mod_cast hpos
  have hlog : Nat.log 2 (2 ^ b - 1) = b - 1 := by
    rw [Nat.log_eq_iff (by omega)]
    obtain ⟨c, rfl⟩ : ∃ c, b = c + 1 := ⟨b - 1, by omega⟩
    have : 1 ≤ 2 ^ c := Nat.one_le_two_pow
    rw [Nat.pow_succ] at *
    simp only [Nat.add_sub_cancel]
    constructor
    · omega
    · rw [Nat.pow_succ]; omega
  have hl : Int.log 2 (((2 ^ b - 1 : ℕ)) : ℚ) = (b : ℤ) - 1 := by
    rw [Int.log_natCast, hlog]; omega
  unfold flr
  rw [if_neg (not_le.mpr hx)]
  dsimp only
  rw [hl]
  have h2 : (2 : ℚ) ≠ 0 := by norm_num
  have hu : (0 : ℚ) < 2 ^ ((b : ℤ) - 1 - ((p : ℤ) - 1)) := by positivity
  have e : ((2 ^ b : ℕ) : ℚ) = ((2 ^ p : ℤ) : ℚ) * 2 ^ ((b : ℤ) - 1 - ((p : ℤ) - 1)) := by
    push_cast
    rw [← zpow_natCast (2 : ℚ) b, ← zpow_natCast (2 : ℚ) p, ← zpow_add₀ h2]
    congr 1; omega
  have hu2 : (2 : ℚ) ≤ 2 ^ ((b : ℤ) - 1 - ((p : ℤ) - 1)) := by
    calc (2 : ℚ) = 2 ^ (1 : ℤ) := by norm_num
      _ ≤ _ := zpow_le_zpow_right₀ (by norm_num) (by omega)
  set u : ℚ := 2 ^ ((b : ℤ) - 1 - ((p : ℤ) - 1)) with hud
  have hq : ((2 ^ b - 1 : ℕ) : ℚ) / u = ((2 ^ p : ℤ) : ℚ) - 1 / u := by
    rw [Nat.cast_sub (by omega), e]
    field_simp
    push_cast
    ring
  have h1u : 1 / u ≤ 1 / 2 := one_div_le_one_div_of_le (by norm_num) hu2
  have h1u' : 0 < 1 / u := by positivity
  have hfl : ⌊((2 ^ p : ℤ) : ℚ) - 1 / u⌋ = 2 ^ p - 1 := by
    rw [Int.floor_eq_iff]
    constructor
    · push_cast; linarith
    · push_cast; linarith
  have hodd : ((2 : ℤ) ^ p - 1) % 2 ≠ 0 := by
    obtain ⟨c, rfl⟩ : ∃ c, p = c + 1 := ⟨p - 1, by omega⟩
    rw [pow_succ]; omega
  have hr : roundEven (((2 ^ b - 1 : ℕ) : ℚ) / u) = 2 ^ p := by
    rw [hq]
    unfold roundEven
    dsimp only
    rw [hfl]
    rw [if_neg (by push_cast; linarith)]
    split_ifs <;> first | omega | (exfalso; exact hodd ‹_›)
  rw [hr, e]

end ArborX.Float
