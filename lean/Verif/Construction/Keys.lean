import Verif.Construction.Theorems

/-!
# Split keys computed from the sorted codes

Models `delta` at the bit level (`src/spatial/detail/ArborX_TreeConstruction.hpp`
lines 130-170) for `unsigned int` (`w = 32`) and `unsigned long long` (`w = 64`)
codes, and proves that the keys are valid when the codes do not use the top bit.
-/

namespace ArborX.Construction

/-- `min_value` (lines 145-146) as a bit pattern. -/
def minPattern (w : ℕ) : BitVec w := BitVec.ofNat w (2 ^ (w - 1))

/-- `max_value` (lines 143-144). -/
def maxValue (w : ℕ) : ℤ := 2 ^ (w - 1) - 1

/-- Lines 163-165: `x + (!x) * (min_value + (i ^ (i + 1))) - 1` in unsigned
`w`-bit arithmetic, converted to the signed type of the return value. -/
def deltaBits {w : ℕ} (code : ℕ → BitVec w) (i : ℕ) : ℤ :=
  let x := code i ^^^ code (i + 1)
  (x + (if x = 0#w then minPattern w + BitVec.ofNat w (i ^^^ (i + 1)) else 0#w) - 1#w).toInt

/-- Codes in non-decreasing order. -/
def SortedCodes {w : ℕ} (n : ℕ) (code : ℕ → BitVec w) : Prop :=
  ∀ i, i + 1 < n → (code i).toNat ≤ (code (i + 1)).toNat

/-- The top bit of the codes is not used. -/
def TopBitUnused {w : ℕ} (n : ℕ) (code : ℕ → BitVec w) : Prop :=
  ∀ i < n, (code i).toNat < 2 ^ (w - 1)

private lemma two_pow_split {w : ℕ} (hw : 2 ≤ w) : 2 ^ w = 2 * 2 ^ (w - 1) := by
  obtain ⟨k, rfl⟩ : ∃ k, w = k + 1 := ⟨w - 1, by omega⟩
  simp [Nat.pow_succ]; omega

lemma xor_zero {a b : ℕ} (h : a ^^^ b = 0) : a = b := by
  have h2 := congrArg (fun z => z ^^^ b) h
  simpa [Nat.xor_assoc] using h2

lemma xor_succ_pos (i : ℕ) : 1 ≤ i ^^^ (i + 1) := by
  rcases Nat.eq_zero_or_pos (i ^^^ (i + 1)) with h | h
  · have := (xor_zero h); omega
  · exact h

lemma xor_succ_ne (i : ℕ) : (i ^^^ (i + 1)) ≠ ((i + 1) ^^^ (i + 2)) := by
  intro h
  have : i = i + 2 := by
    have h2 := congrArg (fun z => (i + 1) ^^^ z) h
    try simp only at h2
    rw [← Nat.xor_assoc (i+1) (i+1), Nat.xor_self, Nat.zero_xor, Nat.xor_comm i, ← Nat.xor_assoc,
      Nat.xor_self, Nat.zero_xor] at h2
    exact h2
  omega

/-- key of two equal codes -/
lemma deltaBits_eq {w : ℕ} (hw : 2 ≤ w) (code : ℕ → BitVec w) (i : ℕ)
    (hi : i + 1 < 2 ^ (w - 1)) (h : code i = code (i + 1)) :
    deltaBits code i = -(2 ^ (w - 1) : ℤ) + ((i ^^^ (i + 1) : ℕ) : ℤ) - 1 := by
  have hx : code i ^^^ code (i + 1) = 0#w := by rw [h]; exact BitVec.xor_self
  have h2 := two_pow_split hw
  have hb : i ^^^ (i + 1) < 2 ^ (w - 1) := Nat.xor_lt_two_pow (by omega) hi
  have hp := xor_succ_pos i
  unfold deltaBits
  simp only [hx, if_true, minPattern]
  generalize i ^^^ (i + 1) = y at *
  have e : (0#w + (BitVec.ofNat w (2 ^ (w - 1)) + BitVec.ofNat w y) - 1#w).toNat
      = 2 ^ (w - 1) + y - 1 := by
    have h1 : (1#w).toNat = 1 := by
            rw [BitVec.toNat_ofNat]; exact Nat.mod_eq_of_lt (by omega)
    rw [BitVec.toNat_sub, BitVec.zero_add, BitVec.toNat_add, h1, BitVec.toNat_ofNat,
      BitVec.toNat_ofNat]
    rw [Nat.mod_eq_of_lt (a := 2 ^ (w - 1)) (by omega), Nat.mod_eq_of_lt (a := y) (by omega),
      Nat.mod_eq_of_lt (a := 2 ^ (w - 1) + y) (by omega)]
    rw [show 2 ^ w - 1 + (2 ^ (w - 1) + y) = (2 ^ (w - 1) + y - 1) + 2 ^ w by omega,
      Nat.add_mod_right, Nat.mod_eq_of_lt (by omega)]
  rw [BitVec.toInt_eq_toNat_cond, e, if_neg (by omega)]
  have : ((2 ^ w : ℕ) : ℤ) = 2 * (2 ^ (w - 1) : ℕ) := by rw [h2]; push_cast; rfl
  rw [this]
  push_cast [show 1 ≤ 2 ^ (w-1) + y by omega]
  omega

/-- key of two different codes without top bit -/
lemma deltaBits_ne {w : ℕ} (hw : 2 ≤ w) (code : ℕ → BitVec w) (i : ℕ)
    (h0 : (code i).toNat < 2 ^ (w - 1)) (h1 : (code (i + 1)).toNat < 2 ^ (w - 1))
    (h : code i ≠ code (i + 1)) :
    deltaBits code i = (((code i).toNat ^^^ (code (i + 1)).toNat : ℕ) : ℤ) - 1 ∧
      1 ≤ (code i).toNat ^^^ (code (i + 1)).toNat ∧
      (code i).toNat ^^^ (code (i + 1)).toNat < 2 ^ (w - 1) := by
  have h2 := two_pow_split hw
  have hb := Nat.xor_lt_two_pow h0 h1
  have hp : 1 ≤ (code i).toNat ^^^ (code (i + 1)).toNat := by
    rcases Nat.eq_zero_or_pos ((code i).toNat ^^^ (code (i + 1)).toNat) with h' | h'
    · exact absurd (BitVec.eq_of_toNat_eq ((xor_zero h'))) h
    · exact h'
  refine ⟨?_, hp, hb⟩
  have hx : code i ^^^ code (i + 1) ≠ 0#w := by
    intro hx
    have := congrArg BitVec.toNat hx
    rw [BitVec.toNat_xor] at this
    simp at this
    omega
  unfold deltaBits
  simp only [hx, if_false]
  have e : ((code i ^^^ code (i + 1)) + 0#w - 1#w).toNat
      = ((code i).toNat ^^^ (code (i + 1)).toNat) - 1 := by
    have h1' : (1#w).toNat = 1 := by
            rw [BitVec.toNat_ofNat]; exact Nat.mod_eq_of_lt (by omega)
    rw [BitVec.toNat_sub, BitVec.add_zero, BitVec.toNat_xor, h1']
    generalize (code i).toNat ^^^ (code (i + 1)).toNat = y at *
    rw [show 2 ^ w - 1 + y = (y - 1) + 2 ^ w by omega, Nat.add_mod_right,
      Nat.mod_eq_of_lt (by omega)]
  rw [BitVec.toInt_eq_toNat_cond, e]
  generalize (code i).toNat ^^^ (code (i + 1)).toNat = y at *
  rw [if_pos (by omega)]
  omega

/-- **C03.** For every non-decreasing code array that does not use the top bit
(duplicates allowed), of at least two and fewer than `2^(w-1)` codes, the split
keys meet the requirements of the construction. -/
theorem validKeys_of_sorted {α V : Type} {w : ℕ} (hw : 2 ≤ w) (n : ℕ) (code : ℕ → BitVec w)
    (value : ℕ → α) (vol : α → V) (hn : 2 ≤ n) (hn' : n ≤ 2 ^ (w - 1))
    (hs : SortedCodes n code) (ht : TopBitUnused n code) :
    ValidKeys (⟨n - 1, deltaBits code, maxValue w, value, vol⟩ : Params α V) where
  two_values := by simp only; omega
  below_max := by
    intro i hi
    simp only at hi ⊢
    by_cases h : code i = code (i + 1)
    · rw [deltaBits_eq hw code i (by omega) h]
      have hb : i ^^^ (i + 1) < 2 ^ (w - 1) := Nat.xor_lt_two_pow (by omega) (by omega)
      have : ((i ^^^ (i + 1) : ℕ) : ℤ) < ((2 ^ (w - 1) : ℕ) : ℤ) := by exact_mod_cast hb
      have h1 : (1 : ℤ) ≤ 2 ^ (w - 1) := by exact_mod_cast Nat.one_le_two_pow
      unfold maxValue
      push_cast at this
      linarith
    · obtain ⟨e, _, hb⟩ := deltaBits_ne hw code i (ht i (by omega)) (ht (i+1) (by omega)) h
      rw [e]
      unfold maxValue
      have : (((code i).toNat ^^^ (code (i + 1)).toNat : ℕ) : ℤ) < ((2 ^ (w - 1) : ℕ) : ℤ) := by
        exact_mod_cast hb
      push_cast at this ⊢
      linarith
  neighbours_differ := by
    intro i hi
    simp only at hi ⊢
    have b1 : i ^^^ (i + 1) < 2 ^ (w - 1) := Nat.xor_lt_two_pow (by omega) (by omega)
    have b2 : (i + 1) ^^^ (i + 2) < 2 ^ (w - 1) := Nat.xor_lt_two_pow (by omega) (by omega)
    have z1 : ((i ^^^ (i + 1) : ℕ) : ℤ) < (2 ^ (w - 1) : ℤ) := by exact_mod_cast b1
    have z2 : (((i + 1) ^^^ (i + 2) : ℕ) : ℤ) < (2 ^ (w - 1) : ℤ) := by exact_mod_cast b2
    by_cases h : code i = code (i + 1) <;> by_cases h' : code (i + 1) = code (i + 1 + 1)
    · rw [deltaBits_eq hw code i (by omega) h, deltaBits_eq hw code (i+1) (by omega) h']
      have := xor_succ_ne i
      intro e
      apply this
      have : ((i ^^^ (i + 1) : ℕ) : ℤ) = (((i + 1) ^^^ (i + 2) : ℕ) : ℤ) := by linarith
      exact_mod_cast this
    · obtain ⟨e, hp, _⟩ := deltaBits_ne hw code (i+1) (ht _ (by omega)) (ht _ (by omega)) h'
      rw [deltaBits_eq hw code i (by omega) h, e]
      intro e'
      have : (1 : ℤ) ≤ (((code (i+1)).toNat ^^^ (code (i + 1 + 1)).toNat : ℕ) : ℤ) := by
        exact_mod_cast hp
      linarith
    · obtain ⟨e, hp, _⟩ := deltaBits_ne hw code i (ht _ (by omega)) (ht _ (by omega)) h
      rw [deltaBits_eq hw code (i+1) (by omega) h', e]
      intro e'
      have : (1 : ℤ) ≤ (((code i).toNat ^^^ (code (i + 1)).toNat : ℕ) : ℤ) := by
        exact_mod_cast hp
      have z2' : (((i + 1) ^^^ (i + 1 + 1) : ℕ) : ℤ) < (2 ^ (w - 1) : ℤ) := z2
      linarith
    · obtain ⟨e, hp, _⟩ := deltaBits_ne hw code i (ht _ (by omega)) (ht _ (by omega)) h
      obtain ⟨e', hp', _⟩ := deltaBits_ne hw code (i+1) (ht _ (by omega)) (ht _ (by omega)) h'
      rw [e, e']
      intro e''
      have e3 : (code i).toNat ^^^ (code (i + 1)).toNat
          = (code (i+1)).toNat ^^^ (code (i + 1 + 1)).toNat := by
        have : (((code i).toNat ^^^ (code (i + 1)).toNat : ℕ) : ℤ)
          = (((code (i+1)).toNat ^^^ (code (i + 1 + 1)).toNat : ℕ) : ℤ) := by linarith
        exact_mod_cast this
      have e4 : (code i).toNat = (code (i + 1 + 1)).toNat := by
        have h2 := congrArg (fun z => (code (i + 1)).toNat ^^^ z) e3
        try simp only at h2
        rw [← Nat.xor_assoc _ _ (code (i + 1 + 1)).toNat, Nat.xor_self, Nat.zero_xor,
          Nat.xor_comm (code i).toNat, ← Nat.xor_assoc, Nat.xor_self, Nat.zero_xor] at h2
        exact h2
      have s1 := hs i (by omega)
      have s2 := hs (i+1) (by omega)
      exact h (BitVec.eq_of_toNat_eq (by omega))

end ArborX.Construction
