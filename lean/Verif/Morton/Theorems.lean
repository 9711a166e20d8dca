import Verif.Morton.Bits
import Verif.BVH.Build
import Mathlib.Data.Nat.Bitwise

/-!
# Property theorems: bit spreading and Morton codes (C16)
-/

namespace ArborX.Morton

open Float

/-! ## Bit spreading -/

/-- **C16.** For every argument, `expandBitsBy<k>` on 32-bit words puts bit `i` of the low
`32 / (k+1)` bits at place `(k+1) i`, and clears all other bits. -/
theorem expand32_spec (k : ℕ) (hk : k ≤ 9) : IsSpread (k + 1) (32 / (k + 1)) (expand32 k) := by
  interval_cases k
  · intro x j hj
    simp [expand32, expand32_0, hj, Nat.mod_one]
  · exact expand32_1_spread
  · exact expand32_2_spread
  · exact expand32_3_spread
  · exact expand32_4_spread
  · exact expand32_5_spread
  · exact expand32_6_spread
  · exact expand32_7_spread
  · exact expand32_8_spread
  · exact expand32_9_spread

/-- **C16.** For every argument, `expandBitsBy<k>` on 64-bit words puts bit `i` of the low
`63 / (k+1)` bits at place `(k+1) i`, and clears all other bits (`k = 0`: identity). -/
theorem expand64_spec (k : ℕ) (hk : k ≤ 9) :
    IsSpread (k + 1) (if k = 0 then 64 else 63 / (k + 1)) (expand64 k) := by
  interval_cases k
  · intro x j hj
    simp [expand64, expand64_0, hj, Nat.mod_one]
  · exact expand64_1_spread
  · exact expand64_2_spread
  · exact expand64_3_spread
  · exact expand64_4_spread
  · exact expand64_5_spread
  · exact expand64_6_spread
  · exact expand64_7_spread
  · exact expand64_8_spread
  · exact expand64_9_spread

/-! ## Interleaving -/

/-- Specification of a Morton code of `dim` coordinates of `b` bits: bit `j` of the code is
bit `j / dim` of coordinate `dim - 1 - j % dim` (the first coordinate is the most
significant in each group). -/
def IsInterleaving (dim b : ℕ) (q : ℕ → ℕ) (c : ℕ) : Prop :=
  ∀ j, c.testBit j = (decide (j / dim < b) && (q (dim - 1 - j % dim)).testBit (j / dim))

lemma codeLoop_getLsbD {w dim b : ℕ} (hdim : 0 < dim) {f : BitVec w → BitVec w}
    (hf : IsSpread dim b f) (q : ℕ → ℕ) (m : ℕ) (hm : m ≤ dim) (j : ℕ) (hj : j < w) :
    (codeLoop f dim q m).getLsbD j
      = (decide (dim - 1 - j % dim < m) && decide (j / dim < b) &&
          (q (dim - 1 - j % dim)).testBit (j / dim)) := by
  have hterm : ∀ d < dim, ∀ i < w, (f (BitVec.ofNat w (q d)) <<< (dim - d - 1)).getLsbD i
      = (decide (i % dim = dim - d - 1) && decide (i / dim < b) && (q d).testBit (i / dim)) := by
    intro d hd i hi
    rw [BitVec.getLsbD_shiftLeft]
    have hmod := Nat.mod_lt i hdim
    have hdm := Nat.div_add_mod i dim
    have hdw : i / dim < w := lt_of_le_of_lt (Nat.div_le_self _ _) hi
    by_cases hs : i < dim - d - 1
    · have : i % dim = i := Nat.mod_eq_of_lt (by omega)
      have h2 : i % dim ≠ dim - d - 1 := by omega
      simp [hs, h2]
    · rw [hf _ _ (by omega)]
      by_cases he : i % dim = dim - d - 1
      · have e : i - (dim - d - 1) = dim * (i / dim) := by omega
        rw [e, Nat.mul_mod_right, Nat.mul_div_cancel_left _ hdim, BitVec.getLsbD_ofNat]
        simp [hs, he, hi, hdw]
      · have : (i - (dim - d - 1)) % dim ≠ 0 := by
          intro h0
          obtain ⟨c, hc⟩ := Nat.dvd_of_mod_eq_zero h0
          apply he
          have : i = dim * c + (dim - d - 1) := by omega
          rw [this, Nat.mul_add_mod]
          exact Nat.mod_eq_of_lt (by omega)
        simp [he, this]
  induction m generalizing j with
  | zero => simp [codeLoop]
  | succ d ih =>
    have hor : codeLoop f dim q (d + 1)
        = codeLoop f dim q d ||| (f (BitVec.ofNat w (q d)) <<< (dim - d - 1)) := by
      rw [codeLoop]
      apply BitVec.add_eq_or_of_and_eq_zero
      ext i hi
      rw [← BitVec.getLsbD_eq_getElem, ← BitVec.getLsbD_eq_getElem, BitVec.getLsbD_and,
        ih (by omega) i hi, hterm d (by omega) i hi]
      have hmod := Nat.mod_lt i hdim
      by_cases he : i % dim = dim - d - 1
      · have : ¬ (dim - 1 - i % dim < d) := by omega
        simp [this]
      · simp [he]
    rw [hor, BitVec.getLsbD_or, ih (by omega) j hj, hterm d (by omega) j hj]
    have hmod := Nat.mod_lt j hdim
    by_cases he : j % dim = dim - d - 1
    · have h1 : ¬ (dim - 1 - j % dim < d) := by omega
      have h2 : dim - 1 - j % dim < d + 1 := by omega
      have h3 : dim - 1 - j % dim = d := by omega
      simp only [h3] at *
      simp [he]
    · have h1 : (dim - 1 - j % dim < d) ↔ (dim - 1 - j % dim < d + 1) := by omega
      simp [he, h1]

lemma codeLoop_interleaving {w dim b : ℕ} (hdim : 0 < dim) {f : BitVec w → BitVec w}
    (hf : IsSpread dim b f) (hb : dim * b ≤ w) (q : ℕ → ℕ) :
    IsInterleaving dim b q (codeLoop f dim q dim).toNat := by
  intro j
  rw [BitVec.testBit_toNat]
  by_cases hj : j < w
  · rw [codeLoop_getLsbD hdim hf q dim le_rfl j hj]
    have : dim - 1 - j % dim < dim := by omega
    simp [this]
  · rw [BitVec.getLsbD_of_ge _ _ (by omega)]
    have : ¬ (j / dim < b) := by
      intro h
      have := (Nat.div_lt_iff_lt_mul hdim).mp h
      rw [Nat.mul_comm] at this
      omega
    simp [this]

/-- An interleaving determines its coordinates. -/
theorem IsInterleaving.injective {dim b : ℕ} {q q' : ℕ → ℕ} {c : ℕ} (hdim : 0 < dim)
    (h : IsInterleaving dim b q c) (h' : IsInterleaving dim b q' c)
    (hq : ∀ d < dim, q d < 2 ^ b) (hq' : ∀ d < dim, q' d < 2 ^ b) : ∀ d < dim, q d = q' d := by
  intro d hd
  apply Nat.eq_of_testBit_eq
  intro i
  by_cases hi : i < b
  · have e1 : (dim * i + (dim - 1 - d)) / dim = i := by
      rw [Nat.mul_add_div hdim, Nat.div_eq_of_lt (by omega), Nat.add_zero]
    have e2 : (dim * i + (dim - 1 - d)) % dim = dim - 1 - d := by
      rw [Nat.mul_add_mod, Nat.mod_eq_of_lt (by omega)]
    have := (h (dim * i + (dim - 1 - d))).symm.trans (h' (dim * i + (dim - 1 - d)))
    rw [e1, e2] at this
    have e3 : dim - 1 - (dim - 1 - d) = d := by omega
    rw [e3] at this
    simpa [hi] using this
  · rw [Nat.testBit_lt_two_pow (lt_of_lt_of_le (hq d hd) (Nat.pow_le_pow_right (by norm_num) (by omega))),
      Nat.testBit_lt_two_pow (lt_of_lt_of_le (hq' d hd) (Nat.pow_le_pow_right (by norm_num) (by omega)))]

lemma exists_top_diff {a c : ℕ} (h : a < c) :
    ∃ i, a.testBit i = false ∧ c.testBit i = true ∧ ∀ j, i < j → a.testBit j = c.testBit j := by
  have hne : a ^^^ c ≠ 0 := by
    intro h0
    have := Construction.xor_zero h0
    omega
  obtain ⟨i, hi, hi'⟩ := Nat.exists_most_significant_bit hne
  have heq : ∀ j, i < j → a.testBit j = c.testBit j := by
    intro j hj
    have := hi' j hj
    rw [Nat.testBit_xor] at this
    simpa using this
  rw [Nat.testBit_xor] at hi
  cases ha : a.testBit i <;> cases hc : c.testBit i <;> simp [ha, hc] at hi
  · exact ⟨i, ha, hc, heq⟩
  · have := Nat.lt_of_testBit i hc ha (fun j hj => (heq j hj).symm)
    omega

/-- Interleaving is monotone in every coordinate. -/
theorem IsInterleaving.mono {dim b : ℕ} {q q' : ℕ → ℕ} {c c' : ℕ} (hdim : 0 < dim)
    (h : IsInterleaving dim b q c) (h' : IsInterleaving dim b q' c')
    (hq : ∀ d < dim, q d < 2 ^ b) (hq' : ∀ d < dim, q' d < 2 ^ b)
    (hle : ∀ d < dim, q d ≤ q' d) : c ≤ c' := by
  by_contra hlt
  obtain ⟨j, hc', hc, hh⟩ := exists_top_diff (not_le.mp hlt)
  have hd : dim - 1 - j % dim < dim := by omega
  have hmod := Nat.mod_lt j hdim
  set d := dim - 1 - j % dim with hdd
  rw [h j] at hc
  rw [h' j] at hc'
  have hjb : j / dim < b := by
    by_contra hjb
    simp [hjb] at hc
  simp only [hjb, decide_true, Bool.true_and, ← hdd] at hc hc'
  have : q' d < q d := by
    refine Nat.lt_of_testBit (j / dim) hc' hc ?_
    intro i hi
    by_cases hib : i < b
    · have e1 : (dim * i + j % dim) / dim = i := by
        rw [Nat.mul_add_div hdim, Nat.div_eq_of_lt hmod, Nat.add_zero]
      have e2 : (dim * i + j % dim) % dim = j % dim := by
        rw [Nat.mul_add_mod, Nat.mod_eq_of_lt hmod]
      have hj : j < dim * i + j % dim := by
        have h1 := Nat.div_add_mod j dim
        have h2 : dim * (j / dim) < dim * i := Nat.mul_lt_mul_of_pos_left hi hdim
        omega
      have := hh _ hj
      rw [h _, h' _, e1, e2, ← hdd] at this
      simpa [hib] using this
    · rw [Nat.testBit_lt_two_pow (lt_of_lt_of_le (hq d hd) (Nat.pow_le_pow_right (by norm_num) (by omega))),
        Nat.testBit_lt_two_pow (lt_of_lt_of_le (hq' d hd) (Nat.pow_le_pow_right (by norm_num) (by omega)))]
  have := hle d hd
  omega

/-- An interleaving has `dim * b` bits. -/
theorem IsInterleaving.lt {dim b : ℕ} {q : ℕ → ℕ} {c : ℕ} (hdim : 0 < dim)
    (h : IsInterleaving dim b q c) : c < 2 ^ (dim * b) := by
  apply Nat.lt_pow_two_of_testBit
  intro i hi
  rw [h i]
  have : ¬ (i / dim < b) := by
    intro hlt
    have := (Nat.div_lt_iff_lt_mul hdim).mp hlt
    rw [Nat.mul_comm] at this
    omega
  simp [this]

/-! ## Cells -/

lemma clamp_mono {v v' lo hi : ℚ} (hl : lo ≤ hi) (h : v ≤ v') : clamp v lo hi ≤ clamp v' lo hi := by
  unfold clamp
  split_ifs <;> linarith

lemma clamp_le {v lo hi : ℚ} (hl : lo ≤ hi) : clamp v lo hi ≤ hi := by
  unfold clamp
  split_ifs <;> linarith

/-- Both quantisations: `pd` is the precision of the stored coordinate, `pu` of the product. -/
def cell (b pd pu : ℕ) (p : ℚ) : ℕ :=
  ⌊flr pd (clamp (p * (2 ^ b : ℕ)) 0 (flr pu ((2 ^ b - 1 : ℕ) : ℚ)))⌋₊

lemma cell32_eq (dim prec : ℕ) (p : ℚ) : cell32 dim prec p = cell (bits32 dim) 24 prec p := rfl

lemma cell64_eq (dim prec : ℕ) (p : ℚ) : cell64 dim prec p
    = cell (bits64 dim) (if needDouble dim then 53 else 24) (if needDouble dim then 53 else prec) p :=
  rfl

lemma cell_mono {b pd pu : ℕ} (hpd : 1 ≤ pd) (hpu : 1 ≤ pu) {p p' : ℚ} (h : p ≤ p') :
    cell b pd pu p ≤ cell b pd pu p' :=
  Nat.floor_mono (flr_mono hpd (clamp_mono (flr_nonneg hpu _)
    (mul_le_mul_of_nonneg_right h (by positivity))))

lemma cell_lt {b pd pu : ℕ} (hpd : 1 ≤ pd) (h1 : b ≤ pd) (h2 : b ≤ pu) (p : ℚ) :
    cell b pd pu p < 2 ^ b := by
  have hb : 0 < 2 ^ b := by positivity
  have e : flr pu ((2 ^ b - 1 : ℕ) : ℚ) = ((2 ^ b - 1 : ℕ) : ℚ) :=
    flr_nat (by have := Nat.pow_le_pow_right (n := 2) (by norm_num) h2; omega)
  have e' : flr pd ((2 ^ b - 1 : ℕ) : ℚ) = ((2 ^ b - 1 : ℕ) : ℚ) :=
    flr_nat (by have := Nat.pow_le_pow_right (n := 2) (by norm_num) h1; omega)
  have := flr_mono hpd (clamp_le (v := p * (2 ^ b : ℕ)) (lo := 0) (hi := ((2 ^ b - 1 : ℕ) : ℚ))
    (by positivity))
  rw [e'] at this
  unfold cell
  rw [e]
  have h3 := Nat.floor_mono this
  rw [Nat.floor_natCast] at h3
  omega

/-- When the scaled coordinate is representable, the cell is the integer part of the scaled
coordinate, limited to `0 .. 2^b - 1`. -/
lemma cell_exact {b pd pu : ℕ} (h1 : b ≤ pd) (h2 : b ≤ pu) (p : ℚ)
    (hrep : flr pd (p * (2 ^ b : ℕ)) = p * (2 ^ b : ℕ) ∨ p < 0) :
    cell b pd pu p = min ⌊p * (2 ^ b : ℕ)⌋₊ (2 ^ b - 1) := by
  have hb : 0 < 2 ^ b := by positivity
  have e : flr pu ((2 ^ b - 1 : ℕ) : ℚ) = ((2 ^ b - 1 : ℕ) : ℚ) :=
    flr_nat (by have := Nat.pow_le_pow_right (n := 2) (by norm_num) h2; omega)
  have e' : flr pd ((2 ^ b - 1 : ℕ) : ℚ) = ((2 ^ b - 1 : ℕ) : ℚ) :=
    flr_nat (by have := Nat.pow_le_pow_right (n := 2) (by norm_num) h1; omega)
  unfold cell
  rw [e]
  unfold clamp
  split_ifs with ha hc
  · have : flr pd 0 = 0 := by simp [flr]
    rw [this, Nat.floor_zero, Nat.floor_of_nonpos ha.le]; simp
  · rw [e', Nat.floor_natCast]
    have := Nat.floor_mono hc.le
    rw [Nat.floor_natCast] at this
    omega
  · rcases hrep with hrep | hrep
    · rw [hrep]
      have := Nat.floor_mono (not_lt.mp hc)
      rw [Nat.floor_natCast] at this
      omega
    · exfalso
      apply ha
      have hb' : (0 : ℚ) < ((2 ^ b : ℕ) : ℚ) := by exact_mod_cast hb
      exact mul_neg_of_neg_of_pos hrep hb'

lemma bits64_le (dim : ℕ) (h2 : 2 ≤ dim) (prec : ℕ) (hp : 24 ≤ prec) :
    bits64 dim ≤ (if needDouble dim then 53 else 24) ∧
    bits64 dim ≤ (if needDouble dim then 53 else prec) := by
  unfold needDouble bits64
  have h : 63 / dim ≤ 31 := by
    calc 63 / dim ≤ 63 / 2 := Nat.div_le_div_left h2 (by norm_num)
      _ = 31 := rfl
  split_ifs with hd
  · omega
  · have : ¬ (24 < 63 / dim) := by
      intro hlt
      apply hd
      simp only [decide_eq_true_eq]
      have : 2 ^ 25 ≤ 2 ^ (63 / dim) := Nat.pow_le_pow_right (by norm_num) (by omega)
      omega
    omega

lemma bits32_le (dim : ℕ) (h2 : 2 ≤ dim) : bits32 dim ≤ 16 := by
  unfold bits32
  rw [if_neg (by omega)]
  calc 32 / dim ≤ 32 / 2 := Nat.div_le_div_left h2 (by norm_num)
    _ = 16 := rfl

/-! ## Morton codes -/

/-- **C16.** For every point in 2 to 10 dimensions with `float` or `double` coordinates, the
64-bit Morton code interleaves the cells of the coordinates, and every cell is in range. -/
theorem morton64_interleaves (dim : ℕ) (h2 : 2 ≤ dim) (h10 : dim ≤ 10) (prec : ℕ) (hp : 24 ≤ prec)
    (p : ℕ → ℚ) :
    IsInterleaving dim (63 / dim) (fun d => cell64 dim prec (p d)) (morton64 dim prec p).toNat ∧
    ∀ d, cell64 dim prec (p d) < 2 ^ (63 / dim) := by
  constructor
  · have := expand64_spec (dim - 1) (by omega)
    rw [if_neg (by omega), Nat.sub_add_cancel (by omega)] at this
    exact codeLoop_interleaving (by omega) this
      (le_trans (Nat.mul_div_le 63 dim) (by norm_num)) _
  · intro d
    rw [cell64_eq]
    have := bits64_le dim h2 prec hp
    exact cell_lt (by split_ifs <;> norm_num) this.1 this.2 _

/-- **C16.** For every point in 2 to 10 dimensions, the 32-bit Morton code interleaves the
cells of the coordinates, and every cell is in range. -/
theorem morton32_interleaves (dim : ℕ) (h2 : 2 ≤ dim) (h10 : dim ≤ 10) (prec : ℕ) (hp : 24 ≤ prec)
    (p : ℕ → ℚ) :
    IsInterleaving dim (32 / dim) (fun d => cell32 dim prec (p d)) (morton32 dim prec p).toNat ∧
    ∀ d, cell32 dim prec (p d) < 2 ^ (32 / dim) := by
  constructor
  · have := expand32_spec (dim - 1) (by omega)
    rw [Nat.sub_add_cancel (by omega)] at this
    exact codeLoop_interleaving (by omega) this (Nat.mul_div_le 32 dim) _
  · intro d
    have e : 2 ^ (32 / dim) = 2 ^ bits32 dim := by unfold bits32; rw [if_neg (by omega)]
    rw [cell32_eq, e]
    have := bits32_le dim h2
    exact cell_lt (by norm_num) (by omega) (by omega) _

/-- **C16.** Two points have the same 64-bit code exactly if they are in the same cell. -/
theorem morton64_eq_iff (dim : ℕ) (h2 : 2 ≤ dim) (h10 : dim ≤ 10) (prec : ℕ) (hp : 24 ≤ prec)
    (p p' : ℕ → ℚ) : morton64 dim prec p = morton64 dim prec p' ↔
      ∀ d < dim, cell64 dim prec (p d) = cell64 dim prec (p' d) := by
  obtain ⟨hi, hc⟩ := morton64_interleaves dim h2 h10 prec hp p
  obtain ⟨hi', hc'⟩ := morton64_interleaves dim h2 h10 prec hp p'
  constructor
  · intro h
    rw [h] at hi
    exact hi.injective (by omega) hi' (fun d _ => hc d) (fun d _ => hc' d)
  · intro h
    apply BitVec.eq_of_toNat_eq
    apply Nat.eq_of_testBit_eq
    intro j
    rw [hi j, hi' j]
    dsimp only
    rw [h (dim - 1 - j % dim) (by omega)]

/-- **C16.** Two points have the same 32-bit code exactly if they are in the same cell. -/
theorem morton32_eq_iff (dim : ℕ) (h2 : 2 ≤ dim) (h10 : dim ≤ 10) (prec : ℕ) (hp : 24 ≤ prec)
    (p p' : ℕ → ℚ) : morton32 dim prec p = morton32 dim prec p' ↔
      ∀ d < dim, cell32 dim prec (p d) = cell32 dim prec (p' d) := by
  obtain ⟨hi, hc⟩ := morton32_interleaves dim h2 h10 prec hp p
  obtain ⟨hi', hc'⟩ := morton32_interleaves dim h2 h10 prec hp p'
  constructor
  · intro h
    rw [h] at hi
    exact hi.injective (by omega) hi' (fun d _ => hc d) (fun d _ => hc' d)
  · intro h
    apply BitVec.eq_of_toNat_eq
    apply Nat.eq_of_testBit_eq
    intro j
    rw [hi j, hi' j]
    dsimp only
    rw [h (dim - 1 - j % dim) (by omega)]

/-- **C16.** The 64-bit code is monotone in every coordinate of the point. -/
theorem morton64_mono (dim : ℕ) (h2 : 2 ≤ dim) (h10 : dim ≤ 10) (prec : ℕ) (hp : 24 ≤ prec)
    (p p' : ℕ → ℚ) (h : ∀ d < dim, p d ≤ p' d) : morton64 dim prec p ≤ morton64 dim prec p' := by
  obtain ⟨hi, hc⟩ := morton64_interleaves dim h2 h10 prec hp p
  obtain ⟨hi', hc'⟩ := morton64_interleaves dim h2 h10 prec hp p'
  refine hi.mono (by omega) hi' (fun d _ => hc d) (fun d _ => hc' d) ?_
  intro d hd
  rw [cell64_eq, cell64_eq]
  exact cell_mono (by split_ifs <;> norm_num) (by split_ifs <;> omega) (h d hd)

/-- **C16.** The 32-bit code is monotone in every coordinate of the point. -/
theorem morton32_mono (dim : ℕ) (h2 : 2 ≤ dim) (h10 : dim ≤ 10) (prec : ℕ) (hp : 24 ≤ prec)
    (p p' : ℕ → ℚ) (h : ∀ d < dim, p d ≤ p' d) : morton32 dim prec p ≤ morton32 dim prec p' := by
  obtain ⟨hi, hc⟩ := morton32_interleaves dim h2 h10 prec hp p
  obtain ⟨hi', hc'⟩ := morton32_interleaves dim h2 h10 prec hp p'
  refine hi.mono (by omega) hi' (fun d _ => hc d) (fun d _ => hc' d) ?_
  intro d hd
  rw [cell32_eq, cell32_eq]
  exact cell_mono (by norm_num) (by omega) (h d hd)

/-- **C16.** In the unit box, a representable coordinate `p` is in cell `⌊p * 2^b⌋`, the
upper face in the last cell. -/
theorem morton64_cell (dim : ℕ) (h2 : 2 ≤ dim) (prec : ℕ) (hp : 24 ≤ prec) (p : ℚ)
    (hrep : flr 24 (p * (2 ^ (63 / dim) : ℕ)) = p * (2 ^ (63 / dim) : ℕ)) (h0 : 0 ≤ p) (h1 : p ≤ 1)
    (hd : needDouble dim = false) :
    cell64 dim prec p = if p = 1 then 2 ^ (63 / dim) - 1 else ⌊p * (2 ^ (63 / dim) : ℕ)⌋₊ := by
  have hb := bits64_le dim h2 prec hp
  rw [cell64_eq, hd]
  rw [hd] at hb
  simp only [Bool.false_eq_true, if_false] at hb ⊢
  rw [cell_exact hb.1 hb.2 p (Or.inl hrep)]
  have hN : 0 < 2 ^ (63 / dim) := by positivity
  have hN' : (0 : ℚ) < ((2 ^ (63 / dim) : ℕ) : ℚ) := by exact_mod_cast hN
  unfold bits64
  split_ifs with h
  · rw [h, one_mul, Nat.floor_natCast]; omega
  · have : p < 1 := lt_of_le_of_ne h1 h
    have : ⌊p * ((2 ^ (63 / dim) : ℕ) : ℚ)⌋₊ < 2 ^ (63 / dim) := by
      rw [Nat.floor_lt (by positivity)]
      calc p * _ < 1 * _ := mul_lt_mul_of_pos_right this hN'
        _ = _ := one_mul _
    omega

/-! ## The codes and the construction (C03) -/

/-- **C03.** In 2 to 10 dimensions 64-bit Morton codes leave the top bit clear: with the
default space-filling curve the construction gets valid codes, for every point set. -/
theorem morton64_valid {α V : Type} (dim : ℕ) (h2 : 2 ≤ dim) (h10 : dim ≤ 10) (prec : ℕ)
    (hp : 24 ≤ prec) (I : BVH.Input α V 64) (pt : ℕ → ℕ → ℚ)
    (hcode : ∀ i < I.n, I.code i = morton64 dim prec (pt i)) (hn : I.n ≤ 2 ^ 63)
    (hs : I.Sorted) : I.Valid where
  width := by norm_num
  fits := hn
  sorted := hs
  top := by
    intro i hi
    rw [hcode i hi]
    have := (morton64_interleaves dim h2 h10 prec hp (pt i)).1.lt (by omega)
    refine lt_of_lt_of_le this (Nat.pow_le_pow_right (by norm_num) ?_)
    exact Nat.mul_div_le 63 dim

/-- **C03.** 32-bit Morton codes leave the top bit clear when `dim` does not divide 32. -/
theorem morton32_valid {α V : Type} (dim : ℕ) (h2 : 2 ≤ dim) (h10 : dim ≤ 10) (hdvd : ¬ dim ∣ 32)
    (prec : ℕ) (hp : 24 ≤ prec) (I : BVH.Input α V 32) (pt : ℕ → ℕ → ℚ)
    (hcode : ∀ i < I.n, I.code i = morton32 dim prec (pt i)) (hn : I.n ≤ 2 ^ 31)
    (hs : I.Sorted) : I.Valid where
  width := by norm_num
  fits := hn
  sorted := hs
  top := by
    intro i hi
    rw [hcode i hi]
    have := (morton32_interleaves dim h2 h10 prec hp (pt i)).1.lt (by omega)
    refine lt_of_lt_of_le this (Nat.pow_le_pow_right (by norm_num) ?_)
    have h := Nat.mul_div_le 32 dim
    have : dim * (32 / dim) ≠ 32 := fun e => hdvd ⟨_, e.symm⟩
    omega

/-- In one dimension the upper end of the scene gets the code `2^63`: the top bit is set. -/
theorem morton64_top_bit_1d (prec : ℕ) (p : ℕ → ℚ) (h : 1 ≤ p 0) :
    morton64 1 prec p = BitVec.ofNat 64 (2 ^ 63) := by
  have hc : cell64 1 prec (p 0) = 2 ^ 63 := by
    have hn : needDouble 1 = true := by decide
    rw [cell64_eq, hn]
    unfold cell bits64
    simp only [if_true, Nat.div_one]
    rw [flr_pred_pow (by norm_num) (by norm_num)]
    have : clamp (p 0 * ((2 ^ 63 : ℕ) : ℚ)) 0 ((2 ^ 63 : ℕ) : ℚ) = ((2 ^ 63 : ℕ) : ℚ) := by
      have h63 : (0 : ℚ) < ((2 ^ 63 : ℕ) : ℚ) := by positivity
      have : ((2 ^ 63 : ℕ) : ℚ) ≤ p 0 * ((2 ^ 63 : ℕ) : ℚ) := by nlinarith
      unfold clamp
      split_ifs <;> linarith
    rw [this]
    have : flr 53 ((2 ^ 63 : ℕ) : ℚ) = ((2 ^ 63 : ℕ) : ℚ) := by
      refine flr_of_mul (by positivity) (2 ^ 52) ?_
      rw [Int.log_natCast, Nat.log_pow (by norm_num)]
      norm_num
    rw [this, Nat.floor_natCast]
  unfold morton64 codeLoop codeLoop
  rw [hc]
  decide

/-- In one dimension the lower end of the scene gets the code 0. -/
theorem morton64_zero_1d (prec : ℕ) (p : ℕ → ℚ) (h : p 0 = 0) : morton64 1 prec p = 0 := by
  have hc : cell64 1 prec (p 0) = 0 := by
    have hn : needDouble 1 = true := by decide
    rw [cell64_eq, hn, h]
    unfold cell clamp
    rw [zero_mul, if_neg (lt_irrefl _), if_neg (not_lt.mpr (flr_nonneg (by norm_num) _))]
    simp [flr]
  unfold morton64 codeLoop codeLoop
  rw [hc]
  decide

/-- **C03, defect.** The hierarchy of two distinct points in one dimension, with the default
space-filling curve: the two ends of the scene get the codes `0` and `2^63`, the split key of
the pair equals the sentinel, and the first leaf takes itself for a right child and accesses
its range array at index `-1`. -/
theorem morton64_1d_faults {α V : Type} [SemilatticeSup V] [OrderBot V] (prec : ℕ)
    (I : BVH.Input α V 64) (pt : ℕ → ℕ → ℚ) (hn : I.n = 2)
    (hcode : ∀ i < 2, I.code i = morton64 1 prec (pt i)) (h0 : pt 0 0 = 0) (h1 : pt 1 0 = 1)
    (hs : I.Sorted) : (Construction.run I.params [0, 0]).thr 0 = .fault := by
  have hc0 : I.code 0 = 0 := by rw [hcode 0 (by norm_num), morton64_zero_1d _ _ h0]
  have hc1 : I.code 1 = BitVec.ofNat 64 (2 ^ 63) := by
    rw [hcode 1 (by norm_num), morton64_top_bit_1d _ _ h1.ge]
  have hp : I.perm 0 = 0 ∧ I.perm 1 = 1 := by
    have hp := hs.perm
    have hsd := hs.sorted
    rw [hn] at hp hsd
    have hr : List.range 2 = [0, 1] := rfl
    rw [hr] at hp
    simp only [List.map_cons, List.map_nil] at hp
    have m0 : I.perm 0 ∈ [0, 1] := hp.subset (by simp)
    have m1 : I.perm 1 ∈ [0, 1] := hp.subset (by simp)
    have hnd : I.perm 0 ≠ I.perm 1 := by
      have : [I.perm 0, I.perm 1].Nodup := hp.nodup_iff.mpr (by simp)
      simpa using this
    simp only [List.mem_cons, List.not_mem_nil, or_false] at m0 m1
    have := hsd 0 (by norm_num)
    rcases m0 with m0 | m0 <;> rcases m1 with m1 | m1
    · exact absurd (m0.trans m1.symm) hnd
    · exact ⟨m0, m1⟩
    · exfalso
      dsimp only at this
      rw [m0, m1, hc0, hc1] at this
      revert this
      decide
    · exact absurd (m0.trans m1.symm) hnd
  have hm : I.params.m = 1 := by simp [BVH.Input.params, hn]
  have hk : I.params.key 0 = I.params.maxv := by
    unfold BVH.Input.params Construction.deltaBits
    dsimp only
    rw [hp.1, hp.2, hc0, hc1]
    decide
  have d1 : Construction.delta I.params ((0 : ℕ) - 1 : ℤ) = I.params.maxv := by
    simp [Construction.delta]
  have d2 : Construction.delta I.params ((0 : ℕ) : ℤ) = I.params.maxv := by
    simp [Construction.delta, hm, hk]
  have e1 : (Construction.step I.params (Construction.initState) 0).thr 0
      = .loop 0 0 0 I.params.maxv I.params.maxv (⊥ ⊔ I.params.vol (I.params.value 0)) := by
    unfold Construction.step
    rw [if_neg (by omega)]
    have d1' := d1
    have d2' := d2
    simp only [Nat.cast_zero, zero_sub] at d1' d2'
    simp [Construction.initState, d1', d2']
  have e2 : Construction.run I.params [0, 0]
      = Construction.step I.params (Construction.step I.params (Construction.initState) 0) 0 := rfl
  rw [e2]
  generalize Construction.step I.params (Construction.initState) 0 = s at e1 ⊢
  unfold Construction.step
  rw [if_neg (by omega), e1]
  simp [Construction.setThr]

/-- Two points in one dimension, at 0 and 1, in order. -/
example : ∃ I : BVH.Input Unit Unit 64, I.n = 2 ∧
    (∀ i < 2, I.code i = morton64 1 53 (fun _ => (i : ℚ))) ∧ I.Sorted := by
  refine ⟨⟨2, fun _ => (), fun _ => (), fun i => morton64 1 53 (fun _ => (i : ℚ)), id⟩, rfl,
    fun _ _ => rfl, ?_, ?_⟩
  · simp
  · intro i hi
    have : i = 0 := by
      change i + 1 < 2 at hi
      omega
    subst this
    dsimp only [id]
    rw [morton64_zero_1d _ _ (by simp)]
    simp

/-- Three-dimensional points: the cells of `1/2`, `1/4` and `1`. -/
example : cell64 3 24 (1 / 2) = 2 ^ 20 ∧ cell64 3 24 (1 / 4) = 2 ^ 19 ∧
    cell64 3 24 1 = 2 ^ 21 - 1 := by
  have hd : needDouble 3 = false := by decide
  have h : ∀ n : ℕ, n < 2 ^ 24 → flr 24 (n : ℚ) = n := fun n hn => flr_nat hn
  refine ⟨?_, ?_, ?_⟩
  · rw [morton64_cell 3 (by norm_num) 24 le_rfl _
      (by have := h (2 ^ 20) (by norm_num); norm_num at this ⊢; exact this)
      (by norm_num) (by norm_num) hd]
    norm_num
  · rw [morton64_cell 3 (by norm_num) 24 le_rfl _
      (by have := h (2 ^ 19) (by norm_num); norm_num at this ⊢; exact this)
      (by norm_num) (by norm_num) hd]
    norm_num
  · rw [morton64_cell 3 (by norm_num) 24 le_rfl _
      (by have := h (2 ^ 21) (by norm_num); norm_num at this ⊢; exact this)
      (by norm_num) (by norm_num) hd]
    norm_num

end ArborX.Morton
