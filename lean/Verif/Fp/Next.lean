import Verif.Fp.Ieee
import Verif.Fp.Lemmas

/-!
# The next floating-point number

`nextafter` by specification, and the spacing of the numbers of IEEE 754.
-/

namespace ArborX.Fp

/-- `x` is a number of the type. -/
def Format.Num (F : Format) (x : ℝ) : Prop := F.rnd x = x

/-- `Kokkos::nextafter(x, M)`, `M` the largest finite number of the type: the least number of the type above `x`, and `M` for `M` and infinity. -/
structure Format.IsNext (F : Format) (M : ℝ) (up : EReal → ℝ) : Prop where
  num : F.Num M
  largest : ∀ x, F.Num x → x ≤ M
  top : up ⊤ = M
  last : up M = M
  next : ∀ x : ℝ, F.Num x → x < M → F.Num (up x) ∧ x < up x ∧ ∀ y, F.Num y → x < y → up x ≤ y

/-- The distance of a number to the next one does not decrease, and the sum of a number and such a distance of larger numbers is not rounded back. -/
def Format.Spaced (F : Format) : Prop := ∀ r y d : ℝ, F.Num r → F.Num y → F.Num d → 0 ≤ r → r ≤ y → y < d → (r : EReal) < F.rnd (r + (d - y))

/-- `x + r` for `x` finite. -/
noncomputable def Format.add (F : Format) (x : ℝ) (r : EReal) : EReal := if r = ⊤ then ⊤ else F.rnd (x + r.toReal)

namespace Format.IsNext
variable {F : Format} {M : ℝ} {up : EReal → ℝ}

/-- A finite result is a number of the type. -/
lemma _root_.ArborX.Fp.Format.rnd_num {F : Format} {x y : ℝ} (h : F.rnd x = y) : F.Num y := F.idem x y h

lemma rnd_cases (F : Format) {x : ℝ} (h0 : 0 ≤ x) : F.rnd x = ⊤ ∨ ∃ y : ℝ, F.rnd x = y ∧ F.Num y ∧ 0 ≤ y := by
  induction hx : F.rnd x using EReal.rec with
  | bot =>
    have := F.rnd_nonneg h0
    rw [hx] at this
    simp at this
  | top => exact .inl rfl
  | coe y =>
    refine .inr ⟨y, rfl, rnd_num hx, ?_⟩
    have := F.rnd_nonneg h0
    rw [hx] at this
    exact EReal.coe_nonneg.mp this

/-- The number after the rounded result is at least the exact one, or the largest number. -/
lemma le_up (h : F.IsNext M up) {x : ℝ} (h0 : 0 ≤ x) : F.Num (up (F.rnd x)) ∧ (x ≤ up (F.rnd x) ∨ up (F.rnd x) = M) := by
  rcases rnd_cases F h0 with e | ⟨y, e, hy, -⟩
  · rw [e, h.top]; exact ⟨h.num, .inr rfl⟩
  · rw [e]
    rcases (h.largest y hy).eq_or_lt with rfl | hlt
    · rw [h.last]; exact ⟨hy, .inr rfl⟩
    · obtain ⟨h1, h2, -⟩ := h.next y hy hlt
      refine ⟨h1, .inl ?_⟩
      by_contra hc
      have := F.mono (not_le.mp hc).le
      rw [h1, e, EReal.coe_le_coe_iff] at this
      exact absurd h2 (not_lt.mpr this)

/-- `nextafter` is monotone. -/
lemma mono (h : F.IsNext M up) {x y : ℝ} (hx : 0 ≤ x) (hxy : x ≤ y) : up (F.rnd x) ≤ up (F.rnd y) := by
  have hm := F.mono hxy
  rcases rnd_cases F (hx.trans hxy) with e | ⟨b, e, hb, -⟩
  · rw [e, h.top]
    exact h.largest _ (h.le_up hx).1
  · rcases rnd_cases F hx with e' | ⟨a, e', ha, -⟩
    · rw [e, e'] at hm
      simp at hm
    · rw [e, e'] at hm ⊢
      have hab : a ≤ b := EReal.coe_le_coe_iff.mp hm
      rcases hab.eq_or_lt with rfl | hlt
      · exact le_rfl
      · refine ((h.next a ha (lt_of_lt_of_le hlt (h.largest b hb))).2.2 b hb hlt).trans ?_
        rcases (h.largest b hb).eq_or_lt with rfl | hl
        · rw [h.last]
        · exact (h.next b hb hl).2.1.le

end Format.IsNext

namespace Ieee
variable {p : ℕ} {emin emax : ℤ}

/-- Numbers of the type that are not negative. -/
lemma num_iff (hp : 1 ≤ p) (fma : Bool) {x : ℝ} (hx : 0 ≤ x) : (format p hp emin emax fma).Num x ↔ near p emin x = x ∧ x < 2 ^ emax := by
  unfold Format.Num
  show rnd p emin emax x = x ↔ _
  unfold rnd pos
  rw [if_pos hx]
  constructor
  · intro h
    split_ifs at h with h1
    · have : near p emin x = x := EReal.coe_eq_coe_iff.mp h
      rw [this] at h1
      exact ⟨this, h1⟩
    · exact absurd h.symm (EReal.coe_ne_top x)
  · rintro ⟨h1, h2⟩
    rw [h1, if_pos h2]

lemma num_neg (F : Format) {x : ℝ} (h : F.Num x) : F.Num (-x) := by
  unfold Format.Num at h ⊢
  rw [F.neg, h, EReal.coe_neg]

/-- Numbers are multiples of their unit. -/
lemma num_mul {x : ℝ} (h : near p emin x = x) : x = roundEven (x / 2 ^ ulpExp p emin x) * 2 ^ ulpExp p emin x := h.symm

/-- ... and of smaller units. -/
lemma mul_of_le {x : ℝ} (h : near p emin x = x) {e : ℤ} (he : e ≤ ulpExp p emin x) : ∃ z : ℤ, x = z * 2 ^ e := by
  refine ⟨roundEven (x / 2 ^ ulpExp p emin x) * 2 ^ (ulpExp p emin x - e).toNat, ?_⟩
  rw [Int.cast_mul, mul_assoc, ← zpow_split he]
  exact h.symm

lemma emin_le (x : ℝ) : emin ≤ ulpExp p emin x := le_max_right _ _

/-- All numbers of the type are multiples of the smallest one. -/
lemma num_int (hp : 1 ≤ p) (fma : Bool) {x : ℝ} (h : (format p hp emin emax fma).Num x) : ∃ z : ℤ, x = z * 2 ^ emin := by
  have key : ∀ y : ℝ, 0 ≤ y → (format p hp emin emax fma).Num y → ∃ z : ℤ, y = z * 2 ^ emin := by
    intro y hy hn
    exact mul_of_le ((num_iff hp fma hy).mp hn).1 (emin_le y)
  rcases le_total 0 x with hx | hx
  · exact key x hx h
  · obtain ⟨z, hz⟩ := key (-x) (by linarith) (num_neg _ h)
    exact ⟨-z, by push_cast; linarith⟩

lemma num_lt (hp : 1 ≤ p) (fma : Bool) {x : ℝ} (h : (format p hp emin emax fma).Num x) : x < 2 ^ emax := by
  rcases le_total 0 x with hx | hx
  · exact ((num_iff hp fma hx).mp h).2
  · exact lt_of_le_of_lt hx (ulp_pos _)

lemma num_zero (F : Format) : F.Num 0 := by
  unfold Format.Num
  rw [F.rnd_zero]; rfl

/-- There is a largest number of the type. -/
lemma exists_largest (hp : 1 ≤ p) (fma : Bool) : ∃ M, (format p hp emin emax fma).Num M ∧ ∀ x, (format p hp emin emax fma).Num x → x ≤ M := by
  obtain ⟨z, hz, hmax⟩ := Int.exists_greatest_of_bdd (P := fun z : ℤ => (format p hp emin emax fma).Num (z * 2 ^ emin)) (by
    refine ⟨⌈(2 : ℝ) ^ emax / 2 ^ emin⌉, fun z hz => ?_⟩
    have h1 := num_lt hp fma hz
    have h2 : (z : ℝ) < 2 ^ emax / 2 ^ emin := by rwa [lt_div_iff₀ (ulp_pos _)]
    exact_mod_cast (h2.le.trans (Int.le_ceil _))) ⟨0, by rw [Int.cast_zero, zero_mul]; exact num_zero _⟩
  refine ⟨_, hz, fun x hx => ?_⟩
  obtain ⟨y, rfl⟩ := num_int hp fma hx
  exact mul_le_mul_of_nonneg_right (by exact_mod_cast hmax y hx) (ulp_pos _).le

/-- There is a least number above a smaller one. -/
lemma exists_above (hp : 1 ≤ p) (fma : Bool) {x M : ℝ} (hM : (format p hp emin emax fma).Num M) (hx : x < M) :
    ∃ u, (format p hp emin emax fma).Num u ∧ x < u ∧ ∀ y, (format p hp emin emax fma).Num y → x < y → u ≤ y := by
  obtain ⟨m, hm⟩ := num_int hp fma hM
  obtain ⟨z, ⟨hz1, hz2⟩, hmin⟩ := Int.exists_least_of_bdd
    (P := fun z : ℤ => (format p hp emin emax fma).Num (z * 2 ^ emin) ∧ x < z * 2 ^ emin) (by
      refine ⟨⌊x / 2 ^ emin⌋, fun z hz => ?_⟩
      have h2 : x / 2 ^ emin < z := by rw [div_lt_iff₀ (ulp_pos _)]; exact hz.2
      exact_mod_cast ((Int.floor_le _).trans h2.le)) ⟨m, by rw [← hm]; exact ⟨hM, hx⟩⟩
  refine ⟨_, hz1, hz2, fun y hy hxy => ?_⟩
  obtain ⟨k, rfl⟩ := num_int hp fma hy
  exact mul_le_mul_of_nonneg_right (by exact_mod_cast hmin k ⟨hy, hxy⟩) (ulp_pos _).le

/-- `nextafter` exists for the formats of IEEE 754. -/
theorem exists_next (hp : 1 ≤ p) (fma : Bool) : ∃ M up, (format p hp emin emax fma).IsNext M up := by
  classical
  obtain ⟨M, h1, h2⟩ := exists_largest (emin := emin) (emax := emax) hp fma
  refine ⟨M, fun e => if h : e.toReal < M ∧ e ≠ ⊤ then Classical.choose (exists_above hp fma h1 h.1) else M, h1, h2, ?_, ?_, ?_⟩
  · rw [dif_neg (fun h => h.2 rfl)]
  · rw [dif_neg (fun h => absurd h.1 (by rw [EReal.toReal_coe]; exact lt_irrefl _))]
  · intro x _ hlt
    have hc : ((x : EReal).toReal < M ∧ (x : EReal) ≠ ⊤) := ⟨by rwa [EReal.toReal_coe], EReal.coe_ne_top x⟩
    have := Classical.choose_spec (exists_above hp fma h1 hc.1)
    rw [dif_pos hc]
    simpa only [EReal.toReal_coe] using this

lemma ulpExp_mono {x y : ℝ} (hx : 0 < x) (h : x ≤ y) : ulpExp p emin x ≤ ulpExp p emin y := by
  have hl := Int.log_mono_right (b := 2) hx h
  unfold ulpExp; omega

/-- The number after a positive one, were there no largest. -/
lemma near_succ (hp : 1 ≤ p) {r : ℝ} (h0 : 0 < r) (hr : near p emin r = r) : near p emin (r + 2 ^ ulpExp p emin r) = r + 2 ^ ulpExp p emin r := by
  set u := ulpExp p emin r with hu
  set z := roundEven (r / 2 ^ u) with hz
  have hrz : r = z * 2 ^ u := num_mul hr
  have hlog : emin ≤ Int.log 2 r := by
    rw [← Int.zpow_le_iff_le_log (b := 2) (by norm_num) h0]
    have hz1 : 0 < z := by
      by_contra hc
      have : (z : ℝ) ≤ 0 := by exact_mod_cast not_lt.mp hc
      have := mul_nonpos_of_nonpos_of_nonneg this (ulp_pos u).le
      linarith
    have : (1 : ℝ) ≤ z := by exact_mod_cast hz1
    have h2 : (2 : ℝ) ^ emin ≤ 2 ^ u := zpow_le_zpow_right₀ (by norm_num) (emin_le r)
    have := mul_le_mul this h2 (ulp_pos _).le (by linarith)
    rw [one_mul, ← hrz] at this
    exact_mod_cast this
  have hul : u ≤ Int.log 2 r := by rw [hu]; unfold ulpExp; omega
  have hlt := lt_log (x := r)
  have hle : r + 2 ^ u ≤ 2 ^ (Int.log 2 r + 1) := by
    rw [zpow_split (show u ≤ Int.log 2 r + 1 by omega)] at hlt ⊢
    have h1 : (z : ℝ) < ((2 ^ (Int.log 2 r + 1 - u).toNat : ℤ) : ℝ) := by
      by_contra hc
      have := mul_le_mul_of_nonneg_right (not_lt.mp hc) (ulp_pos u).le
      rw [← hrz] at this
      linarith
    have h2 : (z : ℝ) + 1 ≤ ((2 ^ (Int.log 2 r + 1 - u).toNat : ℤ) : ℝ) := by exact_mod_cast h1
    have := mul_le_mul_of_nonneg_right h2 (ulp_pos u).le
    rw [add_mul, one_mul, ← hrz] at this
    exact this
  rcases hle.eq_or_lt with e | hlt'
  · rw [e]
    exact near_pow hp (by omega)
  · have hs : 0 < r + 2 ^ u := add_pos h0 (ulp_pos u)
    have hl : Int.log 2 (r + 2 ^ u) = Int.log 2 r := by
      have h1 : Int.log 2 r ≤ Int.log 2 (r + 2 ^ u) := Int.log_mono_right h0 (by linarith [ulp_pos u])
      have h2 : Int.log 2 (r + 2 ^ u) < Int.log 2 r + 1 := by
        rw [← Int.lt_zpow_iff_log_lt (b := 2) (by norm_num) hs]
        exact_mod_cast hlt'
      omega
    have he : ulpExp p emin (r + 2 ^ u) = u := by
      have : ulpExp p emin (r + 2 ^ u) = max (Int.log 2 (r + 2 ^ u) - ((p : ℤ) - 1)) emin := rfl
      rw [this, hl]; rfl
    refine near_of_mul (z + 1) ?_
    rw [he]
    push_cast
    rw [add_mul, one_mul, ← hrz]

/-- The formats of IEEE 754 are spaced. -/
theorem spaced (hp : 1 ≤ p) (fma : Bool) : (format p hp emin emax fma).Spaced := by
  intro r y d hr hy hd h0 hry hyd
  have hd0 : 0 < d := lt_of_le_of_lt (h0.trans hry) hyd
  obtain ⟨hr1, -⟩ := (num_iff hp fma h0).mp hr
  obtain ⟨hy1, -⟩ := (num_iff hp fma (h0.trans hry)).mp hy
  obtain ⟨hd1, -⟩ := (num_iff hp fma hd0.le).mp hd
  -- the sum is at least the next number
  have key : ∃ s, r < s ∧ near p emin s = s ∧ s ≤ r + (d - y) := by
    rcases h0.eq_or_lt with rfl | hr0
    · obtain ⟨a, ha⟩ := num_int hp fma hy
      obtain ⟨b, hb⟩ := num_int hp fma hd
      refine ⟨2 ^ emin, ulp_pos _, near_pow hp le_rfl, ?_⟩
      have hab : a < b := by
        by_contra hc
        have : (b : ℝ) ≤ a := by exact_mod_cast not_lt.mp hc
        have := mul_le_mul_of_nonneg_right this (ulp_pos emin).le
        linarith
      have : (a : ℝ) + 1 ≤ b := by exact_mod_cast hab
      have := mul_le_mul_of_nonneg_right this (ulp_pos emin).le
      rw [add_mul, one_mul] at this
      linarith
    · refine ⟨r + 2 ^ ulpExp p emin r, by linarith [ulp_pos (ulpExp p emin r)], near_succ hp hr0 hr1, ?_⟩
      have hy0 : 0 < y := lt_of_lt_of_le hr0 hry
      obtain ⟨a, e1⟩ := mul_of_le hy1 (ulpExp_mono hr0 hry)
      obtain ⟨b, e2⟩ := mul_of_le hd1 (ulpExp_mono hr0 (hry.trans hyd.le))
      have hab : a < b := by
        by_contra hc
        have : (b : ℝ) ≤ a := by exact_mod_cast not_lt.mp hc
        have := mul_le_mul_of_nonneg_right this (ulp_pos (ulpExp p emin r)).le
        linarith
      have : (a : ℝ) + 1 ≤ b := by exact_mod_cast hab
      have := mul_le_mul_of_nonneg_right this (ulp_pos (ulpExp p emin r)).le
      rw [add_mul, one_mul] at this
      linarith
  obtain ⟨s, hs1, hs2, hs3⟩ := key
  have hs0 : 0 ≤ s := h0.trans hs1.le
  have hn := near_mono (emin := emin) hp hs0 hs3
  rw [hs2] at hn
  show _ < rnd p emin emax (r + (d - y))
  unfold rnd pos
  rw [if_pos (hs0.trans hs3)]
  split_ifs
  · exact EReal.coe_lt_coe_iff.mpr (lt_of_lt_of_le hs1 hn)
  · exact EReal.coe_lt_top r

end Ieee

end ArborX.Fp
