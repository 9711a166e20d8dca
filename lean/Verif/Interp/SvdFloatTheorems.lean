import Verif.Interp.SvdFloatMeasure

/-!
# C99: the singular value decomposition of the interpolation ends in floating-point arithmetic
-/

namespace ArborX.Fp

open Nearest

variable {n : ℕ} {F : Format} {u η : ℝ}

namespace Ieee

variable {p : ℕ} {emin emax : ℤ}

lemma near_err_all {x : ℝ} (hx : 0 ≤ x) : |near p emin x - x| ≤ 2 ^ (-(p : ℤ)) * x + 2 ^ (emin - 1) := by
  rcases hx.eq_or_lt with rfl | h0
  · rw [near_zero]; simp; positivity
  have e : near p emin x - x = (roundEven (x / 2 ^ ulpExp p emin x) - x / 2 ^ ulpExp p emin x) * 2 ^ ulpExp p emin x := by
    unfold near
    rw [sub_mul, div_mul_cancel₀ _ (ulp_pos _).ne']
  rw [e, abs_mul, abs_of_pos (ulp_pos _)]
  have h1 : 1 / 2 * (2 : ℝ) ^ (Int.log 2 x - ((p : ℤ) - 1)) ≤ 2 ^ (-(p : ℤ)) * x := by
    calc 1 / 2 * (2 : ℝ) ^ (Int.log 2 x - ((p : ℤ) - 1)) = 2 ^ (-(p : ℤ)) * 2 ^ Int.log 2 x := by
          rw [← zpow_add₀ (by norm_num), show -(p : ℤ) + Int.log 2 x = (-1) + (Int.log 2 x - ((p : ℤ) - 1)) by ring, zpow_add₀ (by norm_num)]
          norm_num
      _ ≤ _ := mul_le_mul_of_nonneg_left (log_le h0) (ulp_pos _).le
  have h2 : 1 / 2 * (2 : ℝ) ^ emin = 2 ^ (emin - 1) := by rw [zpow_sub₀ (by norm_num)]; norm_num; ring
  have h3 := ulp_pos (emin - 1)
  have h4 : (0 : ℝ) ≤ 2 ^ (-(p : ℤ)) * x := mul_nonneg (ulp_pos _).le hx
  calc _ ≤ 1 / 2 * (2 : ℝ) ^ ulpExp p emin x := mul_le_mul_of_nonneg_right (roundEven_err _) (ulp_pos _).le
    _ ≤ _ := by
      unfold ulpExp
      rcases le_total (Int.log 2 x - ((p : ℤ) - 1)) emin with h | h
      · rw [max_eq_right h]; linarith
      · rw [max_eq_left h]; linarith

/-- The formats of IEEE 754 round as the theorem below requires. -/
theorem close (hp : 10 ≤ p) (h1 : emin + p ≤ -3) (h2 : 4 ≤ emax) (fma : Bool) :
    (Ieee.format p (by omega) emin emax fma).Close (2 ^ (-(p : ℤ))) (2 ^ (emin - 1)) where
  u0 := by positivity
  u1 := by
    calc (2 : ℝ) ^ (-(p : ℤ)) ≤ 2 ^ (-10 : ℤ) := zpow_le_zpow_right₀ (by norm_num) (by omega)
      _ ≤ 1 / 1000 := by norm_num
  η0 := by positivity
  η1 := by
    calc (2 : ℝ) ^ (emin - 1) ≤ 2 ^ (-(p : ℤ) + -4) := zpow_le_zpow_right₀ (by norm_num) (by omega)
      _ = 2 ^ (-(p : ℤ)) * (1 / 16) := by rw [zpow_add₀ (by norm_num)]; norm_num
      _ ≤ _ := by have := ulp_pos (-(p : ℤ)); linarith
  one := by
    show rnd p emin emax 1 = _
    have e : near p emin 1 = 1 := by
      have := near_pow (p := p) (emin := emin) (by omega) (a := 0) (by omega)
      simpa using this
    unfold rnd pos
    rw [if_pos zero_le_one, e, if_pos]
    calc (1 : ℝ) < 2 ^ (4 : ℤ) := by norm_num
      _ ≤ _ := zpow_le_zpow_right₀ (by norm_num) h2
  small := by
    have key : ∀ x : ℝ, 0 ≤ x → x ≤ 8 → pos p emin emax x = (near p emin x : EReal) := by
      intro x h0 h8
      unfold pos
      rw [if_pos]
      have e : near p emin 8 = 8 := by
        have := near_pow (p := p) (emin := emin) (by omega) (a := 3) (by omega)
        norm_num at this
        exact this
      calc near p emin x ≤ near p emin 8 := near_mono (by omega) h0 h8
        _ = 8 := e
        _ < 2 ^ (4 : ℤ) := by norm_num
        _ ≤ _ := zpow_le_zpow_right₀ (by norm_num) h2
    intro x hx
    show ∃ y : ℝ, rnd p emin emax x = y
    unfold rnd
    split_ifs with h
    · exact ⟨_, key x h (by rwa [abs_of_nonneg h] at hx)⟩
    · push Not at h
      rw [abs_of_neg h] at hx
      exact ⟨-near p emin (-x), by rw [key (-x) (by linarith) hx, EReal.coe_neg]⟩
  err := by
    have key : ∀ x y : ℝ, 0 ≤ x → pos p emin emax x = y → y = near p emin x := by
      intro x y _ h
      unfold pos at h
      split_ifs at h
      · exact_mod_cast h.symm
      · exact absurd h.symm (EReal.coe_ne_top y)
    intro x y h
    have h : rnd p emin emax x = y := h
    unfold rnd at h
    split_ifs at h with hx
    · rw [key x y hx h, abs_of_nonneg hx]
      exact near_err_all hx
    · push Not at hx
      have h' : pos p emin emax (-x) = ((-y : ℝ) : EReal) := by rw [EReal.coe_neg, ← h, neg_neg]
      have e := key (-x) (-y) (by linarith) h'
      rw [abs_of_neg hx]
      have := near_err_all (p := p) (emin := emin) (by linarith : 0 ≤ -x)
      rw [← e] at this
      rw [← abs_neg]
      convert this using 2
      ring

end Ieee

/-- The loop ends. -/
lemma svdLoop_ends (hF : F.Close u η) (bit : Num → Num → Num → Bool) {eps : ℝ} (heps : 0 < eps) (hn : 320 * u * (n : ℝ) ^ 2 ≤ 1 / 2)
    (hη : 256 * n * (η * η) / u ≤ eps ^ 2 / 2) : ∀ (μ : ℕ × ℕ × ℕ) (A U : NMat n), measure eps (nsym A) = μ →
      ∃ R k, ∀ fuel, k ≤ fuel → F.svdLoop bit eps fuel A U = some R ∧ ∀ i j, i < j → ∀ x, R.1 i j = some x → -eps ≤ x ∧ x ≤ eps := by
  intro μ
  induction μ using less_wf.induction with
  | _ μ ih =>
    intro A U hA
    obtain ⟨m, h1, h2, h3, h4, h5⟩ := nargmax_spec A
    by_cases hstop : nanLe (nargmax A).1 (some (eps : EReal)) = true
    · refine ⟨(A, U), 1, fun fuel hf => ?_⟩
      obtain ⟨f, rfl⟩ : ∃ f, fuel = f + 1 := ⟨fuel - 1, by omega⟩
      refine ⟨by rw [Format.svdLoop, if_pos hstop], fun i j hij x hx => ?_⟩
      rw [h1] at hstop
      have hme : m ≤ eps := by simpa [nanLe] using hstop
      have hx' : nabs (nsym A i j) = some (max x (-x)) := by rw [nsym_lt A hij, show A i j = some x from hx]; rfl
      have := (h3 i j hij.ne _ hx').trans hme
      exact ⟨by have := EReal.neg_le_neg_iff.2 ((le_max_right _ _).trans this); rwa [neg_neg] at this, (le_max_left _ _).trans this⟩
    · have hlt : (eps : EReal) < m := by
        rw [h1] at hstop
        have : ¬ m ≤ eps := by simpa [nanLe] using hstop
        exact not_le.1 this
      cases e : (nargmax A).2 with
      | none =>
        rw [h5 e] at hlt
        exact absurd hlt (not_lt.2 (by exact_mod_cast heps.le))
      | some pq =>
        obtain ⟨p, q⟩ := pq
        obtain ⟨hb, hpq⟩ := h4 p q e
        have hless := measure_step hF bit heps hn hη (nsym_comm A) hpq.ne (rotateA_nsym F bit p q hpq A) hb hlt h3
        rw [hA] at hless
        obtain ⟨R, k, hR⟩ := ih _ hless (F.rotateA bit p q A) (F.rotateU p q (F.cos (F.tan bit (A p p) (A p q) (A q q))) (F.sin (F.tan bit (A p p) (A p q) (A q q))) U) rfl
        refine ⟨R, k + 1, fun fuel hf => ?_⟩
        obtain ⟨f, rfl⟩ : ∃ f, fuel = f + 1 := ⟨fuel - 1, by omega⟩
        refine ⟨?_, (hR f (by omega)).2⟩
        rw [Format.svdLoop, if_neg hstop, e]
        exact (hR f (by omega)).1

/-- **C99.** The singular value decomposition of the interpolation ends, for every matrix of floating-point numbers, infinities and NaN included, whether or not the compiler
contracts sums of products and whatever the signs of zeros and NaN: from some number of iterations on, the result does not depend on the number of iterations allowed. The
rounding errors must be small against the size of the matrix and the tolerance. -/
theorem svd_float_ends (hF : F.Close u η) (bit : Num → Num → Num → Bool) {eps : ℝ} (heps : 0 < eps) (hn : 320 * u * (n : ℝ) ^ 2 ≤ 1 / 2)
    (hη : 256 * n * (η * η) / u ≤ eps ^ 2 / 2) (A : NMat n) : ∃ R k, ∀ fuel, k ≤ fuel → F.svd bit eps fuel A = some R := by
  obtain ⟨R, k, h⟩ := svdLoop_ends hF bit heps hn hη _ A (fun i j => if i = j then some 1 else some 0) rfl
  exact ⟨_, k, fun fuel hf => by rw [Format.svd, (h fuel hf).1, Option.map_some]⟩

/-- **C99** for `float`, with its tolerance `2 ^ -23` and matrices of up to 150 rows (the interpolation of degree at most three in three dimensions has 20). -/
theorem svd_float32_ends (fma : Bool) (bit : Num → Num → Num → Bool) (hn : n ≤ 150) (A : NMat n) :
    ∃ R k, ∀ fuel, k ≤ fuel → (Ieee.float fma).svd bit (2 ^ (-23 : ℤ)) fuel A = some R := by
  have hn' : (n : ℝ) ≤ 150 := by exact_mod_cast hn
  have hn0 : (0 : ℝ) ≤ n := Nat.cast_nonneg n
  refine svd_float_ends (u := 2 ^ (-(24 : ℕ) : ℤ)) (η := 2 ^ ((-149 : ℤ) - 1)) (Ieee.close (by norm_num) (by norm_num) (by norm_num) fma) bit (by positivity) ?_ ?_ A
  · calc 320 * (2 : ℝ) ^ (-(24 : ℕ) : ℤ) * (n : ℝ) ^ 2 ≤ 320 * (2 : ℝ) ^ (-(24 : ℕ) : ℤ) * 150 ^ 2 :=
          mul_le_mul_of_nonneg_left (pow_le_pow_left₀ hn0 hn' 2) (by positivity)
      _ ≤ 1 / 2 := by norm_num
  · calc 256 * (n : ℝ) * ((2 : ℝ) ^ ((-149 : ℤ) - 1) * 2 ^ ((-149 : ℤ) - 1)) / 2 ^ (-(24 : ℕ) : ℤ)
        = (n : ℝ) * (256 * ((2 : ℝ) ^ ((-149 : ℤ) - 1) * 2 ^ ((-149 : ℤ) - 1)) / 2 ^ (-(24 : ℕ) : ℤ)) := by ring
      _ ≤ 150 * (256 * ((2 : ℝ) ^ ((-149 : ℤ) - 1) * 2 ^ ((-149 : ℤ) - 1)) / 2 ^ (-(24 : ℕ) : ℤ)) := mul_le_mul_of_nonneg_right hn' (by positivity)
      _ ≤ _ := by norm_num

/-- **C99** for `double`, with its tolerance `2 ^ -52` and matrices of up to 1000 rows. -/
theorem svd_float64_ends (fma : Bool) (bit : Num → Num → Num → Bool) (hn : n ≤ 1000) (A : NMat n) :
    ∃ R k, ∀ fuel, k ≤ fuel → (Ieee.double fma).svd bit (2 ^ (-52 : ℤ)) fuel A = some R := by
  have hn' : (n : ℝ) ≤ 1000 := by exact_mod_cast hn
  have hn0 : (0 : ℝ) ≤ n := Nat.cast_nonneg n
  refine svd_float_ends (u := 2 ^ (-(53 : ℕ) : ℤ)) (η := 2 ^ ((-1074 : ℤ) - 1)) (Ieee.close (by norm_num) (by norm_num) (by norm_num) fma) bit (by positivity) ?_ ?_ A
  · calc 320 * (2 : ℝ) ^ (-(53 : ℕ) : ℤ) * (n : ℝ) ^ 2 ≤ 320 * (2 : ℝ) ^ (-(53 : ℕ) : ℤ) * 1000 ^ 2 :=
          mul_le_mul_of_nonneg_left (pow_le_pow_left₀ hn0 hn' 2) (by positivity)
      _ ≤ 1 / 2 := by norm_num
  · calc 256 * (n : ℝ) * ((2 : ℝ) ^ ((-1074 : ℤ) - 1) * 2 ^ ((-1074 : ℤ) - 1)) / 2 ^ (-(53 : ℕ) : ℤ)
        = (n : ℝ) * (256 * ((2 : ℝ) ^ ((-1074 : ℤ) - 1) * 2 ^ ((-1074 : ℤ) - 1)) / 2 ^ (-(53 : ℕ) : ℤ)) := by ring
      _ ≤ 1000 * (256 * ((2 : ℝ) ^ ((-1074 : ℤ) - 1) * 2 ^ ((-1074 : ℤ) - 1)) / 2 ^ (-(53 : ℕ) : ℤ)) := mul_le_mul_of_nonneg_right hn' (by positivity)
      _ = 256000 * (2 : ℝ) ^ (-2097 : ℤ) := by
          rw [← zpow_add₀ (by norm_num), mul_div_assoc, ← zpow_sub₀ (by norm_num), ← mul_assoc]
          norm_num
      _ ≤ 256000 * (2 : ℝ) ^ (-124 : ℤ) := mul_le_mul_of_nonneg_left (zpow_le_zpow_right₀ (by norm_num) (by norm_num)) (by norm_num)
      _ ≤ _ := by norm_num

/-- The loop does not end at once for a matrix with infinite entries, and it ends. -/
example : (Ieee.float true).svd (n := 2) (fun _ _ _ => false) (2 ^ (-23 : ℤ)) 1 (fun i j => if i = j then some 1 else some ⊤) = none ∧
    ∃ R k, ∀ fuel, k ≤ fuel → (Ieee.float true).svd (n := 2) (fun _ _ _ => false) (2 ^ (-23 : ℤ)) fuel (fun i j => if i = j then some 1 else some ⊤) = some R := by
  refine ⟨?_, svd_float32_ends true _ (by norm_num) _⟩
  have hu : Interp.upperTriangle 2 = [(0, 1)] := by decide
  have hm : nargmax (n := 2) (fun i j => if i = j then some 1 else some ⊤) = (some ⊤, some (0, 1)) := by
    rw [nargmax, hu]
    simp [nargmaxStep, nabs, nanLt]
  rw [Format.svd, Format.svdLoop, hm]
  simp [nanLe, Format.svdLoop]

/-- A matrix with a NaN. -/
example : ∃ R k, ∀ fuel, k ≤ fuel → (Ieee.double false).svd (n := 3) (fun _ _ _ => true) (2 ^ (-52 : ℤ)) fuel
    (fun i j => if i = 2 ∨ j = 2 then none else if i = j then some 1 else some 2) = some R := svd_float64_ends false _ (by norm_num) _

end ArborX.Fp
