import Verif.Interp.SvdFloatNum

/-!
# Accuracy of the symmetric singular value decomposition in floating-point arithmetic: single numbers
-/

namespace ArborX.Fp

open Nearest

/-- As `Close`, and numbers up to `H` do not overflow. -/
structure Format.Wide (F : Format) (u η H : ℝ) : Prop where
  close : F.Close u η
  wide : ∀ x : ℝ, |x| ≤ H → ∃ y : ℝ, F.rnd x = y

variable {F : Format} {u η H : ℝ}

/-- `x` is the positive number `X` up to the relative error `k u`. -/
def Near (u k X x : ℝ) : Prop := X * (1 - k * u) ≤ x ∧ x ≤ X * (1 + k * u)

lemma near_pos (hu : u ≤ 1 / 1000) {k X x : ℝ} (h : Near u k X x) (hk : k ≤ 20) (hu0 : 0 < u) (hX : 0 < X) : X * (98 / 100) ≤ x ∧ x ≤ X * (102 / 100) := by
  have hku : k * u ≤ 20 * (1 / 1000) := mul_le_mul hk hu hu0.le (by norm_num)
  exact ⟨(mul_le_mul_of_nonneg_left (by linarith) hX.le).trans h.1, h.2.trans (mul_le_mul_of_nonneg_left (by linarith) hX.le)⟩

lemma near_round (hF : F.Wide u η H) {k X x : ℝ} (hX : 0 < X) (hk : k ≤ 20) (hk0 : 0 ≤ k) (h : Near u k X x) (hH : X * (102 / 100) ≤ H) (hη : η ≤ u * (X * (98 / 100))) :
    ∃ y : ℝ, F.rnd x = y ∧ Near u (k + 3) X y := by
  have hu0 := hF.close.u0
  have hu1 := hF.close.u1
  obtain ⟨l, r⟩ := near_pos hu1 h hk hu0 hX
  have hx0 : 0 < x := lt_of_lt_of_le (by positivity) l
  obtain ⟨y, hy⟩ := hF.wide x (by rw [abs_of_pos hx0]; linarith)
  refine ⟨y, hy, ?_⟩
  have e := abs_le.1 (hF.close.err _ _ hy)
  rw [abs_of_pos hx0] at e
  have hux : u * (X * (98 / 100)) ≤ u * x := mul_le_mul_of_nonneg_left l hu0.le
  have h1 : x * (1 - 2 * u) ≤ y := by linarith
  have h2 : y ≤ x * (1 + 2 * u) := by linarith
  constructor
  · have := mul_le_mul_of_nonneg_right h.1 (by linarith : 0 ≤ 1 - 2 * u)
    have e : X * (1 - k * u) * (1 - 2 * u) = X * (1 - (k + 3) * u) + X * u + X * (2 * k * u * u) := by ring
    have p1 : 0 ≤ X * u := by positivity
    have p2 : 0 ≤ X * (2 * k * u * u) := by positivity
    linarith
  · have := mul_le_mul_of_nonneg_right h.2 (by linarith : 0 ≤ 1 + 2 * u)
    have e : X * (1 + k * u) * (1 + 2 * u) = X * (1 + (k + 3) * u) - X * (u * (1 - 2 * k * u)) := by ring
    have hku : k * u ≤ 20 * (1 / 1000) := mul_le_mul hk hu1 hu0.le (by norm_num)
    have p1 : 0 ≤ X * (u * (1 - 2 * k * u)) := mul_nonneg hX.le (mul_nonneg hu0.le (by linarith))
    linarith

lemma near_sqrt (hu0 : 0 < u) {k X x : ℝ} (hX : 0 < X) (hk0 : 0 ≤ k) (hk : k * u ≤ 1) (h : Near u k X x) : Near u k (Real.sqrt X) (Real.sqrt x) := by
  have hku : 0 ≤ k * u := mul_nonneg hk0 hu0.le
  have hs := Real.sqrt_nonneg X
  have hss := Real.mul_self_sqrt hX.le
  constructor
  · refine Real.le_sqrt_of_sq_le ?_
    calc (Real.sqrt X * (1 - k * u)) ^ 2 = Real.sqrt X * Real.sqrt X * ((1 - k * u) * (1 - k * u)) := by ring
      _ = X * ((1 - k * u) * (1 - k * u)) := by rw [hss]
      _ ≤ X * (1 * (1 - k * u)) := mul_le_mul_of_nonneg_left (mul_le_mul_of_nonneg_right (by linarith) (by linarith)) hX.le
      _ = X * (1 - k * u) := by ring
      _ ≤ x := h.1
  · refine Real.sqrt_le_iff.2 ⟨mul_nonneg hs (by linarith), h.2.trans ?_⟩
    calc X * (1 + k * u) = X * (1 * (1 + k * u)) := by ring
      _ ≤ X * ((1 + k * u) * (1 + k * u)) := mul_le_mul_of_nonneg_left (mul_le_mul_of_nonneg_right (by linarith) (by linarith)) hX.le
      _ = Real.sqrt X * Real.sqrt X * ((1 + k * u) * (1 + k * u)) := by rw [hss]
      _ = _ := by ring

lemma near_inv (hu0 : 0 < u) (hu1 : u ≤ 1 / 1000) {k X x : ℝ} (hX : 0 < X) (hk0 : 0 ≤ k) (hk : k ≤ 20) (h : Near u k X x) : Near u (k + 1) (1 / X) (1 / x) := by
  have hku0 : 0 ≤ k * u := mul_nonneg hk0 hu0.le
  have hku : k * u ≤ 20 * (1 / 1000) := mul_le_mul hk hu1 hu0.le (by norm_num)
  have hx0 : 0 < x := lt_of_lt_of_le (by positivity) (near_pos hu1 h hk hu0 hX).1
  constructor
  · rw [le_div_iff₀ hx0, div_mul_eq_mul_div, one_mul, div_mul_eq_mul_div, div_le_one hX]
    have h1 := mul_le_mul_of_nonneg_left h.2 (by linarith : 0 ≤ 1 - (k + 1) * u)
    have h2 : (1 - (k + 1) * u) * (X * (1 + k * u)) = X - X * (u + (k + 1) * u * (k * u)) := by ring
    have h3 : 0 ≤ X * (u + (k + 1) * u * (k * u)) := by positivity
    linarith
  · rw [div_le_iff₀ hx0, div_mul_eq_mul_div, one_mul, div_mul_eq_mul_div, le_div_iff₀ hX, one_mul]
    have h1 := mul_le_mul_of_nonneg_left h.1 (by nlinarith : 0 ≤ 1 + (k + 1) * u)
    have h2 : (1 + (k + 1) * u) * (X * (1 - k * u)) = X + X * (u * (1 - (k + 1) * (k * u))) := by ring
    have h4 : (k + 1) * (k * u) ≤ 21 * (20 * (1 / 1000)) := mul_le_mul (by linarith) hku hku0 (by norm_num)
    have h3 : 0 ≤ X * (u * (1 - (k + 1) * (k * u))) := mul_nonneg hX.le (mul_nonneg hu0.le (by linarith))
    linarith

lemma near_add (hu0 : 0 < u) {k X x Y : ℝ} (hY : 0 ≤ Y) (hk0 : 0 ≤ k) (h : Near u k X x) : Near u k (Y + X) (Y + x) := by
  have := mul_nonneg hY (mul_nonneg hk0 hu0.le)
  obtain ⟨h1, h2⟩ := h
  constructor <;> linarith

/-- `sqrt(1 + t * t)`. -/
lemma hypot_near (hF : F.Wide u η H) {t : ℝ} (hH : 2 * (1 + t * t) ≤ H) :
    ∃ r : ℝ, F.nsqrt (F.nmac (some 1) (some (t : EReal)) (some (t : EReal))) = some (r : EReal) ∧ Near u 7 (Real.sqrt (1 + t * t)) r := by
  have hu0 := hF.close.u0
  have hu1 := hF.close.u1
  have hη := hF.close.η0
  have hη1 := hF.close.η1
  have ht0 : 0 ≤ t * t := mul_self_nonneg t
  have hX : 0 < 1 + t * t := by linarith
  have h1 : (some (1 : EReal) : Num) = some ((1 : ℝ) : EReal) := rfl
  have huX : u * 1 ≤ u * (1 + t * t) := mul_le_mul_of_nonneg_left (by linarith) hu0.le
  have hw : ∃ w : ℝ, F.nmac (some 1) (some (t : EReal)) (some (t : EReal)) = some (w : EReal) ∧ Near u 4 (1 + t * t) w := by
    by_cases hf : F.fma = true
    · rw [h1, nmac_real_fma F hf]
      obtain ⟨w, hw, hN⟩ := near_round hF (k := 1) hX (by norm_num) (by norm_num) (x := 1 + t * t) ⟨by nlinarith, by nlinarith⟩ (by linarith) (by linarith)
      exact ⟨w, by rw [hw], by norm_num at hN; exact hN⟩
    · rw [h1, Format.nmac, if_neg hf, nmul_real]
      obtain ⟨q, hq⟩ := hF.wide (t * t) (by rw [abs_of_nonneg ht0]; linarith)
      have e1 := hF.close.err _ _ hq
      rw [abs_of_nonneg ht0] at e1
      have e1' := abs_le.1 e1
      rw [hq, nadd_real]
      obtain ⟨w, hw, hN⟩ := near_round hF (k := 1) hX (by norm_num) (by norm_num) (x := 1 + q) ⟨by linarith, by linarith⟩ (by linarith) (by linarith)
      exact ⟨w, by rw [hw], by norm_num at hN; exact hN⟩
  obtain ⟨w, hw, hN⟩ := hw
  have hs1 : 1 ≤ Real.sqrt (1 + t * t) := Real.one_le_sqrt.2 (by linarith)
  have hs2 : Real.sqrt (1 + t * t) ≤ 1 + t * t := by
    rw [Real.sqrt_le_left hX.le]
    nlinarith
  have hN' := near_sqrt hu0 hX (by norm_num) (by linarith) hN
  have hus : u * 1 ≤ u * Real.sqrt (1 + t * t) := mul_le_mul_of_nonneg_left hs1 hu0.le
  obtain ⟨r, hr, hR⟩ := near_round hF (by linarith) (by norm_num) (by norm_num) hN' (by linarith) (by linarith)
  refine ⟨r, ?_, by norm_num at hR; exact hR⟩
  have hw0 := (near_pos hu1 hN (by norm_num) hu0 hX).1
  rw [hw]
  simp only [Format.nsqrt]
  rw [if_neg (by simpa using (by linarith : (0 : ℝ) ≤ w)), Format.sqrt, if_neg (by simp), EReal.toReal_coe, hr]

lemma ndiv_one (F : Format) {r : ℝ} (hr : r ≠ 0) : F.ndiv (some 1) (some (r : EReal)) = some (F.rnd (1 / r)) := by
  have hr0' : ((r : ℝ) : EReal) ≠ 0 := by exact_mod_cast hr
  simp only [Format.ndiv, exDiv]
  rw [if_neg hr0', if_neg (by rintro ⟨_, h | h⟩ <;> simp at h)]
  have e1 : (1 : EReal) / (r : EReal) = ((1 / r : ℝ) : EReal) := by rw [EReal.coe_div]; rfl
  rw [e1, Option.map_some, round_real]

lemma ndiv_real (F : Format) {x r : ℝ} (hr : r ≠ 0) : F.ndiv (some (x : EReal)) (some (r : EReal)) = some (F.rnd (x / r)) := by
  have hr0' : ((r : ℝ) : EReal) ≠ 0 := by exact_mod_cast hr
  simp only [Format.ndiv, exDiv]
  rw [if_neg hr0', if_neg (by rintro ⟨_, h | h⟩ <;> simp at h), ← EReal.coe_div, Option.map_some, round_real]

lemma nsub_real (F : Format) (x y : ℝ) : F.nsub (some (x : EReal)) (some (y : EReal)) = some (F.rnd (x - y)) := by
  simp [Format.nsub]

/-- The computed cosine and sine against those of the computed tangent. -/
lemma cos_sin_err (hF : F.Wide u η H) (hH : 8 ≤ H) {t : ℝ} (ht : |t| ≤ 1) :
    ∃ c s : ℝ, F.cos (some (t : EReal)) = some (c : EReal) ∧ F.sin (some (t : EReal)) = some (s : EReal) ∧
      |c - 1 / Real.sqrt (1 + t * t)| ≤ 11 * u ∧ |s - -t * (1 / Real.sqrt (1 + t * t))| ≤ 13 * u := by
  have hu0 := hF.close.u0
  have hu1 := hF.close.u1
  have hη := hF.close.η0
  have hη1 := hF.close.η1
  have ht0 : 0 ≤ t * t := mul_self_nonneg t
  have ht1 : t * t ≤ 1 := by
    have := mul_self_le_mul_self (abs_nonneg t) ht
    rwa [abs_mul_abs_self, one_mul] at this
  obtain ⟨r, hr, hN⟩ := hypot_near hF (t := t) (by linarith)
  have hs1 : 1 ≤ Real.sqrt (1 + t * t) := Real.one_le_sqrt.2 (by linarith)
  have hs2 : Real.sqrt (1 + t * t) ≤ 2 := by
    rw [Real.sqrt_le_left (by norm_num)]
    linarith
  have hi1 : 1 / Real.sqrt (1 + t * t) ≤ 1 := by rw [div_le_one (by linarith)]; exact hs1
  have hi2 : 1 / 2 ≤ 1 / Real.sqrt (1 + t * t) := one_div_le_one_div_of_le (by linarith) hs2
  have hN' := near_inv hu0 hu1 (by linarith) (by norm_num) (by norm_num) hN
  have hui : u * (1 / 2) ≤ u * (1 / Real.sqrt (1 + t * t)) := mul_le_mul_of_nonneg_left hi2 hu0.le
  obtain ⟨c, hc, hC⟩ := near_round hF (by linarith) (by norm_num) (by norm_num) hN' (by linarith) (by linarith)
  have hr0 : r ≠ 0 := by
    have := (near_pos hu1 hN (by norm_num) hu0 (by linarith)).1
    linarith
  have hcos : F.cos (some (t : EReal)) = some (c : EReal) := by rw [Format.cos, Format.nrsqrt, hr, ndiv_one F hr0, hc]
  generalize 1 / Real.sqrt (1 + t * t) = C at *
  have hui2 : u * C ≤ u * 1 := mul_le_mul_of_nonneg_left hi1 hu0.le
  have hcC : |c - C| ≤ 11 * u := by
    rw [abs_le]
    obtain ⟨h1, h2⟩ := hC
    constructor <;> linarith
  have hc2 : |c| ≤ 102 / 100 := by
    have : |c| ≤ |c - C| + |C| := by
      calc |c| = |(c - C) + C| := by rw [sub_add_cancel]
        _ ≤ _ := abs_add_le _ _
    rw [abs_of_pos (by linarith : 0 < C)] at this
    linarith
  have htc : |t * c| ≤ 102 / 100 := by
    rw [abs_mul]
    calc |t| * |c| ≤ 1 * |c| := mul_le_mul_of_nonneg_right ht (abs_nonneg c)
      _ ≤ _ := by linarith
  obtain ⟨s, hs⟩ := hF.wide (-t * c) (by rw [neg_mul, abs_neg]; linarith)
  have es := hF.close.err _ _ hs
  have hsin : F.sin (some (t : EReal)) = some (s : EReal) := by rw [Format.sin, hcos, nneg_real, nmul_real, hs]
  refine ⟨c, s, hcos, hsin, hcC, ?_⟩
  have h1 : |s - -t * C| ≤ |s - -t * c| + |t| * |c - C| := by
    have : s - -t * C = (s - -t * c) + -t * (c - C) := by ring
    rw [this]
    refine (abs_add_le _ _).trans (add_le_add le_rfl ?_)
    rw [abs_mul, abs_neg]
  have h2 : |t| * |c - C| ≤ 1 * (11 * u) := mul_le_mul ht hcC (abs_nonneg _) (by norm_num)
  rw [neg_mul, abs_neg] at es
  have h3 : u * |t * c| ≤ u * (102 / 100) := mul_le_mul_of_nonneg_left htc hu0.le
  have e : s - -(t * c) = s - -t * c := by ring
  rw [e] at es
  linarith

/-- `1 / (|tau| + sqrt(1 + tau * tau))`. -/
lemma tan_near (hF : F.Wide u η H) {T P : ℝ} (hP : 1 ≤ P) (hT : |T| ≤ 12 / 10 * P) (hH : 100 * (P * P) ≤ H) (hη : 100 * P * η ≤ u) :
    ∃ s : ℝ, F.ndiv (some 1) (F.nadd (nabs (some (T : EReal))) (F.nsqrt (F.nmac (some 1) (some (T : EReal)) (some (T : EReal))))) = some (s : EReal) ∧
      Near u 14 (1 / (|T| + Real.sqrt (1 + T * T))) s := by
  have hu0 := hF.close.u0
  have hu1 := hF.close.u1
  have hη0 := hF.close.η0
  have hTT : T * T ≤ 144 / 100 * (P * P) := by
    have := mul_self_le_mul_self (abs_nonneg T) hT
    rw [abs_mul_abs_self] at this
    linarith
  have hPP : P ≤ P * P := by nlinarith
  have hT0 := abs_nonneg T
  have ht0 : 0 ≤ T * T := mul_self_nonneg T
  obtain ⟨r, hr, hN⟩ := hypot_near hF (t := T) (by linarith)
  have hR1 : 1 ≤ Real.sqrt (1 + T * T) := Real.one_le_sqrt.2 (by linarith)
  have hR2 : Real.sqrt (1 + T * T) ≤ 1 + |T| := by
    rw [Real.sqrt_le_left (by linarith)]
    have := abs_mul_abs_self T
    nlinarith
  have hN1 := near_add hu0 hT0 (by norm_num) hN
  have hV1 : 1 ≤ |T| + Real.sqrt (1 + T * T) := by linarith
  have hV2 : |T| + Real.sqrt (1 + T * T) ≤ 34 / 10 * P := by linarith
  generalize |T| + Real.sqrt (1 + T * T) = V at *
  have huV : u * 1 ≤ u * V := mul_le_mul_of_nonneg_left hV1 hu0.le
  have hηP : 100 * 1 * η ≤ 100 * P * η := by nlinarith
  obtain ⟨v, hv, hNv⟩ := near_round hF (by linarith) (by norm_num) (by norm_num) hN1 (by linarith) (by linarith)
  have hNi := near_inv hu0 hu1 (by linarith) (by norm_num) (by norm_num) hNv
  have hi1 : 1 / V ≤ 1 := by rw [div_le_one (by linarith)]; exact hV1
  have hi0 : 0 < 1 / V := by positivity
  have hηV : η ≤ u * (1 / V * (98 / 100)) := by
    have h1 : η * V ≤ η * (34 / 10 * P) := mul_le_mul_of_nonneg_left hV2 hη0
    have h2 : u * (1 / V * (98 / 100)) = u * (98 / 100) / V := by ring
    rw [h2, le_div_iff₀ (by linarith)]
    linarith
  obtain ⟨s, hs, hNs⟩ := near_round hF hi0 (by norm_num) (by norm_num) hNi (by linarith) hηV
  have hv0 : v ≠ 0 := by
    have := (near_pos hu1 hNv (by norm_num) hu0 (by linarith)).1
    linarith
  refine ⟨s, ?_, by norm_num at hNs ⊢; exact hNs⟩
  rw [hr, nabs_real, nadd_real, hv, ndiv_one F hv0, hs]

/-- The residual of the equation of the tangent. -/
lemma tan_residual (hu0 : 0 < u) (hu1 : u ≤ 1 / 1000) (hη0 : 0 ≤ η) {X b d e T s t : ℝ} (hηb : 100 * η ≤ u * |b|) (hη1 : 100 * η ≤ u)
    (hd : |d - X| ≤ u * |X| + η) (he : |e - 2 * b| ≤ 4 * u * |b|) (hT : |T * e - d| ≤ u * |d| + η * |e|) (hs : Near u 14 (1 / (|T| + Real.sqrt (1 + T * T))) s)
    (ht : t * t = s * s) (hTt : T * t = |T| * s) (hts : |t| = s) : |t * X - b * (1 - t * t)| ≤ 55 * u * |b| := by
  have hT0 := abs_nonneg T
  have hb0 := abs_nonneg b
  have ht0 : 0 ≤ T * T := mul_self_nonneg T
  have hR1 : 1 ≤ Real.sqrt (1 + T * T) := Real.one_le_sqrt.2 (by linarith)
  have hRR := Real.mul_self_sqrt (by linarith : 0 ≤ 1 + T * T)
  have hRT : |T| ≤ Real.sqrt (1 + T * T) := by
    refine Real.le_sqrt_of_sq_le ?_
    rw [sq_abs]; nlinarith
  have hV1 : 1 ≤ |T| + Real.sqrt (1 + T * T) := by linarith
  have hVT : 2 * |T| ≤ |T| + Real.sqrt (1 + T * T) := by linarith
  have hVV : (|T| + Real.sqrt (1 + T * T)) * (|T| + Real.sqrt (1 + T * T)) - 2 * |T| * (|T| + Real.sqrt (1 + T * T)) = 1 := by
    have := abs_mul_abs_self T
    nlinarith
  generalize |T| + Real.sqrt (1 + T * T) = V at *
  have hVpos : 0 < V := by linarith
  obtain ⟨w, hw⟩ : ∃ w, w = 1 / V := ⟨_, rfl⟩
  rw [← hw] at hs
  have hw0 : 0 < w := by rw [hw]; positivity
  have hw1 : w ≤ 1 := by rw [hw, div_le_one hVpos]; exact hV1
  have hwT : |T| * w ≤ 1 / 2 := by rw [hw, mul_one_div, div_le_iff₀ hVpos]; linarith
  have hww : w * w + 2 * |T| * w - 1 = 0 := by
    rw [hw]
    field_simp
    linarith
  obtain ⟨hs1, hs2⟩ := near_pos hu1 hs (by norm_num) hu0 hw0
  have hs0 : 0 ≤ s := by linarith
  have hsw : |s - w| ≤ 14 * u * w := by
    rw [abs_le]
    obtain ⟨h1, h2⟩ := hs
    constructor <;> linarith
  -- the quadratic
  have q1 : |t * t + 2 * (T * t) - 1| ≤ 43 * u := by
    have e1 : t * t + 2 * (T * t) - 1 = (s - w) * (s + w + 2 * |T|) := by rw [ht, hTt]; linear_combination hww
    rw [e1, abs_mul, abs_of_nonneg (by linarith : 0 ≤ s + w + 2 * |T|)]
    have h1 : |s - w| * (s + w + 2 * |T|) ≤ 14 * u * w * (s + w + 2 * |T|) := mul_le_mul_of_nonneg_right hsw (by linarith)
    have h2 : w * (s + w + 2 * |T|) ≤ 303 / 100 := by
      have h3 : w * s ≤ 1 * (102 / 100) := mul_le_mul hw1 (by linarith) hs0 (by norm_num)
      have h4 : w * w ≤ 1 * 1 := mul_le_mul hw1 hw1 hw0.le (by norm_num)
      linarith
    have h3 := mul_le_mul_of_nonneg_left h2 (by linarith : 0 ≤ 14 * u)
    linarith
  -- the quotient
  have sT : s * |T| ≤ 51 / 100 := by
    have := mul_le_mul_of_nonneg_right hs2 hT0
    linarith
  have he2 : |e| ≤ 201 / 100 * |b| := by
    have h1 : |e| ≤ |e - 2 * b| + |2 * b| := by
      calc |e| = |(e - 2 * b) + 2 * b| := by rw [sub_add_cancel]
        _ ≤ _ := abs_add_le _ _
    rw [abs_mul, abs_two] at h1
    have h2 := mul_le_mul_of_nonneg_right hu1 hb0
    linarith
  have he0 := abs_nonneg e
  have hd0 := abs_nonneg d
  have hX0 := abs_nonneg X
  have hη2 : η ≤ 1 / 100000 := by linarith
  have hbη : η * |b| ≤ u / 100 * |b| := mul_le_mul_of_nonneg_right (by linarith) hb0
  have hub : u * |b| ≤ 1 / 1000 * |b| := mul_le_mul_of_nonneg_right hu1 hb0
  have hub0 : 0 ≤ u * |b| := mul_nonneg hu0.le hb0
  have hsd : s * |d| ≤ 11 / 10 * |b| := by
    have h1 : |d| ≤ |T * e - d| + |T * e| := by
      calc |d| = |-(T * e - d) + T * e| := by rw [neg_sub, sub_add_cancel]
        _ ≤ |-(T * e - d)| + |T * e| := abs_add_le _ _
        _ = _ := by rw [abs_neg]
    rw [abs_mul] at h1
    have h2 : u * |d| ≤ 1 / 1000 * |d| := mul_le_mul_of_nonneg_right hu1 hd0
    have h3 : |d| * (999 / 1000) ≤ |T| * |e| + η * |e| := by linarith
    have h4 := mul_le_mul_of_nonneg_left h3 hs0
    have h5 : s * |T| * |e| ≤ 51 / 100 * (201 / 100 * |b|) := mul_le_mul sT he2 he0 (by norm_num)
    have h6 : s * (η * |e|) ≤ 102 / 100 * (1 / 100000 * (201 / 100 * |b|)) :=
      mul_le_mul (by linarith) (mul_le_mul hη2 he2 he0 (by norm_num)) (mul_nonneg hη0 he0) (by norm_num)
    linarith
  have hsη : s * η ≤ 102 / 100 * η := mul_le_mul_of_nonneg_right (by linarith) hη0
  have hsX : s * |X| ≤ 12 / 10 * |b| := by
    have h1 : |X| ≤ |d - X| + |d| := by
      calc |X| = |-(d - X) + d| := by rw [neg_sub, sub_add_cancel]
        _ ≤ |-(d - X)| + |d| := abs_add_le _ _
        _ = _ := by rw [abs_neg]
    have h2 : u * |X| ≤ 1 / 1000 * |X| := mul_le_mul_of_nonneg_right hu1 hX0
    have h3 : |X| * (999 / 1000) ≤ |d| + η := by linarith
    have h4 := mul_le_mul_of_nonneg_left h3 hs0
    linarith
  have q2 : s * |X - 2 * b * T| ≤ 5 * u * |b| := by
    have h1 : |X - 2 * b * T| ≤ |d - X| + |T * e - d| + |T| * |e - 2 * b| := by
      have e1 : X - 2 * b * T = -(d - X) + (-(T * e - d)) + T * (e - 2 * b) := by ring
      rw [e1, ← abs_mul]
      refine (abs_add_le _ _).trans (add_le_add ((abs_add_le _ _).trans ?_) le_rfl)
      rw [abs_neg, abs_neg]
    have h2 : |T| * |e - 2 * b| ≤ |T| * (4 * u * |b|) := mul_le_mul_of_nonneg_left he hT0
    have h3 := mul_le_mul_of_nonneg_left (h1.trans (add_le_add (add_le_add hd hT) h2)) hs0
    have h4 : s * |T| * (4 * u * |b|) ≤ 51 / 100 * (4 * u * |b|) := mul_le_mul_of_nonneg_right sT (by positivity)
    have h5 := mul_le_mul_of_nonneg_left hsd hu0.le
    have h6 := mul_le_mul_of_nonneg_left hsX hu0.le
    have h7 : s * (η * |e|) ≤ 102 / 100 * (η * (201 / 100 * |b|)) :=
      mul_le_mul (by linarith) (mul_le_mul_of_nonneg_left he2 hη0) (mul_nonneg hη0 he0) (by norm_num)
    linarith
  have e2 : t * X - b * (1 - t * t) = b * (t * t + 2 * (T * t) - 1) + t * (X - 2 * b * T) := by ring
  rw [e2]
  have h1 : |b * (t * t + 2 * (T * t) - 1) + t * (X - 2 * b * T)| ≤ |b| * |t * t + 2 * (T * t) - 1| + s * |X - 2 * b * T| := by
    refine (abs_add_le _ _).trans ?_
    rw [abs_mul, abs_mul t, hts]
  have h2 := mul_le_mul_of_nonneg_left q1 hb0
  linarith

/-- The computed tangent satisfies its equation, up to rounding. -/
lemma tan_err (hF : F.Wide u η H) (bit : Num → Num → Num → Bool) {a b c N eps : ℝ} (ha : |a| ≤ N) (hb : |b| ≤ N) (hc : |c| ≤ N) (hN : 1 ≤ N) (heps : 0 < eps) (heps1 : eps ≤ 1)
    (hbe : eps < |b|) (hH : 100 * (N / eps * (N / eps)) ≤ H) (hη : 100 * N * η ≤ u * eps) :
    ∃ t : ℝ, F.tan bit (some (a : EReal)) (some (b : EReal)) (some (c : EReal)) = some (t : EReal) ∧ |t| ≤ 1 ∧ |t * (c - a) - b * (1 - t * t)| ≤ 55 * u * |b| := by
  have hu0 := hF.close.u0
  have hu1 := hF.close.u1
  have hη0 := hF.close.η0
  have hNP : N ≤ N / eps := by rw [le_div_iff₀ heps]; nlinarith
  have hP1 : 1 ≤ N / eps := hN.trans hNP
  have hPP : N / eps ≤ N / eps * (N / eps) := by nlinarith
  have hP : N / eps * eps = N := div_mul_cancel₀ _ heps.ne'
  have hηN : 100 * 1 * η ≤ 100 * N * η := by nlinarith
  have hue : u * eps ≤ u * 1 := mul_le_mul_of_nonneg_left heps1 hu0.le
  have hub : u * eps ≤ u * |b| := mul_le_mul_of_nonneg_left hbe.le hu0.le
  have hb0 := abs_nonneg b
  have hub0 : 0 ≤ u * |b| := mul_nonneg hu0.le hb0
  have hub1 : u * |b| ≤ 1 / 1000 * |b| := mul_le_mul_of_nonneg_right hu1 hb0
  have hX : |c - a| ≤ 2 * N := (abs_sub _ _).trans (by linarith)
  obtain ⟨d, hd⟩ := hF.wide (c - a) (by linarith)
  have ed := hF.close.err _ _ hd
  obtain ⟨e, he⟩ := hF.wide (2 * b) (by rw [abs_mul, abs_two]; linarith)
  have ee := hF.close.err _ _ he
  rw [abs_mul, abs_two] at ee
  have ee' : |e - 2 * b| ≤ 4 * u * |b| := by linarith
  have hd2 : |d| ≤ 21 / 10 * N := by
    have h1 : |d| ≤ |d - (c - a)| + |c - a| := by
      calc |d| = |(d - (c - a)) + (c - a)| := by rw [sub_add_cancel]
        _ ≤ _ := abs_add_le _ _
    have h2 : u * |c - a| ≤ 1 / 1000 * (2 * N) := mul_le_mul hu1 hX (abs_nonneg _) (by norm_num)
    linarith
  have he2 : 199 / 100 * |b| ≤ |e| := by
    have h1 : |2 * b| ≤ |e - 2 * b| + |e| := by
      calc |2 * b| = |-(e - 2 * b) + e| := by rw [neg_sub, sub_add_cancel]
        _ ≤ |-(e - 2 * b)| + |e| := abs_add_le _ _
        _ = _ := by rw [abs_neg]
    rw [abs_mul, abs_two] at h1
    linarith
  have hepos : 0 < |e| := by linarith
  have he0 : e ≠ 0 := abs_pos.1 hepos
  have hde : |d / e| ≤ 11 / 10 * (N / eps) := by
    rw [abs_div, div_le_iff₀ hepos]
    have h1 : N / eps * (199 / 100 * eps) ≤ N / eps * |e| := mul_le_mul_of_nonneg_left (by linarith) (by linarith)
    linarith
  obtain ⟨T, hT⟩ := hF.wide (d / e) (by linarith)
  have eT := hF.close.err _ _ hT
  have hTT : |T| ≤ 12 / 10 * (N / eps) := by
    have h1 : |T| ≤ |T - d / e| + |d / e| := by
      calc |T| = |(T - d / e) + d / e| := by rw [sub_add_cancel]
        _ ≤ _ := abs_add_le _ _
    have h2 : u * |d / e| ≤ 1 / 1000 * (11 / 10 * (N / eps)) := mul_le_mul hu1 hde (abs_nonneg _) (by norm_num)
    linarith
  have eT' : |T * e - d| ≤ u * |d| + η * |e| := by
    have e1 : T * e - d = (T - d / e) * e := by field_simp
    have h1 := mul_le_mul_of_nonneg_right eT hepos.le
    rw [← abs_mul, ← e1, add_mul, mul_assoc, ← abs_mul, div_mul_cancel₀ _ he0] at h1
    exact h1
  have hηP : 100 * (N / eps) * η ≤ u := by
    have : 100 * (N / eps) * η = 100 * N * η / eps := by ring
    rw [this, div_le_iff₀ heps]
    exact hη
  obtain ⟨s, hs, hNs⟩ := tan_near hF hP1 hTT hH hηP
  have htau : F.tau (some (a : EReal)) (some (b : EReal)) (some (c : EReal)) = some (T : EReal) := by
    have h2 : (some (2 : EReal) : Num) = some ((2 : ℝ) : EReal) := rfl
    rw [Format.tau, nsub_real, hd, h2, nmul_real, he, ndiv_real F he0, hT]
  have hs0 : 0 ≤ s := by
    have hV : 0 < 1 / (|T| + Real.sqrt (1 + T * T)) := by
      have : 0 < Real.sqrt (1 + T * T) := Real.sqrt_pos.2 (by nlinarith [mul_self_nonneg T])
      have := abs_nonneg T
      positivity
    have := (near_pos hu1 hNs (by norm_num) hu0 hV).1
    linarith
  have main : ∃ t : ℝ, F.tan bit (some (a : EReal)) (some (b : EReal)) (some (c : EReal)) = some (t : EReal) ∧ t * t = s * s ∧ T * t = |T| * s ∧ |t| = s := by
    unfold Format.tan
    rw [htau, hs]
    unfold ncopysign
    rw [nabs_real, abs_of_nonneg hs0]
    dsimp only
    split_ifs with h
    · refine ⟨-s, nneg_real s, by ring, ?_, by rw [abs_neg, abs_of_nonneg hs0]⟩
      have hT0 : T ≤ 0 := by
        simp only [Bool.or_eq_true, decide_eq_true_eq, Bool.and_eq_true] at h
        rcases h with h | ⟨h, _⟩
        · have : T < 0 := by exact_mod_cast h
          exact this.le
        · have : T = 0 := by exact_mod_cast h
          exact this.le
      rw [abs_of_nonpos hT0]; ring
    · refine ⟨s, rfl, rfl, ?_, abs_of_nonneg hs0⟩
      have hT0 : 0 ≤ T := by
        simp only [Bool.or_eq_true, decide_eq_true_eq, Bool.and_eq_true, not_or] at h
        have : ¬ T < 0 := fun h' => h.1 (by exact_mod_cast h')
        exact not_lt.1 this
      rw [abs_of_nonneg hT0]
  obtain ⟨t, ht, h1, h2, h3⟩ := main
  refine ⟨t, ht, ?_, tan_residual hu0 hu1 hη0 (by linarith) (by linarith) ed ee' eT' hNs h1 h2 h3⟩
  rcases tan_cases hF.close bit (some (a : EReal)) (some (b : EReal)) (some (c : EReal)) with h | ⟨t', h, h'⟩
  · rw [h] at ht; cases ht
  · rw [h] at ht
    have : t' = t := by exact_mod_cast Option.some.inj ht
    rwa [this] at h'

/-- `z + x * y` without overflow. -/
lemma nmac_fin (hF : F.Wide u η H) {z x y N : ℝ} (hz : |z| ≤ N) (hxy : |x * y| ≤ N) (hN : 1 ≤ N) (hH : 4 * N ≤ H) :
    ∃ r : ℝ, F.nmac (some (z : EReal)) (some (x : EReal)) (some (y : EReal)) = some (r : EReal) ∧ |r - (z + x * y)| ≤ 3 * u * (|z| + |x * y|) + 3 * η := by
  have hu0 := hF.close.u0
  have hu1 := hF.close.u1
  have hη0 := hF.close.η0
  have hη1 := hF.close.η1
  have hz0 := abs_nonneg z
  have hp0 := abs_nonneg (x * y)
  have huz := mul_nonneg hu0.le hz0
  have hup := mul_nonneg hu0.le hp0
  by_cases hf : F.fma = true
  · rw [nmac_real_fma F hf]
    have hs := abs_add_le z (x * y)
    obtain ⟨r, hr⟩ := hF.wide (z + x * y) (by linarith)
    refine ⟨r, by rw [hr], ?_⟩
    have := hF.close.err _ _ hr
    have h2 := mul_le_mul_of_nonneg_left hs hu0.le
    linarith
  · rw [Format.nmac, if_neg hf, nmul_real]
    obtain ⟨w, hw⟩ := hF.wide (x * y) (by linarith)
    have e1 := hF.close.err _ _ hw
    have hw2 : |z + w| ≤ |z| + |x * y| + |w - x * y| := by
      have : z + w = z + x * y + (w - x * y) := by ring
      rw [this]
      exact (abs_add_le _ _).trans (add_le_add (abs_add_le _ _) le_rfl)
    have h3 : u * |x * y| ≤ 1 / 1000 * N := mul_le_mul hu1 hxy hp0 (by norm_num)
    rw [hw, nadd_real]
    obtain ⟨r, hr⟩ := hF.wide (z + w) (by linarith)
    refine ⟨r, by rw [hr], ?_⟩
    have e2 := hF.close.err _ _ hr
    have h4 : |r - (z + x * y)| ≤ |r - (z + w)| + |w - x * y| := by
      have : r - (z + x * y) = (r - (z + w)) + (w - x * y) := by ring
      rw [this]
      exact abs_add_le _ _
    have h5 := mul_le_mul_of_nonneg_left hw2 hu0.le
    have h6 : u * |w - x * y| ≤ 1 / 1000 * |w - x * y| := mul_le_mul_of_nonneg_right hu1 (abs_nonneg _)
    linarith

/-- A rotated entry against the rotation of the computed tangent. -/
lemma ndot_fin (hF : F.Wide u η H) {C S c s x y N : ℝ} (hC : |C| ≤ 1) (hS : |S| ≤ 1) (hc : |c - C| ≤ 13 * u) (hs : |s - S| ≤ 13 * u) (hx : |x| ≤ N) (hy : |y| ≤ N) (hN : 1 ≤ N)
    (hH : 8 * N ≤ H) : ∃ r : ℝ, F.ndot (some (c : EReal)) (some (x : EReal)) (some (s : EReal)) (some (y : EReal)) = some (r : EReal) ∧
      |r - (C * x + S * y)| ≤ 20 * u * (|x| + |y|) + 4 * η := by
  have hu0 := hF.close.u0
  have hu1 := hF.close.u1
  have hη0 := hF.close.η0
  have hη1 := hF.close.η1
  have bound : ∀ c C : ℝ, |C| ≤ 1 → |c - C| ≤ 13 * u → |c| ≤ 102 / 100 := by
    intro c C h1 h2
    have : |c| ≤ |c - C| + |C| := by
      calc |c| = |(c - C) + C| := by rw [sub_add_cancel]
        _ ≤ _ := abs_add_le _ _
    linarith
  have hc2 := bound c C hC hc
  have hs2 := bound s S hS hs
  have hx0 := abs_nonneg x
  have hy0 := abs_nonneg y
  have hcx : |c * x| ≤ 102 / 100 * |x| := by rw [abs_mul]; exact mul_le_mul_of_nonneg_right hc2 hx0
  have hsy : |s * y| ≤ 102 / 100 * |y| := by rw [abs_mul]; exact mul_le_mul_of_nonneg_right hs2 hy0
  have hreal : ∃ r : ℝ, F.ndot (some (c : EReal)) (some (x : EReal)) (some (s : EReal)) (some (y : EReal)) = some (r : EReal) := by
    unfold Format.ndot
    rw [nmul_real]
    obtain ⟨z, hz⟩ := hF.wide (c * x) (by linarith)
    have e1 := hF.close.err _ _ hz
    have hz2 : |z| ≤ |z - c * x| + |c * x| := by
      calc |z| = |(z - c * x) + c * x| := by rw [sub_add_cancel]
        _ ≤ _ := abs_add_le _ _
    have h3 : u * |c * x| ≤ 1 / 1000 * (102 / 100 * N) := mul_le_mul hu1 (by linarith) (abs_nonneg _) (by norm_num)
    rw [hz]
    obtain ⟨r, hr, _⟩ := nmac_fin hF (z := z) (x := s) (y := y) (N := 2 * N) (by linarith) (by linarith) (by linarith) (by linarith)
    exact ⟨r, hr⟩
  obtain ⟨r, hr⟩ := hreal
  refine ⟨r, hr, ?_⟩
  have e := ndot_err hF.close hr
  have h1 : |r - (C * x + S * y)| ≤ |r - (c * x + s * y)| + (|c - C| * |x| + |s - S| * |y|) := by
    have : r - (C * x + S * y) = (r - (c * x + s * y)) + ((c - C) * x + (s - S) * y) := by ring
    rw [this, ← abs_mul, ← abs_mul]
    exact (abs_add_le _ _).trans (add_le_add le_rfl (abs_add_le _ _))
  have h2 := mul_le_mul_of_nonneg_right hc hx0
  have h3 := mul_le_mul_of_nonneg_right hs hy0
  have h4 : u * (|c * x| + |s * y|) ≤ u * (102 / 100 * |x| + 102 / 100 * |y|) := mul_le_mul_of_nonneg_left (by linarith) hu0.le
  have h5 := mul_nonneg hu0.le hx0
  have h6 := mul_nonneg hu0.le hy0
  linarith

end ArborX.Fp
