import Verif.Geometry.Spec
import Verif.Geometry.Distance
import Mathlib.Tactic.LinearCombination
import Mathlib.Tactic.FinCases
import Mathlib.Data.Finset.Max

/-!
# Intersection of planar segments and boxes (C37)

Exact arithmetic in any ordered field.
-/

namespace ArborX.Geometry

variable {K : Type} [Field K] [LinearOrder K] [IsStrictOrderedRing K] {D : ℕ}

/-! ## Model -/

/-- `on_segment` (`ArborX_Intersects.hpp` 404-414). -/
def onSegment (S : Segment K 2) (p : Pt K 2) : Bool :=
  (decide (p 0 ≥ min (S.a 0) (S.b 0)) && decide (p 0 ≤ max (S.a 0) (S.b 0))) &&
    (decide (p 1 ≥ min (S.a 1) (S.b 1)) && decide (p 1 ≤ max (S.a 1) (S.b 1)))

/-- `orientation` (420-426): `(0 < x) - (x < 0)`. -/
def orientation (a b c : Pt K 2) : ℤ :=
  let x := (b 1 - a 1) * (c 0 - b 0) - (b 0 - a 0) * (c 1 - b 1)
  (if 0 < x then 1 else 0) - (if x < 0 then 1 else 0)

/-- `intersects(Segment, Segment)` (428-457). -/
def intersectsSegmentSegment (S T : Segment K 2) : Bool :=
  let o1 := orientation S.a S.b T.a
  let o2 := orientation S.a S.b T.b
  let o3 := orientation T.a T.b S.a
  let o4 := orientation T.a T.b S.b
  if o1 ≠ o2 ∧ o3 ≠ o4 then true
  else if o1 = 0 ∧ onSegment S T.a then true
  else if o2 = 0 ∧ onSegment S T.b then true
  else if o3 = 0 ∧ onSegment T S.a then true
  else if o4 = 0 ∧ onSegment T S.b then true
  else false

/-- `intersects(Segment, Box)` (460-486). -/
def intersectsSegmentBox (S : Segment K 2) (B : Box K 2) : Bool :=
  if intersectsPointBox S.a B || intersectsPointBox S.b B then true
  else
    let bottom_left := B.lo
    let top_right := B.hi
    let top_left : Pt K 2 := ![B.lo 0, B.hi 1]
    let bottom_right : Pt K 2 := ![B.hi 0, B.lo 1]
    intersectsSegmentSegment S ⟨bottom_left, top_left⟩ || intersectsSegmentSegment S ⟨bottom_left, bottom_right⟩ ||
      intersectsSegmentSegment S ⟨top_right, top_left⟩ || intersectsSegmentSegment S ⟨top_right, bottom_right⟩

/-! ## Lemmas -/

/-- The cross product behind `orientation`. -/
def area (a b c : Pt K 2) : K := (b 1 - a 1) * (c 0 - b 0) - (b 0 - a 0) * (c 1 - b 1)

lemma orientation_eq_zero (a b c : Pt K 2) : orientation a b c = 0 ↔ area a b c = 0 := by
  unfold orientation area
  dsimp only
  rcases lt_trichotomy ((b 1 - a 1) * (c 0 - b 0) - (b 0 - a 0) * (c 1 - b 1)) 0 with h | h | h
  · rw [if_neg (not_lt.mpr h.le), if_pos h]; simp [h.ne]
  · rw [h]; simp
  · rw [if_pos h, if_neg (not_lt.mpr h.le)]; simp [h.ne']

lemma orientation_ne (a b c a' b' c' : Pt K 2) (h : orientation a b c ≠ orientation a' b' c') :
    area a b c ≠ area a' b' c' ∧ area a b c * area a' b' c' ≤ 0 := by
  have key : ∀ x y : K, ((if 0 < x then 1 else 0) - (if x < 0 then 1 else 0) : ℤ) ≠ (if 0 < y then 1 else 0) - (if y < 0 then 1 else 0) →
      x ≠ y ∧ x * y ≤ 0 := by
    intro x y hxy
    refine ⟨fun e => hxy (by rw [e]), ?_⟩
    by_contra hn
    push Not at hn
    rcases mul_pos_iff.mp hn with ⟨h1, h2⟩ | ⟨h1, h2⟩
    · apply hxy; simp [h1, h2, h1.le, h2.le, not_lt.mpr]
    · apply hxy; simp [h1, h2, h1.le, h2.le, not_lt.mpr]
  exact key _ _ h

lemma orientation_eq (a b c a' b' c' : Pt K 2) (h : orientation a b c = orientation a' b' c') :
    (0 < area a b c ∧ 0 < area a' b' c') ∨ (area a b c = 0 ∧ area a' b' c' = 0) ∨ (area a b c < 0 ∧ area a' b' c' < 0) := by
  have key : ∀ x y : K, ((if 0 < x then 1 else 0) - (if x < 0 then 1 else 0) : ℤ) = (if 0 < y then 1 else 0) - (if y < 0 then 1 else 0) →
      (0 < x ∧ 0 < y) ∨ (x = 0 ∧ y = 0) ∨ (x < 0 ∧ y < 0) := by
    intro x y hxy
    rcases lt_trichotomy x 0 with h1 | h1 | h1 <;> rcases lt_trichotomy y 0 with h2 | h2 | h2 <;>
      simp [h1, h2, not_lt.mpr h1.le, not_lt.mpr h2.le] at hxy ⊢
  exact key _ _ h

lemma onSegment_iff (S : Segment K 2) (p : Pt K 2) : onSegment S p = true ↔
    ∀ d, min (S.a d) (S.b d) ≤ p d ∧ p d ≤ max (S.a d) (S.b d) := by
  unfold onSegment
  simp only [Bool.and_eq_true, decide_eq_true_iff, ge_iff_le]
  constructor
  · rintro ⟨h1, h2⟩ d
    fin_cases d
    exacts [h1, h2]
  · intro h
    exact ⟨h 0, h 1⟩

/-- A value between two others is a convex combination of them. -/
lemma between {a b x : K} (hab : a ≠ b) (h : min a b ≤ x ∧ x ≤ max a b) :
    0 ≤ (x - a) / (b - a) ∧ (x - a) / (b - a) ≤ 1 ∧ x = a + (x - a) / (b - a) * (b - a) := by
  have hne : b - a ≠ 0 := sub_ne_zero.mpr hab.symm
  refine ⟨?_, ?_, by rw [div_mul_cancel₀ _ hne]; ring⟩
  · rcases lt_or_gt_of_ne hab with hlt | hlt
    · rw [min_eq_left hlt.le] at h
      exact div_nonneg (by linarith [h.1]) (by linarith)
    · rw [max_eq_left hlt.le] at h
      exact div_nonneg_of_nonpos (by linarith [h.2]) (by linarith)
  · rcases lt_or_gt_of_ne hab with hlt | hlt
    · rw [max_eq_right hlt.le] at h
      rw [div_le_one (by linarith)]; linarith [h.2]
    · rw [min_eq_right hlt.le] at h
      rw [div_le_one_of_neg (by linarith)]; linarith [h.1]

/-- The points of a segment are the collinear points in its bounding box. -/
lemma mem_segment_iff (S : Segment K 2) (x : Pt K 2) : x ∈ S.set ↔ orientation S.a S.b x = 0 ∧ onSegment S x = true := by
  rw [orientation_eq_zero, onSegment_iff]
  constructor
  · rintro ⟨u, v, hu, hv, h1, hx⟩
    have hu' : u = 1 - v := by linear_combination h1
    refine ⟨?_, ?_⟩
    · unfold area
      rw [hx 0, hx 1, hu']; ring
    · intro d
      rw [hx d]
      have e1 : ∀ m : K, m = u * m + v * m := fun m => by rw [← add_mul, h1, one_mul]
      constructor
      · rw [e1 (min (S.a d) (S.b d))]
        exact add_le_add (mul_le_mul_of_nonneg_left (min_le_left _ _) hu) (mul_le_mul_of_nonneg_left (min_le_right _ _) hv)
      · rw [e1 (max (S.a d) (S.b d))]
        exact add_le_add (mul_le_mul_of_nonneg_left (le_max_left _ _) hu) (mul_le_mul_of_nonneg_left (le_max_right _ _) hv)
  · rintro ⟨hz, hb⟩
    unfold area at hz
    by_cases h0 : S.a 0 = S.b 0
    · by_cases h1 : S.a 1 = S.b 1
      · refine ⟨1, 0, zero_le_one, le_rfl, by ring, fun d => ?_⟩
        have := hb d
        have e : S.a d = S.b d := by fin_cases d; exacts [h0, h1]
        rw [← e, min_self, max_self] at this
        rw [le_antisymm this.2 this.1]; ring
      · obtain ⟨t0, t1, hx⟩ := between h1 (hb 1)
        refine ⟨1 - (x 1 - S.a 1) / (S.b 1 - S.a 1), _, by linarith, t0, by ring, fun d => ?_⟩
        fin_cases d
        · have := hb 0
          rw [← h0, min_self, max_self] at this
          simp only [Fin.zero_eta]
          rw [← h0, le_antisymm this.2 this.1]; ring
        · simp only [Fin.mk_one]
          linear_combination hx
    · obtain ⟨t0, t1, hx⟩ := between h0 (hb 0)
      have hne : S.b 0 - S.a 0 ≠ 0 := sub_ne_zero.mpr (Ne.symm h0)
      refine ⟨1 - (x 0 - S.a 0) / (S.b 0 - S.a 0), _, by linarith, t0, by ring, fun d => ?_⟩
      generalize (x 0 - S.a 0) / (S.b 0 - S.a 0) = t at *
      fin_cases d
      · simp only [Fin.zero_eta]; linear_combination hx
      · simp only [Fin.mk_one]
        apply mul_left_cancel₀ hne
        linear_combination -hz + (S.b 1 - S.a 1) * hx

lemma a_mem (S : Segment K D) : S.a ∈ S.set := ⟨1, 0, zero_le_one, le_rfl, by ring, fun d => by ring⟩
lemma b_mem (S : Segment K D) : S.b ∈ S.set := ⟨0, 1, le_rfl, zero_le_one, by ring, fun d => by ring⟩

/-- Two different signs: the zero is between. -/
lemma ratio_mem {x y : K} (hne : x ≠ y) (h : x * y ≤ 0) : 0 ≤ x / (x - y) ∧ x / (x - y) ≤ 1 := by
  rcases lt_or_gt_of_ne hne with hlt | hlt
  · have hx : x ≤ 0 := by
      by_contra hn; push Not at hn
      linarith [mul_pos hn (hn.trans hlt)]
    have hy : 0 ≤ y := by
      by_contra hn; push Not at hn
      linarith [mul_pos_of_neg_of_neg (hlt.trans hn) hn]
    exact ⟨div_nonneg_of_nonpos hx (by linarith), (div_le_one_of_neg (by linarith)).mpr (by linarith)⟩
  · have hx : 0 ≤ x := by
      by_contra hn; push Not at hn
      linarith [mul_pos_of_neg_of_neg hn (hlt.trans hn)]
    have hy : y ≤ 0 := by
      by_contra hn; push Not at hn
      linarith [mul_pos (hn.trans hlt) hn]
    exact ⟨div_nonneg hx (by linarith), (div_le_one (by linarith)).mpr (by linarith)⟩

lemma general_case (S T : Segment K 2) (h1 : orientation S.a S.b T.a ≠ orientation S.a S.b T.b)
    (h2 : orientation T.a T.b S.a ≠ orientation T.a T.b S.b) : (S.set ∩ T.set).Nonempty := by
  obtain ⟨n1, m1⟩ := orientation_ne _ _ _ _ _ _ h1
  obtain ⟨n2, m2⟩ := orientation_ne _ _ _ _ _ _ h2
  obtain ⟨r0, r1⟩ := ratio_mem n1 m1
  obtain ⟨t0, t1⟩ := ratio_mem n2 m2
  have hr : area S.a S.b T.a / (area S.a S.b T.a - area S.a S.b T.b) * (area S.a S.b T.a - area S.a S.b T.b) = area S.a S.b T.a :=
    div_mul_cancel₀ _ (sub_ne_zero.mpr n1)
  have ht : area T.a T.b S.a / (area T.a T.b S.a - area T.a T.b S.b) * (area T.a T.b S.a - area T.a T.b S.b) = area T.a T.b S.a :=
    div_mul_cancel₀ _ (sub_ne_zero.mpr n2)
  have hδ := sub_ne_zero.mpr n1
  generalize area S.a S.b T.a / (area S.a S.b T.a - area S.a S.b T.b) = r at r0 r1 hr
  generalize area T.a T.b S.a / (area T.a T.b S.a - area T.a T.b S.b) = t at t0 t1 ht
  unfold area at hr ht hδ
  refine ⟨fun d => (1 - t) * S.a d + t * S.b d, ⟨1 - t, t, by linarith, t0, by ring, fun _ => rfl⟩,
    ⟨1 - r, r, by linarith, r0, by ring, fun d => ?_⟩⟩
  dsimp only
  apply mul_left_cancel₀ hδ
  fin_cases d
  · simp only [Fin.zero_eta]
    linear_combination (-(S.b 0 - S.a 0)) * ht - (T.b 0 - T.a 0) * hr
  · simp only [Fin.mk_one]
    linear_combination (-(S.b 1 - S.a 1)) * ht - (T.b 1 - T.a 1) * hr

/-- Position along a line: collinear points of a proper segment have a parameter. -/
lemma line_param (S : Segment K 2) (hne : S.a ≠ S.b) (x : Pt K 2) (hz : area S.a S.b x = 0) :
    ∃ t, ∀ d, x d = S.a d + t * (S.b d - S.a d) := by
  unfold area at hz
  by_cases h0 : S.a 0 = S.b 0
  · have h1 : S.b 1 - S.a 1 ≠ 0 := by
      intro h
      apply hne
      funext d
      fin_cases d
      · exact h0
      · exact (sub_eq_zero.mp h).symm
    refine ⟨(x 1 - S.a 1) / (S.b 1 - S.a 1), fun d => ?_⟩
    have e : (x 1 - S.a 1) / (S.b 1 - S.a 1) * (S.b 1 - S.a 1) = x 1 - S.a 1 := div_mul_cancel₀ _ h1
    fin_cases d
    · simp only [Fin.zero_eta]
      rw [← h0] at hz ⊢
      rw [sub_self, zero_mul, sub_zero] at hz
      have := (mul_eq_zero.mp hz).resolve_left h1
      linear_combination this
    · simp only [Fin.mk_one]; linear_combination -e
  · have hne0 : S.b 0 - S.a 0 ≠ 0 := sub_ne_zero.mpr (Ne.symm h0)
    refine ⟨(x 0 - S.a 0) / (S.b 0 - S.a 0), fun d => ?_⟩
    have e : (x 0 - S.a 0) / (S.b 0 - S.a 0) * (S.b 0 - S.a 0) = x 0 - S.a 0 := div_mul_cancel₀ _ hne0
    generalize (x 0 - S.a 0) / (S.b 0 - S.a 0) = t at e
    fin_cases d
    · simp only [Fin.zero_eta]; linear_combination -e
    · simp only [Fin.mk_one]
      apply mul_left_cancel₀ hne0
      linear_combination -hz - (S.b 1 - S.a 1) * e

lemma mem_of_param (S : Segment K D) {t : K} (h0 : 0 ≤ t) (h1 : t ≤ 1) {x : Pt K D} (hx : ∀ d, x d = S.a d + t * (S.b d - S.a d)) :
    x ∈ S.set := ⟨1 - t, t, by linarith, h0, by ring, fun d => by rw [hx d]; ring⟩

/-- Overlapping collinear segments: an end point of one is in the other. -/
lemma collinear_case (S T : Segment K 2) (hz1 : area S.a S.b T.a = 0) (hz2 : area S.a S.b T.b = 0) (x : Pt K 2)
    (hxS : x ∈ S.set) (hxT : x ∈ T.set) : T.a ∈ S.set ∨ T.b ∈ S.set ∨ S.a ∈ T.set := by
  by_cases hab : S.a = S.b
  · right; right
    obtain ⟨u, v, -, -, h1, hx⟩ := hxS
    have : x = S.a := by funext d; rw [hx d, ← hab, ← add_mul, h1, one_mul]
    rw [← this]; exact hxT
  · obtain ⟨γ, hγ⟩ := line_param S hab T.a hz1
    obtain ⟨δ, hδ⟩ := line_param S hab T.b hz2
    obtain ⟨u, t, hu, ht, h1, hx⟩ := hxS
    have hu' : u = 1 - t := by linear_combination h1
    obtain ⟨p, q, hp, hq, h1', hx'⟩ := hxT
    have hp' : p = 1 - q := by linear_combination h1'
    -- the parameter of x
    have ht' : t = p * γ + q * δ := by
      by_contra hne
      apply hab
      funext d
      have h2 := hx d
      have h3 := hx' d
      rw [hγ d, hδ d, h2] at h3
      have : (t - (p * γ + q * δ)) * (S.b d - S.a d) = 0 := by rw [hu', hp'] at h3; rw [hp']; linear_combination h3
      have := (mul_eq_zero.mp this).resolve_left (sub_ne_zero.mpr hne)
      linear_combination -this
    by_cases hc : 0 ≤ γ ∧ γ ≤ 1
    · left; exact mem_of_param S hc.1 hc.2 hγ
    by_cases hd : 0 ≤ δ ∧ δ ≤ 1
    · right; left; exact mem_of_param S hd.1 hd.2 hδ
    right; right
    have ht1 : t ≤ 1 := by linarith
    -- 0 is between γ and δ
    have hsign : γ * δ ≤ 0 ∧ γ ≠ δ := by
      rcases lt_or_ge γ 0 with g | g
      · rcases lt_or_ge δ 0 with e | e
        · exfalso
          have h2 : p * γ ≤ 0 := mul_nonpos_of_nonneg_of_nonpos hp g.le
          have h3 : q * δ ≤ 0 := mul_nonpos_of_nonneg_of_nonpos hq e.le
          rcases eq_or_lt_of_le hp with h4 | h4
          · have : q = 1 := by linarith
            rw [this] at ht'; nlinarith
          · nlinarith [mul_neg_of_pos_of_neg h4 g]
        · exact ⟨mul_nonpos_of_nonpos_of_nonneg g.le e, by intro h; rw [h] at g; linarith⟩
      · have g1 : 1 < γ := by by_contra hn; exact hc ⟨g, not_lt.mp hn⟩
        rcases lt_or_ge δ 0 with e | e
        · exact ⟨mul_nonpos_of_nonneg_of_nonpos g e.le, by intro h; rw [h] at g; linarith⟩
        · have e1 : 1 < δ := by by_contra hn; exact hd ⟨e, not_lt.mp hn⟩
          exfalso
          rcases eq_or_lt_of_le hp with h4 | h4
          · have : q = 1 := by linarith
            rw [this] at ht'; nlinarith
          · nlinarith [mul_lt_mul_of_pos_left g1 h4, mul_le_mul_of_nonneg_left e1.le hq]
    obtain ⟨s0, s1⟩ := ratio_mem hsign.2 hsign.1
    refine mem_of_param T s0 s1 (fun d => ?_)
    have e : γ / (γ - δ) * (γ - δ) = γ := div_mul_cancel₀ _ (sub_ne_zero.mpr hsign.2)
    generalize γ / (γ - δ) = r at e
    rw [hγ d, hδ d]
    linear_combination (S.b d - S.a d) * e

/-- Leaving a box along a line: a point of the boundary. -/
lemma exit_box (B : Box K D) (x a : Pt K D) (hx : x ∈ B.set) (ha : a ∉ B.set) :
    ∃ t, 0 ≤ t ∧ t ≤ 1 ∧ lerp x a t ∈ B.set ∧ ∃ d, lerp x a t d = B.lo d ∨ lerp x a t d = B.hi d := by
  let par : Fin D → K := fun d =>
    if B.hi d < a d then (B.hi d - x d) / (a d - x d) else if a d < B.lo d then (x d - B.lo d) / (x d - a d) else 1
  have hpar : ∀ d, 0 ≤ par d ∧ par d ≤ 1 := by
    intro d
    obtain ⟨h1, h2⟩ := hx d
    simp only [par]
    split_ifs with h3 h4
    · have : 0 < a d - x d := by linarith
      exact ⟨div_nonneg (by linarith) this.le, (div_le_one this).mpr (by linarith)⟩
    · have : 0 < x d - a d := by linarith
      exact ⟨div_nonneg (by linarith) this.le, (div_le_one this).mpr (by linarith)⟩
    · exact ⟨zero_le_one, le_rfl⟩
  have hout : ∃ d, B.hi d < a d ∨ a d < B.lo d := by
    by_contra hn
    push Not at hn
    exact ha (fun d => ⟨(hn d).2, (hn d).1⟩)
  obtain ⟨d0, hd0, hmin⟩ := Finset.exists_min_image (Finset.univ.filter (fun d => B.hi d < a d ∨ a d < B.lo d)) par
    (by obtain ⟨d, hd⟩ := hout; exact ⟨d, by simp [hd]⟩)
  have hd0 : B.hi d0 < a d0 ∨ a d0 < B.lo d0 := by simpa using hd0
  refine ⟨par d0, (hpar d0).1, (hpar d0).2, fun d => ?_, d0, ?_⟩
  · obtain ⟨p0, p1⟩ := hpar d0
    obtain ⟨h1, h2⟩ := hx d
    unfold lerp
    by_cases h3 : B.hi d < a d
    · have hle := hmin d (by simp [h3])
      have e : par d = (B.hi d - x d) / (a d - x d) := by simp only [par]; rw [if_pos h3]
      have hpos : 0 < a d - x d := by linarith
      rw [e, le_div_iff₀ hpos] at hle
      exact ⟨by nlinarith [mul_nonneg p0 hpos.le], by linarith⟩
    · by_cases h4 : a d < B.lo d
      · have hle := hmin d (by simp [h4])
        have e : par d = (x d - B.lo d) / (x d - a d) := by simp only [par]; rw [if_neg h3, if_pos h4]
        have hpos : 0 < x d - a d := by linarith
        rw [e, le_div_iff₀ hpos] at hle
        exact ⟨by linarith, by nlinarith [mul_nonneg p0 hpos.le]⟩
      · have h3 := not_lt.mp h3
        have h4 := not_lt.mp h4
        have e : x d + par d0 * (a d - x d) = (1 - par d0) * x d + par d0 * a d := by ring
        rw [e]
        have q0 : 0 ≤ 1 - par d0 := by linarith
        constructor
        · nlinarith [mul_le_mul_of_nonneg_left h1 q0, mul_le_mul_of_nonneg_left h4 p0]
        · nlinarith [mul_le_mul_of_nonneg_left h2 q0, mul_le_mul_of_nonneg_left h3 p0]
  · obtain ⟨h1, h2⟩ := hx d0
    unfold lerp
    by_cases h3 : B.hi d0 < a d0
    · right
      have e : par d0 = (B.hi d0 - x d0) / (a d0 - x d0) := by simp only [par]; rw [if_pos h3]
      have hpos : 0 < a d0 - x d0 := by linarith
      rw [e, div_mul_cancel₀ _ hpos.ne']; ring
    · left
      have h4 := hd0.resolve_left h3
      have e : par d0 = (x d0 - B.lo d0) / (x d0 - a d0) := by simp only [par]; rw [if_neg h3, if_pos h4]
      have hpos : 0 < x d0 - a d0 := by linarith
      have : (x d0 - B.lo d0) / (x d0 - a d0) * (x d0 - a d0) = x d0 - B.lo d0 := div_mul_cancel₀ _ hpos.ne'
      rw [e]
      linear_combination -this

/-- A segment between two points with one equal coordinate. -/
lemma mem_edge (S : Segment K 2) (x : Pt K 2) (i j : Fin 2) (hij : i ≠ j) (hi : S.a i = S.b i) (hxi : x i = S.a i)
    (hj : min (S.a j) (S.b j) ≤ x j ∧ x j ≤ max (S.a j) (S.b j)) : x ∈ S.set := by
  have hall : ∀ d : Fin 2, d = i ∨ d = j := by
    intro d; omega
  by_cases hne : S.a j = S.b j
  · rw [← hne, min_self, max_self] at hj
    refine ⟨1, 0, zero_le_one, le_rfl, by ring, fun d => ?_⟩
    rcases hall d with rfl | rfl
    · rw [hxi]; ring
    · rw [le_antisymm hj.2 hj.1]; ring
  · obtain ⟨t0, t1, e⟩ := between hne hj
    refine mem_of_param S t0 t1 (fun d => ?_)
    rcases hall d with rfl | rfl
    · rw [hxi, hi]; ring
    · exact e

/-! ## Property theorems -/

/-- **C37.** Two planar segments, degenerate ones included, intersect exactly if they share a point. -/
theorem intersects_segment_segment (S T : Segment K 2) : intersectsSegmentSegment S T = true ↔ (S.set ∩ T.set).Nonempty := by
  unfold intersectsSegmentSegment
  dsimp only
  constructor
  · intro h
    split_ifs at h with h1 h2 h3 h4 h5
    · exact general_case S T h1.1 h1.2
    · exact ⟨T.a, (mem_segment_iff S T.a).mpr h2, a_mem T⟩
    · exact ⟨T.b, (mem_segment_iff S T.b).mpr h3, b_mem T⟩
    · exact ⟨S.a, a_mem S, (mem_segment_iff T S.a).mpr h4⟩
    · exact ⟨S.b, b_mem S, (mem_segment_iff T S.b).mpr h5⟩
  · rintro ⟨x, hxS, hxT⟩
    split_ifs with h1 h2 h3 h4 h5
    · rfl
    · rfl
    · rfl
    · rfl
    · rfl
    · exfalso
      rw [← mem_segment_iff] at h2 h3 h4 h5
      -- a convex combination of the two areas vanishes
      have hzero : ∀ (S T : Segment K 2), x ∈ S.set → x ∈ T.set → orientation S.a S.b T.a = orientation S.a S.b T.b →
          area S.a S.b T.a = 0 ∧ area S.a S.b T.b = 0 := by
        intro S T hxS hxT h
        have hz : area S.a S.b x = 0 := (orientation_eq_zero _ _ _).mp ((mem_segment_iff S x).mp hxS).1
        obtain ⟨u, v, hu, hv, h1, hx⟩ := hxT
        have e : area S.a S.b x = u * area S.a S.b T.a + v * area S.a S.b T.b := by
          unfold area
          have hu' : u = 1 - v := by linear_combination h1
          rw [hx 0, hx 1, hu']; ring
        rw [hz] at e
        rcases orientation_eq _ _ _ _ _ _ h with ⟨h2, h3⟩ | h2 | ⟨h2, h3⟩
        · exfalso
          rcases eq_or_lt_of_le hu with h4 | h4
          · have : v = 1 := by linarith
            rw [← h4, this] at e; linarith
          · linarith [mul_pos h4 h2, mul_nonneg hv h3.le]
        · exact h2
        · exfalso
          rcases eq_or_lt_of_le hu with h4 | h4
          · have : v = 1 := by linarith
            rw [← h4, this] at e; linarith
          · linarith [mul_neg_of_pos_of_neg h4 h2, mul_nonpos_of_nonneg_of_nonpos hv h3.le]
      by_cases e1 : orientation S.a S.b T.a = orientation S.a S.b T.b
      · obtain ⟨z1, z2⟩ := hzero S T hxS hxT e1
        rcases collinear_case S T z1 z2 x hxS hxT with h | h | h
        exacts [h2 h, h3 h, h4 h]
      · have e2 : orientation T.a T.b S.a = orientation T.a T.b S.b := by
          by_contra hn; exact h1 ⟨e1, hn⟩
        obtain ⟨z1, z2⟩ := hzero T S hxT hxS e2
        rcases collinear_case T S z1 z2 x hxT hxS with h | h | h
        exacts [h4 h, h5 h, h2 h]

/-- **C37.** A planar segment and a box with ordered corners intersect exactly if they share a point. -/
theorem intersects_segment_box (S : Segment K 2) (B : Box K 2) (hB : B.Valid) :
    intersectsSegmentBox S B = true ↔ (S.set ∩ B.set).Nonempty := by
  have hconv : ∀ (a b : Pt K 2), a ∈ B.set → b ∈ B.set → (⟨a, b⟩ : Segment K 2).set ⊆ B.set := by
    rintro a b ha hb x ⟨u, v, hu, hv, h1, hx⟩ d
    rw [hx d]
    have e1 : ∀ m : K, m = u * m + v * m := fun m => by rw [← add_mul, h1, one_mul]
    constructor
    · rw [e1 (B.lo d)]
      exact add_le_add (mul_le_mul_of_nonneg_left (ha d).1 hu) (mul_le_mul_of_nonneg_left (hb d).1 hv)
    · rw [e1 (B.hi d)]
      exact add_le_add (mul_le_mul_of_nonneg_left (ha d).2 hu) (mul_le_mul_of_nonneg_left (hb d).2 hv)
  have hlo : B.lo ∈ B.set := fun d => ⟨le_rfl, hB d⟩
  have hhi : B.hi ∈ B.set := fun d => ⟨hB d, le_rfl⟩
  have htl : (![B.lo 0, B.hi 1] : Pt K 2) ∈ B.set := by
    intro d; fin_cases d
    · exact ⟨le_rfl, hB 0⟩
    · exact ⟨hB 1, le_rfl⟩
  have hbr : (![B.hi 0, B.lo 1] : Pt K 2) ∈ B.set := by
    intro d; fin_cases d
    · exact ⟨hB 0, le_rfl⟩
    · exact ⟨le_rfl, hB 1⟩
  unfold intersectsSegmentBox
  dsimp only
  constructor
  · intro h
    split_ifs at h with h1
    · rw [Bool.or_eq_true, intersectsPointBox_iff, intersectsPointBox_iff] at h1
      rcases h1 with h1 | h1
      · exact ⟨S.a, a_mem S, h1⟩
      · exact ⟨S.b, b_mem S, h1⟩
    · simp only [Bool.or_eq_true, intersects_segment_segment] at h
      rcases h with ((⟨x, hx, hy⟩ | ⟨x, hx, hy⟩) | ⟨x, hx, hy⟩) | ⟨x, hx, hy⟩
      · exact ⟨x, hx, hconv _ _ hlo htl hy⟩
      · exact ⟨x, hx, hconv _ _ hlo hbr hy⟩
      · exact ⟨x, hx, hconv _ _ hhi htl hy⟩
      · exact ⟨x, hx, hconv _ _ hhi hbr hy⟩
  · rintro ⟨x, hxS, hxB⟩
    split_ifs with h1
    · rfl
    · rw [Bool.or_eq_true, intersectsPointBox_iff, intersectsPointBox_iff, not_or] at h1
      obtain ⟨t, t0, t1, hy, d, hd⟩ := exit_box B x S.a hxB h1.1
      have hyS : lerp x S.a t ∈ S.set := by
        obtain ⟨u, v, hu, hv, h1, hx⟩ := hxS
        have hu' : u = 1 - v := by linear_combination h1
        refine mem_of_param S (t := (1 - t) * v) (mul_nonneg (by linarith) hv) ?_ (fun d => ?_)
        · nlinarith [mul_nonneg t0 hv]
        · unfold lerp; rw [hx d, hu']; ring
      simp only [Bool.or_eq_true, intersects_segment_segment]
      obtain ⟨y0, y0'⟩ := hy 0
      obtain ⟨y1, y1'⟩ := hy 1
      generalize lerp x S.a t = y at *
      fin_cases d
      · rcases hd with hd | hd
        · left; left; left
          exact ⟨y, hyS, mem_edge _ y 0 1 (by decide) rfl hd ⟨(min_le_left _ _).trans y1, y1'.trans (le_max_right _ _)⟩⟩
        · right
          exact ⟨y, hyS, mem_edge _ y 0 1 (by decide) rfl hd ⟨(min_le_right _ _).trans y1, y1'.trans (le_max_left _ _)⟩⟩
      · rcases hd with hd | hd
        · left; left; right
          exact ⟨y, hyS, mem_edge _ y 1 0 (by decide) rfl hd ⟨(min_le_left _ _).trans y0, y0'.trans (le_max_right _ _)⟩⟩
        · left; right
          exact ⟨y, hyS, mem_edge _ y 1 0 (by decide) rfl hd ⟨(min_le_right _ _).trans y0, y0'.trans (le_max_left _ _)⟩⟩

/-! ## Non-vacuity -/

example : intersectsSegmentSegment (K := ℚ) ⟨![0, 0], ![2, 2]⟩ ⟨![0, 2], ![2, 0]⟩ = true := by decide +kernel
example : intersectsSegmentSegment (K := ℚ) ⟨![0, 0], ![1, 1]⟩ ⟨![2, 2], ![3, 3]⟩ = false := by decide +kernel
example : intersectsSegmentBox (K := ℚ) ⟨![-1, 1/2], ![1/2, 2]⟩ ⟨![0, 0], ![1, 1]⟩ = false := by decide +kernel
example : intersectsSegmentBox (K := ℚ) ⟨![-1, 0], ![2, 1]⟩ ⟨![0, 0], ![1, 1]⟩ = true := by decide +kernel
example : (⟨![0, 0], ![1, 1]⟩ : Box ℚ 2).Valid := by intro d; fin_cases d <;> decide +kernel

end ArborX.Geometry
