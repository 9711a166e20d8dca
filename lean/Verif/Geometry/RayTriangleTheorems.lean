import Verif.Geometry.RayTriangle

/-!
# Rays and triangles, segments and triangles: theorems (C58, C59)
-/

namespace ArborX.Geometry

/-! ## Specification -/

/-- A normal of the triangle; its length is twice the area. -/
noncomputable def Triangle.normal (T : Triangle ℝ 3) : Pt ℝ 3 := cross (T.b - T.a) (T.c - T.a)

/-- The mean distance of the vertices from a point. -/
noncomputable def Triangle.meanDistance (T : Triangle ℝ 3) (o : Pt ℝ 3) : ℝ :=
  (norm3 (T.a - o) + norm3 (T.b - o) + norm3 (T.c - o)) / 3

/-- The point is on an edge of the triangle. -/
def Triangle.onEdge (T : Triangle ℝ 3) (o : Pt ℝ 3) : Prop :=
  o ∈ (Segment.mk T.a T.b).set ∨ o ∈ (Segment.mk T.b T.c).set ∨ o ∈ (Segment.mk T.c T.a).set

/-! ## Lemmas -/

lemma norm3_nonneg (v : Pt ℝ 3) : 0 ≤ norm3 v := Real.sqrt_nonneg _

lemma norm3_sq (v : Pt ℝ 3) : norm3 v * norm3 v = dot v v :=
  Real.mul_self_sqrt (Finset.sum_nonneg (fun d _ => mul_self_nonneg (v d)))

lemma norm3_zero {v : Pt ℝ 3} (h : norm3 v = 0) (d : Fin 3) : v d = 0 := by
  have h2 := norm3_sq v
  rw [h, mul_zero] at h2
  unfold dot at h2
  have := (Finset.sum_eq_zero_iff_of_nonneg (fun d _ => mul_self_nonneg (v d))).mp h2.symm d (Finset.mem_univ d)
  exact mul_self_eq_zero.mp this

lemma magSum_eq (R : Ray ℝ) (T : Triangle ℝ 3) : magSum R T = 3 * T.meanDistance R.origin := by
  unfold Triangle.meanDistance magSum norm3
  ring

lemma magSum_pos {R : Ray ℝ} {T : Triangle ℝ 3} (hT : T.NonDegenerate) : 0 < magSum R T := by
  have h : magSum R T = norm3 (T.a - R.origin) + norm3 (T.b - R.origin) + norm3 (T.c - R.origin) := rfl
  rcases lt_or_eq_of_le (show 0 ≤ magSum R T by
    rw [h]; exact add_nonneg (add_nonneg (norm3_nonneg _) (norm3_nonneg _)) (norm3_nonneg _)) with hp | h0
  · exact hp
  · exfalso
    rw [h] at h0
    have ha : norm3 (T.a - R.origin) = 0 := by
      linarith [norm3_nonneg (T.a - R.origin), norm3_nonneg (T.b - R.origin), norm3_nonneg (T.c - R.origin)]
    have hb : norm3 (T.b - R.origin) = 0 := by
      linarith [norm3_nonneg (T.a - R.origin), norm3_nonneg (T.b - R.origin), norm3_nonneg (T.c - R.origin)]
    have := hT 1 (-1) 0 (by ring) (fun d => by
      have h1 := norm3_zero ha d
      have h2 := norm3_zero hb d
      simp only [Pi.sub_apply] at h1 h2
      linarith)
    exact one_ne_zero this.1

section
variable {R : Ray ℝ} {T : Triangle ℝ 3} {mag : ℝ}

/-- The ray at `t` is a combination of the vertices. -/
lemma comb_iff (hz : R.dir (rayAxes R.dir).2.2 ≠ 0) (hm : mag ≠ 0) {a b c t : ℝ} (hs : a + b + c = 1) :
    (∀ d, R.origin d + t * R.dir d = a * T.a d + b * T.b d + c * T.c d) ↔
      (a * shear R mag T.a 0 + b * shear R mag T.b 0 + c * shear R mag T.c 0 = 0 ∧
       a * shear R mag T.a 1 + b * shear R mag T.b 1 + c * shear R mag T.c 1 = 0 ∧
       a * shear R mag T.a 2 + b * shear R mag T.b 2 + c * shear R mag T.c 2 = t) := by
  simp only [shear_eq, ← lin_comb]
  constructor
  · intro h
    have : (fun d => a * (T.a - R.origin) d + b * (T.b - R.origin) d + c * (T.c - R.origin) d) = fun d => t * R.dir d := by
      funext d
      simp only [Pi.sub_apply]
      linear_combination -h d - R.origin d * hs
    rw [this, lin_dir hz]
    simp
  · rintro ⟨h0, h1, h2⟩ d
    have := lin_zero hz hm h0 h1 d
    rw [h2] at this
    simp only [Pi.sub_apply] at this
    linear_combination -this - R.origin d * hs

lemma nondeg_shear (hT : T.NonDegenerate) (hz : R.dir (rayAxes R.dir).2.2 ≠ 0) (hm : mag ≠ 0) {a b c : ℝ} (hs : a + b + c = 0)
    (h0 : a * shear R mag T.a 0 + b * shear R mag T.b 0 + c * shear R mag T.c 0 = 0)
    (h1 : a * shear R mag T.a 1 + b * shear R mag T.b 1 + c * shear R mag T.c 1 = 0)
    (h2 : a * shear R mag T.a 2 + b * shear R mag T.b 2 + c * shear R mag T.c 2 = 0) : a = 0 ∧ b = 0 ∧ c = 0 := by
  simp only [shear_eq, ← lin_comb] at h0 h1 h2
  refine hT a b c hs (fun d => ?_)
  have := lin_zero hz hm h0 h1 d
  rw [h2] at this
  simp only [Pi.sub_apply] at this
  linear_combination this + R.origin d * hs

/-- Not all vertices are on the line of the ray. -/
lemma not_all_on_line (hT : T.NonDegenerate) (hz : R.dir (rayAxes R.dir).2.2 ≠ 0) (hm : mag ≠ 0) :
    ¬ (rotate2D (shear R mag T.a 0) (shear R mag T.a 1) = 0 ∧ rotate2D (shear R mag T.b 0) (shear R mag T.b 1) = 0 ∧
      rotate2D (shear R mag T.c 0) (shear R mag T.c 1) = 0) := by
  rintro ⟨ha, hb, hc⟩
  obtain ⟨a0, a1⟩ := rotate_zero ha
  obtain ⟨b0, b1⟩ := rotate_zero hb
  obtain ⟨c0, c1⟩ := rotate_zero hc
  obtain ⟨h1, h2, h3⟩ := nondeg_shear (a := shear R mag T.b 2 - shear R mag T.c 2) (b := shear R mag T.c 2 - shear R mag T.a 2)
    (c := shear R mag T.a 2 - shear R mag T.b 2) hT hz hm (by ring) (by rw [a0, b0, c0]; ring) (by rw [a1, b1, c1]; ring) (by ring)
  have := nondeg_shear (a := 1) (b := -1) (c := 0) hT hz hm (by ring) (by rw [a0, b0, c0]; ring) (by rw [a1, b1, c1]; ring) (by linarith)
  exact one_ne_zero this.1

/-- An edge with both ends at `0` whose ends are on different sides of the line contains the origin. -/
lemma edge_origin {p q : Pt ℝ 3} {e f : ℝ} (hz : R.dir (rayAxes R.dir).2.2 ≠ 0) (hm : mag ≠ 0)
    {x y : ℝ} (hp : shear R mag p 0 = x * e ∧ shear R mag p 1 = x * f) (hq : shear R mag q 0 = y * e ∧ shear R mag q 1 = y * f)
    (hxy : x * y ≤ 0) (hp2 : shear R mag p 2 = 0) (hq2 : shear R mag q 2 = 0) : R.origin ∈ (Segment.mk p q).set := by
  have : ∃ l : ℝ, 0 ≤ l ∧ l ≤ 1 ∧ (1 - l) * x + l * y = 0 := by
    by_cases h : x - y = 0
    · have hx : x = 0 := by
        have : x = y := by linarith
        rw [← this] at hxy
        nlinarith [mul_self_nonneg x]
      exact ⟨0, le_rfl, zero_le_one, by rw [hx]; ring⟩
    · refine ⟨x / (x - y), ?_, ?_, by field_simp; ring⟩
      · rcases lt_or_gt_of_ne h with h' | h'
        · exact div_nonneg_of_nonpos (by nlinarith) h'.le
        · exact div_nonneg (by nlinarith) h'.le
      · rcases lt_or_gt_of_ne h with h' | h'
        · rw [div_le_one_of_neg h']; nlinarith
        · rw [div_le_one₀ h']; nlinarith
  obtain ⟨l, h0, h1, hl⟩ := this
  refine ⟨1 - l, l, by linarith, h0, by ring, fun d => ?_⟩
  have key := (comb_iff (R := R) (T := ⟨p, q, q⟩) (a := 1 - l) (b := l) (c := 0) (t := 0) hz hm (by ring)).mpr
    ⟨by rw [hp.1, hq.1]; linear_combination e * hl, by rw [hp.2, hq.2]; linear_combination f * hl, by rw [hp2, hq2]; ring⟩ d
  linarith

/-- A point of the triangle on the line of the ray: the determinants are the coordinates times their sum. -/
lemma dets {A B C : Pt ℝ 3} {a b c : ℝ} (hs : a + b + c = 1) (h0 : a * A 0 + b * B 0 + c * C 0 = 0) (h1 : a * A 1 + b * B 1 + c * C 1 = 0)
    {D : ℝ} (hD : D = (C 0 * B 1 - C 1 * B 0) + (A 0 * C 1 - A 1 * C 0) + (B 0 * A 1 - B 1 * A 0)) :
    C 0 * B 1 - C 1 * B 0 = a * D ∧ A 0 * C 1 - A 1 * C 0 = b * D ∧ B 0 * A 1 - B 1 * A 0 = c * D := by
  subst hD
  have hc : c = 1 - a - b := by linarith
  subst hc
  refine ⟨?_, ?_, ?_⟩
  · linear_combination (B 1 - C 1) * h0 + (C 0 - B 0) * h1
  · linear_combination (C 1 - A 1) * h0 + (A 0 - C 0) * h1
  · linear_combination (A 1 - B 1) * h0 + (B 0 - A 0) * h1

/-- The transversal case finds the point. -/
lemma sheared_transversal {tol : Tol} (htol : 0 ≤ tol.plane) {A B C : Pt ℝ 3} {a b c t : ℝ} (ha : 0 ≤ a) (hb : 0 ≤ b) (hc : 0 ≤ c)
    (hs : a + b + c = 1) (h0 : a * A 0 + b * B 0 + c * C 0 = 0) (h1 : a * A 1 + b * B 1 + c * C 1 = 0)
    (h2 : a * A 2 + b * B 2 + c * C 2 = t)
    (hdet : tol.plane < |(C 0 * B 1 - C 1 * B 0) + (A 0 * C 1 - A 1 * C 0) + (B 0 * A 1 - B 1 * A 0)|) :
    shearedRange tol A B C = some (t, t) := by
  obtain ⟨e1, e2, e3⟩ := dets hs h0 h1 rfl
  generalize (C 0 * B 1 - C 1 * B 0) + (A 0 * C 1 - A 1 * C 0) + (B 0 * A 1 - B 1 * A 0) = D at e1 e2 e3 hdet
  unfold shearedRange
  dsimp only
  rw [e1, e2, e3]
  have hD : D ≠ 0 := by rintro rfl; rw [abs_zero] at hdet; linarith
  rw [if_neg, if_pos]
  · congr 2
    all_goals
      rw [div_eq_iff (by rw [← add_mul, ← add_mul, hs, one_mul]; exact hD)]
      linear_combination D * h2 - t * D * hs
  · rw [← add_mul, ← add_mul, hs, one_mul]
    rcases lt_or_gt_of_ne hD with h | h
    · left; rw [abs_of_neg h] at hdet; linarith
    · right; rw [abs_of_pos h] at hdet; exact hdet
  · rintro ⟨hneg, hpos⟩
    rcases lt_or_gt_of_ne hD with h | h
    · rcases hpos with h' | h' | h' <;> nlinarith [mul_nonneg ha (neg_nonneg.mpr h.le), mul_nonneg hb (neg_nonneg.mpr h.le), mul_nonneg hc (neg_nonneg.mpr h.le)]
    · rcases hneg with h' | h' | h' <;> nlinarith [mul_nonneg ha h.le, mul_nonneg hb h.le, mul_nonneg hc h.le]

/-- All determinants are zero: the coplanar case. -/
lemma sheared_coplanar {tol : Tol} (htol : 0 ≤ tol.plane) {A B C : Pt ℝ 3} (e1 : C 0 * B 1 - C 1 * B 0 = 0) (e2 : A 0 * C 1 - A 1 * C 0 = 0)
    (e3 : B 0 * A 1 - B 1 * A 0 = 0) :
    shearedRange tol A B C =
      coplanarRange tol.edge (rotate2D (A 0) (A 1), A 2) (rotate2D (B 0) (B 1), B 2) (rotate2D (C 0) (C 1), C 2) := by
  unfold shearedRange
  dsimp only
  rw [e1, e2, e3, if_neg, if_neg]
  · rintro (h | h) <;> linarith
  · rintro ⟨h, -⟩
    rcases h with h | h | h <;> linarith

/-- Every point of the triangle in front of the ray is found. -/
lemma sheared_complete {tol : Tol} (h1 : 0 ≤ tol.plane) (h2 : 0 ≤ tol.edge) (hT : T.NonDegenerate) (hz : R.dir (rayAxes R.dir).2.2 ≠ 0)
    (hm : mag ≠ 0) (ho : ¬ T.onEdge R.origin)
    (hcase : tol.plane < |mag * mag * dot T.normal R.dir / R.dir (rayAxes R.dir).2.2| ∨ dot T.normal R.dir = 0)
    {t : ℝ} (ht : t ∈ R.hits T.set) :
    inFront (shearedRange tol (shear R mag T.a) (shear R mag T.b) (shear R mag T.c)) = true := by
  obtain ⟨ht0, a, b, c, ha, hb, hc, hs, hpt⟩ := ht
  obtain ⟨k0, k1, k2⟩ := (comb_iff hz hm hs).mp hpt
  have hdet := det_eq (T := T) mag hz
  dsimp only at hdet
  rcases hcase with hcase | hcase
  · rw [sheared_transversal h1 ha hb hc hs k0 k1 k2]
    · simpa [inFront] using ht0
    · rw [hdet, abs_neg, abs_div, abs_abs]
      rw [abs_div] at hcase
      exact hcase
  · have hD : dot (cross (T.b - T.a) (T.c - T.a)) R.dir = 0 := hcase
    rw [hD, mul_zero, zero_div, neg_zero] at hdet
    obtain ⟨e1, e2, e3⟩ := dets hs k0 k1 hdet.symm
    rw [mul_zero] at e1 e2 e3
    rw [sheared_coplanar h1 e1 e2 e3]
    obtain ⟨e, f, hef, pa, pb, pc⟩ := parallel_line (p := (shear R mag T.a 0, shear R mag T.a 1)) (q := (shear R mag T.b 0, shear R mag T.b 1))
      (r := (shear R mag T.c 0, shear R mag T.c 1)) (by dsimp only; linarith) (by dsimp only; linarith) (by dsimp only; linarith)
    dsimp only at pa pb pc
    have hx : a * rotate2D (shear R mag T.a 0) (shear R mag T.a 1) + b * rotate2D (shear R mag T.b 0) (shear R mag T.b 1)
        + c * rotate2D (shear R mag T.c 0) (shear R mag T.c 1) = 0 := by
      rcases hef with h | h
      · refine (mul_eq_zero.mp ?_).resolve_right h
        linear_combination k0 - a * pa.1 - b * pb.1 - c * pc.1
      · refine (mul_eq_zero.mp ?_).resolve_right h
        linear_combination k1 - a * pa.2 - b * pb.2 - c * pc.2
    obtain ⟨lo, hi, hr, -, l2⟩ := coplanar_complete h2 (A := (rotate2D (shear R mag T.a 0) (shear R mag T.a 1), shear R mag T.a 2))
      (B := (rotate2D (shear R mag T.b 0) (shear R mag T.b 1), shear R mag T.b 2))
      (C := (rotate2D (shear R mag T.c 0) (shear R mag T.c 1), shear R mag T.c 2)) ha hb hc hs hx k2 (not_all_on_line hT hz hm)
      (fun h => ho (.inl (edge_origin hz hm pa pb h.1 h.2.1 h.2.2)))
      (fun h => ho (.inr (.inl (edge_origin hz hm pb pc h.1 h.2.1 h.2.2))))
      (fun h => ho (.inr (.inr (edge_origin hz hm pc pa h.1 h.2.1 h.2.2))))
    rw [hr]
    simpa [inFront] using finish_front l2 ht0

/-- Without tolerances, a result in front of the ray is a point of the triangle. -/
lemma sheared_sound (hz : R.dir (rayAxes R.dir).2.2 ≠ 0) (hm : mag ≠ 0)
    (h : inFront (shearedRange ⟨0, 0⟩ (shear R mag T.a) (shear R mag T.b) (shear R mag T.c)) = true) :
    (R.hits T.set).Nonempty := by
  unfold shearedRange at h
  dsimp only at h
  set A := shear R mag T.a with eA
  set B := shear R mag T.b with eB
  set C := shear R mag T.c with eC
  set u := C 0 * B 1 - C 1 * B 0 with eu
  set v := A 0 * C 1 - A 1 * C 0 with ev
  set w := B 0 * A 1 - B 1 * A 0 with ew
  split at h
  · cases h
  rename_i hmix
  rw [neg_zero] at hmix h
  split at h
  · rename_i hdet
    have hD : u + v + w ≠ 0 := fun h0 => by rcases hdet with h' | h' <;> linarith
    have hw : 0 ≤ u / (u + v + w) ∧ 0 ≤ v / (u + v + w) ∧ 0 ≤ w / (u + v + w) := by
      rcases hdet with h' | h'
      · have hle : u ≤ 0 ∧ v ≤ 0 ∧ w ≤ 0 := by
          refine ⟨?_, ?_, ?_⟩ <;> by_contra hcon <;> rw [not_le] at hcon <;> refine hmix ⟨?_, ?_⟩
          · by_contra hh; push Not at hh; linarith
          · exact .inl hcon
          · by_contra hh; push Not at hh; linarith
          · exact .inr (.inl hcon)
          · by_contra hh; push Not at hh; linarith
          · exact .inr (.inr hcon)
        exact ⟨div_nonneg_of_nonpos hle.1 h'.le, div_nonneg_of_nonpos hle.2.1 h'.le, div_nonneg_of_nonpos hle.2.2 h'.le⟩
      · have hle : 0 ≤ u ∧ 0 ≤ v ∧ 0 ≤ w := by
          refine ⟨?_, ?_, ?_⟩ <;> by_contra hcon <;> rw [not_le] at hcon <;> refine hmix ⟨?_, ?_⟩
          · exact .inl hcon
          · by_contra hh; push Not at hh; linarith
          · exact .inr (.inl hcon)
          · by_contra hh; push Not at hh; linarith
          · exact .inr (.inr hcon)
          · by_contra hh; push Not at hh; linarith
        exact ⟨div_nonneg hle.1 h'.le, div_nonneg hle.2.1 h'.le, div_nonneg hle.2.2 h'.le⟩
    have hs : u / (u + v + w) + v / (u + v + w) + w / (u + v + w) = 1 := by rw [← add_div, ← add_div, div_self hD]
    have ht : 0 ≤ (u * A 2 + v * B 2 + w * C 2) / (u + v + w) := by simpa [inFront] using h
    refine ⟨_, ht, _, _, _, hw.1, hw.2.1, hw.2.2, hs, (comb_iff hz hm hs).mpr ⟨?_, ?_, ?_⟩⟩
    · rw [← eA, ← eB, ← eC]; field_simp; rw [eu, ev, ew]; ring
    · rw [← eA, ← eB, ← eC]; field_simp; rw [eu, ev, ew]; ring
    · rw [← eA, ← eB, ← eC]; field_simp
  · rename_i hdet
    push Not at hdet hmix
    have hD : u + v + w = 0 := le_antisymm hdet.2 hdet.1
    have h0 : u = 0 ∧ v = 0 ∧ w = 0 := by
      by_cases hex : u < 0 ∨ v < 0 ∨ w < 0
      · have := hmix hex
        rcases hex with h' | h' | h' <;> exfalso <;> linarith [this.1, this.2.1, this.2.2]
      · push Not at hex
        exact ⟨by linarith [hex.1, hex.2.1, hex.2.2], by linarith [hex.1, hex.2.1, hex.2.2], by linarith [hex.1, hex.2.1, hex.2.2]⟩
    obtain ⟨e, f, hef, pa, pb, pc⟩ := parallel_line (p := (A 0, A 1)) (q := (B 0, B 1))
      (r := (C 0, C 1)) (by dsimp only; linarith [h0.2.2]) (by dsimp only; linarith [h0.1]) (by dsimp only; linarith [h0.2.1])
    dsimp only at pa pb pc
    cases hr : coplanarRange 0 (rotate2D (A 0) (A 1), A 2) (rotate2D (B 0) (B 1), B 2) (rotate2D (C 0) (C 1), C 2) with
    | none => rw [hr] at h; cases h
    | some s =>
      obtain ⟨lo, hi⟩ := s
      rw [hr] at h
      obtain ⟨a, b, c, t, ha, hb, hc, hs, ht, hx, hy⟩ := coplanar_sound hr (by simpa [inFront] using h)
      dsimp only at hx hy
      refine ⟨t, ht, a, b, c, ha, hb, hc, hs, (comb_iff hz hm hs).mpr ⟨?_, ?_, hy⟩⟩
      · rw [← eA, ← eB, ← eC]
        linear_combination a * pa.1 + b * pb.1 + c * pc.1 + e * hx
      · rw [← eA, ← eB, ← eC]
        linear_combination a * pa.2 + b * pb.2 + c * pc.2 + f * hx

end

lemma intersection_eq (tol : Tol) {R : Ray ℝ} {T : Triangle ℝ 3} (hz : R.dir (rayAxes R.dir).2.2 ≠ 0) (hT : T.NonDegenerate) :
    intersectionRayTriangle tol R T = some (shearedRange tol (shear R (3 / magSum R T) T.a) (shear R (3 / magSum R T) T.b) (shear R (3 / magSum R T) T.c)) := by
  unfold intersectionRayTriangle
  rw [if_neg]
  rintro (h | h)
  · exact hz h
  · exact (magSum_pos hT).ne' h

lemma unit_ne {dir : Pt ℝ 3} (h : dot dir dir = 1) : ∃ d, dir d ≠ 0 := by
  by_contra hcon
  push Not at hcon
  unfold dot at h
  rw [Finset.sum_eq_zero (fun d _ => by rw [hcon d, mul_zero])] at h
  exact zero_ne_one h

lemma unit_le {dir : Pt ℝ 3} (h : dot dir dir = 1) (d : Fin 3) : |dir d| ≤ 1 := by
  have h1 : dir d * dir d ≤ 1 := by
    rw [← h]
    exact Finset.single_le_sum (f := fun d => dir d * dir d) (fun d _ => mul_self_nonneg _) (Finset.mem_univ d)
  exact abs_le_one_iff_mul_self_le_one.mpr h1

/-- The determinant in terms of the normal and of the mean distance. -/
lemma det_large {tol : ℝ} (htol : 0 ≤ tol) {R : Ray ℝ} {T : Triangle ℝ 3} (hu : dot R.dir R.dir = 1) (hT : T.NonDegenerate)
    (h : tol * T.meanDistance R.origin ^ 2 < |dot T.normal R.dir|) :
    tol < |3 / magSum R T * (3 / magSum R T) * dot T.normal R.dir / R.dir (rayAxes R.dir).2.2| := by
  have hz := dirZ_ne (unit_ne hu)
  have hp := magSum_pos (R := R) hT
  have hz1 := unit_le hu (rayAxes R.dir).2.2
  have hzp : 0 < |R.dir (rayAxes R.dir).2.2| := abs_pos.mpr hz
  have hL : 0 < T.meanDistance R.origin := by rw [magSum_eq] at hp; linarith
  have hm : 3 / magSum R T = 1 / T.meanDistance R.origin := by rw [magSum_eq]; field_simp
  rw [hm, abs_div, abs_mul, abs_mul, abs_of_pos (by positivity : 0 < 1 / T.meanDistance R.origin), lt_div_iff₀ hzp]
  have h2 : tol < 1 / T.meanDistance R.origin * (1 / T.meanDistance R.origin) * |dot T.normal R.dir| := by
    have : 1 / T.meanDistance R.origin * (1 / T.meanDistance R.origin) * |dot T.normal R.dir|
        = |dot T.normal R.dir| / T.meanDistance R.origin ^ 2 := by field_simp
    rw [this, lt_div_iff₀ (by positivity)]
    exact h
  nlinarith

/-! ## Theorems -/

/-- **C58**. `intersects(Ray, Triangle)` does not miss a triangle: for a unit direction and every tolerance,
if the ray meets the triangle, the function returns true, provided that the origin is not on an edge and
that the ray is either in the plane of the triangle or not within the tolerance of it. (Missing: rays
within the tolerance of the plane, and rays which start on an edge; see the defects below.) -/
theorem ray_triangle_no_miss_partial (tol : Tol) (h1 : 0 ≤ tol.plane) (h2 : 0 ≤ tol.edge) (R : Ray ℝ) (hu : dot R.dir R.dir = 1)
    (T : Triangle ℝ 3) (hT : T.NonDegenerate) (ho : ¬ T.onEdge R.origin)
    (hcase : tol.plane * T.meanDistance R.origin ^ 2 < |dot T.normal R.dir| ∨ dot T.normal R.dir = 0)
    (hit : (R.hits T.set).Nonempty) : intersectsRayTriangle tol R T = some true := by
  obtain ⟨t, ht⟩ := hit
  have hz := dirZ_ne (unit_ne hu)
  have hp := magSum_pos (R := R) hT
  unfold intersectsRayTriangle
  rw [intersection_eq tol hz hT, Option.map_some, sheared_complete h1 h2 hT hz (div_pos three_pos hp).ne' ho _ ht]
  exact hcase.imp (det_large h1 hu hT) id

/-- **C58**. In the transversal case the function computes the parameter of the point. -/
theorem ray_triangle_parameter (tol : Tol) (h1 : 0 ≤ tol.plane) (R : Ray ℝ) (hu : dot R.dir R.dir = 1)
    (T : Triangle ℝ 3) (hT : T.NonDegenerate) (hcase : tol.plane * T.meanDistance R.origin ^ 2 < |dot T.normal R.dir|)
    (t : ℝ) (ht : (fun d => R.origin d + t * R.dir d) ∈ T.set) : intersectionRayTriangle tol R T = some (some (t, t)) := by
  obtain ⟨a, b, c, ha, hb, hc, hs, hpt⟩ := ht
  have hz := dirZ_ne (unit_ne hu)
  have hp := magSum_pos (R := R) hT
  obtain ⟨k0, k1, k2⟩ := (comb_iff hz (div_pos three_pos hp).ne' hs).mp hpt
  rw [intersection_eq tol hz hT, sheared_transversal h1 ha hb hc hs k0 k1 k2]
  have hdet := det_eq (T := T) (3 / magSum R T) hz
  dsimp only at hdet
  rw [hdet, abs_neg, abs_div, abs_abs, ← abs_div]
  exact det_large h1 hu hT hcase

/-- **C58**. In the transversal case a point which is reported is in the plane of the triangle, and within
the tolerance of the triangle. -/
theorem ray_triangle_near (tol : Tol) (h1 : 0 ≤ tol.plane) (R : Ray ℝ) (hu : dot R.dir R.dir = 1)
    (T : Triangle ℝ 3) (hT : T.NonDegenerate) (hcase : 3 * tol.plane * T.meanDistance R.origin ^ 2 < |dot T.normal R.dir|)
    (lo hi : ℝ) (h : intersectionRayTriangle tol R T = some (some (lo, hi))) :
    lo = hi ∧ ∃ a b c : ℝ, a + b + c = 1 ∧ (∀ d, R.origin d + lo * R.dir d = a * T.a d + b * T.b d + c * T.c d) ∧
      ∀ x ∈ [a, b, c], -(tol.plane * T.meanDistance R.origin ^ 2 / |dot T.normal R.dir|) ≤ x := by
  have hz := dirZ_ne (unit_ne hu)
  have hp := magSum_pos (R := R) hT
  have hL : 0 < T.meanDistance R.origin := by rw [magSum_eq] at hp; linarith
  have hm : 3 / magSum R T = 1 / T.meanDistance R.origin := by rw [magSum_eq]; field_simp
  have hm0 : 3 / magSum R T ≠ 0 := (div_pos three_pos hp).ne'
  have hlarge := det_large (tol := 3 * tol.plane) (by linarith) hu hT hcase
  have hdet := det_eq (T := T) (3 / magSum R T) hz
  dsimp only at hdet
  rw [intersection_eq tol hz hT, Option.some.injEq] at h
  have habs : |(shear R (3 / magSum R T) T.c 0 * shear R (3 / magSum R T) T.b 1 - shear R (3 / magSum R T) T.c 1 * shear R (3 / magSum R T) T.b 0) +
      (shear R (3 / magSum R T) T.a 0 * shear R (3 / magSum R T) T.c 1 - shear R (3 / magSum R T) T.a 1 * shear R (3 / magSum R T) T.c 0) +
      (shear R (3 / magSum R T) T.b 0 * shear R (3 / magSum R T) T.a 1 - shear R (3 / magSum R T) T.b 1 * shear R (3 / magSum R T) T.a 0)|
      = |3 / magSum R T * (3 / magSum R T) * dot T.normal R.dir / R.dir (rayAxes R.dir).2.2| := by
    rw [hdet, abs_neg, abs_div, abs_abs, ← abs_div]; rfl
  rw [← habs] at hlarge
  -- the bound for the coordinates
  have hbound : tol.plane / |3 / magSum R T * (3 / magSum R T) * dot T.normal R.dir / R.dir (rayAxes R.dir).2.2|
      ≤ tol.plane * T.meanDistance R.origin ^ 2 / |dot T.normal R.dir| := by
    have hn : 0 < |dot T.normal R.dir| := lt_of_le_of_lt (by positivity) hcase
    have hzp : 0 < |R.dir (rayAxes R.dir).2.2| := abs_pos.mpr hz
    have hz1 := unit_le hu (rayAxes R.dir).2.2
    have he : |3 / magSum R T * (3 / magSum R T) * dot T.normal R.dir / R.dir (rayAxes R.dir).2.2|
        = |dot T.normal R.dir| / (T.meanDistance R.origin ^ 2 * |R.dir (rayAxes R.dir).2.2|) := by
      rw [hm, abs_div, abs_mul, abs_mul, abs_of_pos (by positivity : 0 < 1 / T.meanDistance R.origin)]
      field_simp
    rw [he, div_div_eq_mul_div]
    refine div_le_div_of_nonneg_right ?_ hn.le
    have : T.meanDistance R.origin ^ 2 * |R.dir (rayAxes R.dir).2.2| ≤ T.meanDistance R.origin ^ 2 := mul_le_of_le_one_right (by positivity) hz1
    exact mul_le_mul_of_nonneg_left this h1
  rw [← habs] at hbound
  clear habs hdet hm
  generalize 3 / magSum R T = mag at *
  unfold shearedRange at h
  dsimp only at h
  set A := shear R mag T.a with eA
  set B := shear R mag T.b with eB
  set C := shear R mag T.c with eC
  set u := C 0 * B 1 - C 1 * B 0 with eu
  set v := A 0 * C 1 - A 1 * C 0 with ev
  set w := B 0 * A 1 - B 1 * A 0 with ew
  have hD : u + v + w ≠ 0 := by intro h0; rw [h0, abs_zero] at hlarge; linarith
  split at h
  · cases h
  rename_i hmix
  rw [if_pos, Option.some.injEq, Prod.mk.injEq] at h
  · obtain ⟨hlo, hhi⟩ := h
    have hs : u / (u + v + w) + v / (u + v + w) + w / (u + v + w) = 1 := by rw [← add_div, ← add_div, div_self hD]
    refine ⟨hlo.symm.trans hhi, _, _, _, hs, (comb_iff hz hm0 hs).mpr ⟨?_, ?_, ?_⟩, ?_⟩
    · rw [← eA, ← eB, ← eC]; field_simp; rw [eu, ev, ew]; ring
    · rw [← eA, ← eB, ← eC]; field_simp; rw [eu, ev, ew]; ring
    · rw [← eA, ← eB, ← eC, ← hlo]; field_simp
    · have hw : ∀ x ∈ [u, v, w], -(tol.plane / |u + v + w|) ≤ x / (u + v + w) := by
        intro x hx
        rcases lt_or_gt_of_ne hD with hneg | hpos
        · rw [abs_of_neg hneg] at hlarge ⊢
          have hxle : x ≤ tol.plane := by
            by_contra hcon
            rw [not_le] at hcon
            refine hmix ⟨?_, ?_⟩
            · by_contra hh; push Not at hh; linarith [hh.1, hh.2.1, hh.2.2]
            · simp only [List.mem_cons, List.not_mem_nil, or_false] at hx
              rcases hx with rfl | rfl | rfl
              exacts [.inl hcon, .inr (.inl hcon), .inr (.inr hcon)]
          rw [div_neg, neg_neg, div_le_div_right_of_neg hneg]
          exact hxle
        · rw [abs_of_pos hpos] at hlarge ⊢
          have hxle : -tol.plane ≤ x := by
            by_contra hcon
            rw [not_le] at hcon
            refine hmix ⟨?_, ?_⟩
            · simp only [List.mem_cons, List.not_mem_nil, or_false] at hx
              rcases hx with rfl | rfl | rfl
              exacts [.inl hcon, .inr (.inl hcon), .inr (.inr hcon)]
            · by_contra hh; push Not at hh; linarith [hh.1, hh.2.1, hh.2.2]
          rw [← neg_div]
          exact div_le_div_of_nonneg_right hxle hpos.le
      intro x hx
      simp only [List.mem_cons, List.not_mem_nil, or_false] at hx
      refine (neg_le_neg hbound).trans ?_
      rcases hx with rfl | rfl | rfl
      · exact hw u (by simp)
      · exact hw v (by simp)
      · exact hw w (by simp)
  · rcases lt_or_gt_of_ne hD with hneg | hpos
    · left; rw [abs_of_neg hneg] at hlarge; linarith
    · right; rw [abs_of_pos hpos] at hlarge; linarith

/-- **C58**. Without the tolerances `intersects(Ray, Triangle)` is exact, for every triangle and every ray
which does not start on an edge, coplanar or not. (Missing: the tolerances of the code.) -/
theorem ray_triangle_exact_partial (R : Ray ℝ) (hd : ∃ d, R.dir d ≠ 0) (T : Triangle ℝ 3) (hT : T.NonDegenerate) (ho : ¬ T.onEdge R.origin) :
    ∃ r, intersectsRayTriangle ⟨0, 0⟩ R T = some r ∧ (r = true ↔ (R.hits T.set).Nonempty) := by
  have hz := dirZ_ne hd
  have hp := magSum_pos (R := R) hT
  have hm := (div_pos three_pos hp).ne'
  unfold intersectsRayTriangle
  rw [intersection_eq _ hz hT]
  refine ⟨_, rfl, sheared_sound hz hm, fun ⟨t, ht⟩ => sheared_complete le_rfl le_rfl hT hz hm ho ?_ ht⟩
  by_cases h0 : dot T.normal R.dir = 0
  · exact .inr h0
  · left
    exact abs_pos.mpr (div_ne_zero (mul_ne_zero (mul_ne_zero hm hm) h0) hz)

lemma segment_unit {S : Segment ℝ 3} (h : norm3 (S.b - S.a) ≠ 0) : dot (segmentRay S).dir (segmentRay S).dir = 1 := by
  have h1 := norm3_sq (S.b - S.a)
  have h2 : dot (segmentRay S).dir (segmentRay S).dir = dot (S.b - S.a) (S.b - S.a) / (norm3 (S.b - S.a) * norm3 (S.b - S.a)) := by
    unfold dot segmentRay
    rw [Finset.sum_div]
    refine Finset.sum_congr rfl (fun d _ => ?_)
    simp only [Pi.sub_apply]
    field_simp
  rw [h2, ← h1, div_self (mul_ne_zero h h)]

/-- The points of a segment are the points of its ray up to its length. -/
lemma segment_mem {S : Segment ℝ 3} (h : norm3 (S.b - S.a) ≠ 0) (x : Pt ℝ 3) :
    x ∈ S.set ↔ ∃ t, 0 ≤ t ∧ t ≤ norm3 (S.b - S.a) ∧ x = fun d => (segmentRay S).origin d + t * (segmentRay S).dir d := by
  have hp : 0 < norm3 (S.b - S.a) := lt_of_le_of_ne (norm3_nonneg _) (Ne.symm h)
  constructor
  · rintro ⟨u, v, hu, hv, huv, hx⟩
    refine ⟨v * norm3 (S.b - S.a), mul_nonneg hv hp.le, ?_, ?_⟩
    · nlinarith
    · funext d
      rw [hx d]
      simp only [segmentRay]
      field_simp
      linear_combination S.a d * huv
  · rintro ⟨t, h0, h1, rfl⟩
    refine ⟨1 - t / norm3 (S.b - S.a), t / norm3 (S.b - S.a), ?_, div_nonneg h0 hp.le, by ring, fun d => ?_⟩
    · rw [sub_nonneg, div_le_one₀ hp]; exact h1
    · simp only [segmentRay]
      field_simp
      ring

/-- **C59**. `intersects(Segment, Triangle)` does not miss a triangle which the segment crosses: for every
tolerance, if they have a common point and the segment is not within the tolerance of the plane of the
triangle, the function returns true. (Missing: coplanar segments, where it is wrong.) -/
theorem segment_triangle_no_miss_partial (tol : Tol) (h1 : 0 ≤ tol.plane) (S : Segment ℝ 3) (hS : S.a ≠ S.b)
    (T : Triangle ℝ 3) (hT : T.NonDegenerate)
    (hcase : tol.plane * T.meanDistance S.a ^ 2 * norm3 (S.b - S.a) < |dot T.normal (S.b - S.a)|)
    (hit : (S.set ∩ T.set).Nonempty) : intersectsSegmentTriangle tol S T = some true := by
  have hn : norm3 (S.b - S.a) ≠ 0 := fun h0 => hS (by
    funext d
    have := norm3_zero h0 d
    simp only [Pi.sub_apply] at this
    linarith)
  have hp : 0 < norm3 (S.b - S.a) := lt_of_le_of_ne (norm3_nonneg _) (Ne.symm hn)
  obtain ⟨x, hxS, hxT⟩ := hit
  obtain ⟨t, t0, t1, rfl⟩ := (segment_mem hn x).mp hxS
  unfold intersectsSegmentTriangle
  rw [if_neg hn, ray_triangle_parameter tol h1 (segmentRay S) (segment_unit hn) T hT ?_ t hxT]
  · simpa [inSegment] using ⟨t0, t1⟩
  · have : dot T.normal (segmentRay S).dir = dot T.normal (S.b - S.a) / norm3 (S.b - S.a) := by
      unfold dot segmentRay
      rw [Finset.sum_div]
      refine Finset.sum_congr rfl (fun d _ => ?_)
      simp only [Pi.sub_apply]
      ring
    rw [this, abs_div, abs_of_pos hp, lt_div_iff₀ hp]
    exact hcase

/-- **C59**. Without the tolerances `intersects(Segment, Triangle)` is exact for segments which are not
parallel to the plane of the triangle. (Missing: the tolerances, and segments in the plane.) -/
theorem segment_triangle_exact_partial (S : Segment ℝ 3) (T : Triangle ℝ 3) (hT : T.NonDegenerate) (hpar : dot T.normal (S.b - S.a) ≠ 0) :
    ∃ r, intersectsSegmentTriangle ⟨0, 0⟩ S T = some r ∧ (r = true ↔ (S.set ∩ T.set).Nonempty) := by
  have hn : norm3 (S.b - S.a) ≠ 0 := fun h0 => hpar (by
    unfold dot
    exact Finset.sum_eq_zero (fun d _ => by rw [norm3_zero h0 d, mul_zero]))
  have hp : 0 < norm3 (S.b - S.a) := lt_of_le_of_ne (norm3_nonneg _) (Ne.symm hn)
  have hS : S.a ≠ S.b := by
    intro h
    apply hpar
    unfold dot
    exact Finset.sum_eq_zero (fun d _ => by rw [Pi.sub_apply, h, sub_self, mul_zero])
  have hu := segment_unit hn
  have hz := dirZ_ne (unit_ne hu)
  have hnd : dot T.normal (segmentRay S).dir = dot T.normal (S.b - S.a) / norm3 (S.b - S.a) := by
    unfold dot segmentRay
    rw [Finset.sum_div]
    refine Finset.sum_congr rfl (fun d _ => ?_)
    simp only [Pi.sub_apply]
    ring
  have hex : ∃ r, intersectsSegmentTriangle ⟨0, 0⟩ S T = some r := by
    unfold intersectsSegmentTriangle
    rw [if_neg hn, intersection_eq _ hz hT]
    exact ⟨_, rfl⟩
  obtain ⟨r, hr⟩ := hex
  refine ⟨r, hr, ?_, ?_⟩
  · rintro rfl
    unfold intersectsSegmentTriangle at hr
    rw [if_neg hn] at hr
    cases hi : intersectionRayTriangle ⟨0, 0⟩ (segmentRay S) T with
    | none => rw [hi] at hr; cases hr
    | some o =>
      cases o with
      | none => rw [hi] at hr; simp [inSegment] at hr
      | some s =>
        obtain ⟨lo, hi'⟩ := s
        obtain ⟨hlh, a, b, c, hs, hpt, hw⟩ := ray_triangle_near ⟨0, 0⟩ le_rfl (segmentRay S) hu T hT
          (by rw [hnd]; simpa using ⟨hpar, hn⟩) lo hi' hi
        rw [hi] at hr
        simp only [inSegment, Option.map_some, Option.some.injEq, decide_eq_true_eq] at hr
        subst hlh
        simp only [zero_mul, zero_div, neg_zero] at hw
        exact ⟨_, (segment_mem hn _).mpr ⟨lo, hr.1, hr.2, rfl⟩, a, b, c, hw a (by simp), hw b (by simp), hw c (by simp), hs, hpt⟩
  · intro hit
    have := segment_triangle_no_miss_partial ⟨0, 0⟩ le_rfl S hS T hT (by simpa using hpar) hit
    rw [hr] at this
    exact Option.some_injective _ this

/-- The range of a ray in the plane: it ends with the first and the last point of the line in the triangle. -/
lemma sheared_flat {R : Ray ℝ} {T : Triangle ℝ 3} {mag : ℝ} (hT : T.NonDegenerate) (hz : R.dir (rayAxes R.dir).2.2 ≠ 0)
    (hm : mag ≠ 0) (ho : ¬ T.onEdge R.origin) (hflat : dot T.normal R.dir = 0) {t : ℝ} (ht : (fun d => R.origin d + t * R.dir d) ∈ T.set) :
    ∃ lo hi, shearedRange ⟨0, 0⟩ (shear R mag T.a) (shear R mag T.b) (shear R mag T.c) = some (finishRange (lo, hi)) ∧
      (fun d => R.origin d + lo * R.dir d) ∈ T.set ∧ (fun d => R.origin d + hi * R.dir d) ∈ T.set ∧
      ∀ s, (fun d => R.origin d + s * R.dir d) ∈ T.set → lo ≤ s ∧ s ≤ hi := by
  have hdet := det_eq (T := T) mag hz
  dsimp only at hdet
  have hD : dot (cross (T.b - T.a) (T.c - T.a)) R.dir = 0 := hflat
  rw [hD, mul_zero, zero_div, neg_zero] at hdet
  obtain ⟨a, b, c, ha, hb, hc, hs, hpt⟩ := ht
  obtain ⟨k0, k1, k2⟩ := (comb_iff hz hm hs).mp hpt
  obtain ⟨e1, e2, e3⟩ := dets hs k0 k1 hdet.symm
  rw [mul_zero] at e1 e2 e3
  rw [sheared_coplanar le_rfl e1 e2 e3]
  obtain ⟨e, f, hef, pa, pb, pc⟩ := parallel_line (p := (shear R mag T.a 0, shear R mag T.a 1)) (q := (shear R mag T.b 0, shear R mag T.b 1))
    (r := (shear R mag T.c 0, shear R mag T.c 1)) (by dsimp only; linarith) (by dsimp only; linarith) (by dsimp only; linarith)
  dsimp only at pa pb pc
  have raw : ∀ s, (fun d => R.origin d + s * R.dir d) ∈ T.set → ∃ lo hi,
      updateRange (updateRange (updateRange none
        (rayEdge 0 (rotate2D (shear R mag T.a 0) (shear R mag T.a 1), shear R mag T.a 2) (rotate2D (shear R mag T.b 0) (shear R mag T.b 1), shear R mag T.b 2)))
        (rayEdge 0 (rotate2D (shear R mag T.b 0) (shear R mag T.b 1), shear R mag T.b 2) (rotate2D (shear R mag T.c 0) (shear R mag T.c 1), shear R mag T.c 2)))
        (rayEdge 0 (rotate2D (shear R mag T.c 0) (shear R mag T.c 1), shear R mag T.c 2) (rotate2D (shear R mag T.a 0) (shear R mag T.a 1), shear R mag T.a 2))
      = some (lo, hi) ∧ lo ≤ s ∧ s ≤ hi := by
    rintro s ⟨a, b, c, ha, hb, hc, hs, hpt⟩
    obtain ⟨k0, k1, k2⟩ := (comb_iff hz hm hs).mp hpt
    have hx : a * rotate2D (shear R mag T.a 0) (shear R mag T.a 1) + b * rotate2D (shear R mag T.b 0) (shear R mag T.b 1)
        + c * rotate2D (shear R mag T.c 0) (shear R mag T.c 1) = 0 := by
      rcases hef with h | h
      · refine (mul_eq_zero.mp ?_).resolve_right h
        linear_combination k0 - a * pa.1 - b * pb.1 - c * pc.1
      · refine (mul_eq_zero.mp ?_).resolve_right h
        linear_combination k1 - a * pa.2 - b * pb.2 - c * pc.2
    exact coplanar_raw le_rfl (A := (rotate2D (shear R mag T.a 0) (shear R mag T.a 1), shear R mag T.a 2))
      (B := (rotate2D (shear R mag T.b 0) (shear R mag T.b 1), shear R mag T.b 2))
      (C := (rotate2D (shear R mag T.c 0) (shear R mag T.c 1), shear R mag T.c 2)) ha hb hc hs hx k2 (not_all_on_line hT hz hm)
      (fun h => ho (.inl (edge_origin hz hm pa pb h.1 h.2.1 h.2.2)))
      (fun h => ho (.inr (.inl (edge_origin hz hm pb pc h.1 h.2.1 h.2.2))))
      (fun h => ho (.inr (.inr (edge_origin hz hm pc pa h.1 h.2.1 h.2.2))))
  obtain ⟨lo, hi, hr, -, -⟩ := raw t ⟨a, b, c, ha, hb, hc, hs, hpt⟩
  obtain ⟨hlo, hhi, -⟩ := range_mem _ _ _ hr
  have back : ∀ {s}, (∃ a b c : ℝ, 0 ≤ a ∧ 0 ≤ b ∧ 0 ≤ c ∧ a + b + c = 1 ∧
      a * rotate2D (shear R mag T.a 0) (shear R mag T.a 1) + b * rotate2D (shear R mag T.b 0) (shear R mag T.b 1)
        + c * rotate2D (shear R mag T.c 0) (shear R mag T.c 1) = 0 ∧
      a * shear R mag T.a 2 + b * shear R mag T.b 2 + c * shear R mag T.c 2 = s) → (fun d => R.origin d + s * R.dir d) ∈ T.set := by
    rintro s ⟨a, b, c, ha, hb, hc, hs, hx, hy⟩
    refine ⟨a, b, c, ha, hb, hc, hs, (comb_iff hz hm hs).mpr ⟨?_, ?_, hy⟩⟩
    · linear_combination a * pa.1 + b * pb.1 + c * pc.1 + e * hx
    · linear_combination a * pa.2 + b * pb.2 + c * pc.2 + f * hx
  refine ⟨lo, hi, by unfold coplanarRange; rw [hr]; rfl, back (edge_point hlo), back (edge_point hhi), fun s hs => ?_⟩
  obtain ⟨lo', hi', hr', h1, h2⟩ := raw s hs
  rw [hr, Option.some.injEq, Prod.mk.injEq] at hr'
  rw [hr'.1, hr'.2]
  exact ⟨h1, h2⟩

/-- **C59**. What `intersects(Segment, Triangle)` computes for a segment that is parallel to the plane of the triangle and does not start on an edge (without tolerances): it returns true exactly
if the segment starts in the triangle, or meets the triangle and its line does not meet the triangle beyond the end of the segment. So whatever it reports is right, and what it misses are the
segments that start outside, enter the triangle and end inside (`segment_triangle_defect`). -/
theorem segment_triangle_coplanar_partial (S : Segment ℝ 3) (hS : S.a ≠ S.b) (T : Triangle ℝ 3) (hT : T.NonDegenerate) (hflat : dot T.normal (S.b - S.a) = 0)
    (ho : ¬ T.onEdge S.a) :
    ∃ r, intersectsSegmentTriangle ⟨0, 0⟩ S T = some r ∧
      (r = true ↔ S.a ∈ T.set ∨ ((S.set ∩ T.set).Nonempty ∧ ∀ t : ℝ, 1 < t → (fun d => S.a d + t * (S.b d - S.a d)) ∉ T.set)) := by
  have hn : norm3 (S.b - S.a) ≠ 0 := fun h0 => hS (by
    funext d
    have := norm3_zero h0 d
    simp only [Pi.sub_apply] at this
    linarith)
  have hp : 0 < norm3 (S.b - S.a) := lt_of_le_of_ne (norm3_nonneg _) (Ne.symm hn)
  have hu := segment_unit hn
  have hz := dirZ_ne (unit_ne hu)
  have hm := (div_pos three_pos (magSum_pos (R := segmentRay S) hT)).ne'
  have hnd : dot T.normal (segmentRay S).dir = 0 := by
    have : dot T.normal (segmentRay S).dir = dot T.normal (S.b - S.a) / norm3 (S.b - S.a) := by
      unfold dot segmentRay
      rw [Finset.sum_div]
      refine Finset.sum_congr rfl (fun d _ => ?_)
      simp only [Pi.sub_apply]
      ring
    rw [this, hflat, zero_div]
  unfold intersectsSegmentTriangle
  rw [if_neg hn, intersection_eq _ hz hT]
  refine ⟨_, rfl, ?_⟩
  have h0 : S.a = fun d => (segmentRay S).origin d + 0 * (segmentRay S).dir d := by
    funext d; simp [segmentRay]
  have hscale : ∀ t : ℝ, (fun d => S.a d + t * (S.b d - S.a d)) = fun d => (segmentRay S).origin d + t * norm3 (S.b - S.a) * (segmentRay S).dir d := by
    intro t; funext d; simp only [segmentRay]; field_simp
  by_cases hK : ∃ t, (fun d => (segmentRay S).origin d + t * (segmentRay S).dir d) ∈ T.set
  · obtain ⟨t, ht⟩ := hK
    obtain ⟨lo, hi, hr, hlo, hhi, hall⟩ := sheared_flat (mag := 3 / magSum (segmentRay S) T) hT hz hm ho hnd ht
    rw [hr]
    have hlh : lo ≤ hi := (hall t ht).1.trans (hall t ht).2
    unfold finishRange
    dsimp only
    split_ifs with c1 c2
    · -- the segment starts in the triangle
      have hlo0 : lo ≤ 0 := by nlinarith
      have hhi0 : 0 ≤ hi := by nlinarith
      have hin : S.a ∈ T.set := by
        obtain ⟨a, b, c, ha, hb, hc, hs, hpt⟩ := hlo
        obtain ⟨a', b', c', ha', hb', hc', hs', hpt'⟩ := hhi
        rcases hlh.lt_or_eq with hlt | heq
        · have hd : 0 < hi - lo := by linarith
          have l1 : 0 ≤ hi / (hi - lo) := div_nonneg hhi0 hd.le
          have l2 : 0 ≤ -lo / (hi - lo) := div_nonneg (by linarith) hd.le
          have l3 : hi / (hi - lo) + -lo / (hi - lo) = 1 := by field_simp; ring
          have l4 : hi / (hi - lo) * lo + -lo / (hi - lo) * hi = 0 := by field_simp; ring
          generalize hi / (hi - lo) = l at l1 l3 l4
          generalize -lo / (hi - lo) = m at l2 l3 l4
          refine ⟨l * a + m * a', l * b + m * b', l * c + m * c', by positivity, by positivity, by positivity, ?_, fun d => ?_⟩
          · linear_combination l * hs + m * hs' + l3
          · have e1 := hpt d
            have e2 := hpt' d
            have e3 := congrFun h0 d
            rw [e3]
            linear_combination l * e1 + m * e2 - (segmentRay S).origin d * l3 - (segmentRay S).dir d * l4
        · have : lo = 0 := by linarith
          subst this
          rw [h0]
          exact ⟨a, b, c, ha, hb, hc, hs, hpt⟩
      simp [inSegment, hp.le, hin]
    · -- behind the start
      have hhi0 : hi < 0 := by nlinarith
      simp only [inSegment, decide_eq_true_eq]
      constructor
      · rintro ⟨h, -⟩; linarith
      · rintro (h | ⟨⟨x, hxS, hxT⟩, -⟩)
        · rw [h0] at h
          linarith [(hall 0 h).2]
        · obtain ⟨s, s0, s1, rfl⟩ := (segment_mem hn x).mp hxS
          linarith [(hall s hxT).2]
    · have hlo0 : 0 < lo := by
        rcases lt_trichotomy lo 0 with h | h | h
        · exact absurd h c2
        · exact absurd (by rw [h, zero_mul]) c1
        · exact h
      simp only [inSegment, decide_eq_true_eq]
      constructor
      · rintro ⟨g1, g2⟩
        refine .inr ⟨⟨_, (segment_mem hn _).mpr ⟨hi, g1, g2, rfl⟩, hhi⟩, fun t ht hmem => ?_⟩
        rw [hscale] at hmem
        have := (hall _ hmem).2
        nlinarith
      · rintro (h | ⟨-, h⟩)
        · rw [h0] at h
          linarith [(hall 0 h).1]
        · refine ⟨by linarith, ?_⟩
          by_contra hcon
          rw [not_le] at hcon
          refine h (hi / norm3 (S.b - S.a)) (by rw [one_lt_div hp]; exact hcon) ?_
          rw [hscale, div_mul_cancel₀ _ hn]
          exact hhi
  · constructor
    · intro hin
      exfalso
      apply hK
      have hf : inFront (shearedRange ⟨0, 0⟩ (shear (segmentRay S) (3 / magSum (segmentRay S) T) T.a) (shear (segmentRay S) (3 / magSum (segmentRay S) T) T.b)
          (shear (segmentRay S) (3 / magSum (segmentRay S) T) T.c)) = true := by
        revert hin
        cases shearedRange ⟨0, 0⟩ (shear (segmentRay S) (3 / magSum (segmentRay S) T) T.a) (shear (segmentRay S) (3 / magSum (segmentRay S) T) T.b)
          (shear (segmentRay S) (3 / magSum (segmentRay S) T) T.c) with
        | none => simp [inSegment]
        | some s =>
          simp only [inSegment, inFront, decide_eq_true_eq]
          exact fun h => h.1
      obtain ⟨t, -, ht⟩ := sheared_sound hz hm hf
      exact ⟨t, ht⟩
    · rintro (h | ⟨⟨x, hxS, hxT⟩, -⟩)
      · exact absurd ⟨0, by rwa [h0] at h⟩ hK
      · obtain ⟨s, s0, s1, rfl⟩ := (segment_mem hn x).mp hxS
        exact absurd ⟨s, hxT⟩ hK

/-! ## Defects -/

/-- The ray along the last axis. -/
noncomputable def upRay : Ray ℝ := ⟨![0, 0, 0], ![0, 0, 1], fun _ => false⟩

lemma up_axes : rayAxes upRay.dir = (0, 1, 2) := by
  have h : findLargestComp upRay.dir = 2 := by simp [findLargestComp, upRay]
  have h2 : ¬ upRay.dir 2 < 0 := by simp only [upRay, Matrix.cons_val]; norm_num
  unfold rayAxes
  rw [h]
  exact (if_neg h2).trans (by decide)

/-- Within the tolerance: the coplanar case. -/
lemma sheared_within {tol : Tol} {A B C : Pt ℝ 3} (hu : |C 0 * B 1 - C 1 * B 0| ≤ tol.plane) (hv : |A 0 * C 1 - A 1 * C 0| ≤ tol.plane)
    (hw : |B 0 * A 1 - B 1 * A 0| ≤ tol.plane)
    (hd : |(C 0 * B 1 - C 1 * B 0) + (A 0 * C 1 - A 1 * C 0) + (B 0 * A 1 - B 1 * A 0)| ≤ tol.plane) :
    shearedRange tol A B C =
      coplanarRange tol.edge (rotate2D (A 0) (A 1), A 2) (rotate2D (B 0) (B 1), B 2) (rotate2D (C 0) (C 1), C 2) := by
  rw [abs_le] at hu hv hw hd
  unfold shearedRange
  dsimp only
  rw [if_neg, if_neg]
  · rintro (h | h) <;> linarith [hd.1, hd.2]
  · rintro ⟨-, h⟩
    rcases h with h | h | h <;> linarith [hu.2, hv.2, hw.2]

lemma up_shear (mag : ℝ) (p : Pt ℝ 3) : shear upRay mag p = ![p 0 * mag, p 1 * mag, p 2] := by
  unfold shear
  rw [up_axes]
  simp [upRay]

lemma up_intersection (tol : Tol) {T : Triangle ℝ 3} (h : magSum upRay T ≠ 0) :
    intersectionRayTriangle tol upRay T = some (shearedRange tol (shear upRay (3 / magSum upRay T) T.a)
      (shear upRay (3 / magSum upRay T) T.b) (shear upRay (3 / magSum upRay T) T.c)) := by
  unfold intersectionRayTriangle
  rw [if_neg]
  rw [up_axes]
  rintro (h' | h')
  · simp [upRay] at h'
  · exact h h'

lemma rotate_x {x : ℝ} : rotate2D x 0 = x := by
  unfold rotate2D
  simp only [mul_zero, add_zero, Real.sqrt_mul_self_eq_abs]
  rcases lt_trichotomy x 0 with h | rfl | h
  · rw [if_pos h.ne, if_neg (not_lt.mpr h.le), abs_of_neg h]; ring
  · simp
  · rw [if_pos h.ne', if_pos h, abs_of_pos h]; ring

/-- A small triangle at distance 1, beside the ray. -/
noncomputable def smallTriangle : Triangle ℝ 3 := ⟨![-1 / 100000, 1 / 10000, 1], ![1 / 100000, 1 / 10000, 1], ![0, 11 / 100000, 1]⟩

/-- The ray passes a triangle which is small compared with its distance, at ten times the size of the
triangle, and `intersects(Ray, Triangle)` returns true: the scaled areas are compared with the absolute
tolerance `1e-7`, and the ray is taken for coplanar. -/
theorem ray_triangle_defect_small (tol : Tol) (h1 : 1 / 10000000 ≤ tol.plane) (h2 : 0 ≤ tol.edge) :
    smallTriangle.NonDegenerate ∧ dot upRay.dir upRay.dir = 1 ∧ (upRay.hits smallTriangle.set) = ∅ ∧
      intersectsRayTriangle tol upRay smallTriangle = some true := by
  refine ⟨?_, ?_, ?_, ?_⟩
  · intro u v w hs h
    have h0 := h 0
    have h1 := h 1
    simp [smallTriangle] at h0 h1
    have hw : w = 0 := by linarith
    have huv : u = v := by linarith
    exact ⟨by linarith, by linarith, hw⟩
  · simp [dot, upRay, Fin.sum_univ_three]
  · rw [Set.eq_empty_iff_forall_notMem]
    rintro t ⟨-, u, v, w, hu, hv, hw, hs, h⟩
    have := h 1
    simp [smallTriangle, upRay] at this
    linarith
  · have hn : ∀ p : Pt ℝ 3, p 2 = 1 → 1 ≤ Real.sqrt (dot (p - upRay.origin) (p - upRay.origin)) := by
      intro p hp
      rw [Real.one_le_sqrt]
      unfold dot
      rw [Fin.sum_univ_three]
      simp only [Pi.sub_apply, upRay, Matrix.cons_val, sub_zero, hp]
      nlinarith [mul_self_nonneg (p 0), mul_self_nonneg (p 1)]
    have hmag : 3 ≤ magSum upRay smallTriangle := by
      unfold magSum
      have a := hn smallTriangle.a (by simp [smallTriangle])
      have b := hn smallTriangle.b (by simp [smallTriangle])
      have c := hn smallTriangle.c (by simp [smallTriangle])
      linarith
    unfold intersectsRayTriangle
    rw [up_intersection tol (by linarith), up_shear, up_shear, up_shear]
    have m1 : 3 / magSum upRay smallTriangle ≤ 1 := by rw [div_le_one₀ (by linarith)]; exact hmag
    have m0 : 0 < 3 / magSum upRay smallTriangle := by positivity
    generalize 3 / magSum upRay smallTriangle = m at m0 m1
    have mm : m * m ≤ 1 := by nlinarith
    have mp : 0 < m * m := mul_pos m0 m0
    rw [sheared_within]
    · simp only [smallTriangle, Matrix.cons_val]
      -- the edge from the first to the second vertex
      have hr : rotate2D (-1 / 100000 * m) (1 / 10000 * m) = - rotate2D (1 / 100000 * m) (1 / 10000 * m) := by
        unfold rotate2D
        dsimp only
        rw [if_pos (by nlinarith), if_neg (by nlinarith), if_pos (by positivity), if_pos (by positivity)]
        ring_nf
      have hpos : rotate2D (1 / 100000 * m) (1 / 10000 * m) ≠ 0 := fun h => by
        have := (rotate_zero h).1
        nlinarith
      rw [hr]
      generalize rotate2D (1 / 100000 * m) (1 / 10000 * m) = r at hpos
      have hc : Crosses (-r, (1 : ℝ)) (r, 1) 1 := ⟨fun h => hpos (by dsimp only at h; linarith), by dsimp only; nlinarith [mul_self_nonneg r], by ring⟩
      obtain ⟨lo, hi, e, l1, l2⟩ := range_spec (rayEdge tol.edge (-r, (1 : ℝ)) (r, 1)) (rayEdge tol.edge (r, (1 : ℝ)) (rotate2D (0 * m) (11 / 100000 * m), 1))
        (rayEdge tol.edge (rotate2D (0 * m) (11 / 100000 * m), 1) (-r, (1 : ℝ))) (.inl (rayEdge_hit h2 hc (by simp)))
      unfold coplanarRange
      rw [e]
      simpa [inFront] using finish_front l2 zero_le_one
    all_goals
      simp only [smallTriangle, Matrix.cons_val]
      rw [abs_le]
      constructor <;> nlinarith

/-- A triangle with an edge through the origin of the ray, behind the ray otherwise. -/
noncomputable def edgeTriangle : Triangle ℝ 3 := ⟨![-1, 0, 0], ![1, 0, 0], ![0, 0, -5]⟩

/-- The ray starts on an edge of the triangle and `intersects(Ray, Triangle)` returns false:
`rayEdgeIntersect` takes an edge with two vertices at parameter 0 for parallel to the ray. -/
theorem ray_triangle_defect_edge (tol : Tol) (h1 : 0 ≤ tol.plane) (h2 : 0 ≤ tol.edge) :
    edgeTriangle.NonDegenerate ∧ dot upRay.dir upRay.dir = 1 ∧ 0 ∈ upRay.hits edgeTriangle.set ∧
      intersectsRayTriangle tol upRay edgeTriangle = some false := by
  refine ⟨?_, ?_, ?_, ?_⟩
  · intro u v w hs h
    have h0 := h 0
    have h2 := h 2
    simp [edgeTriangle] at h0 h2
    exact ⟨by linarith, by linarith, h2⟩
  · simp [dot, upRay, Fin.sum_univ_three]
  · refine ⟨le_rfl, 1 / 2, 1 / 2, 0, by norm_num, by norm_num, le_rfl, by norm_num, fun d => ?_⟩
    fin_cases d <;> simp [edgeTriangle, upRay]
  · have hmag : 0 < magSum upRay edgeTriangle := by
      unfold magSum
      have : (0 : ℝ) < Real.sqrt (dot (edgeTriangle.a - upRay.origin) (edgeTriangle.a - upRay.origin)) := by
        rw [Real.sqrt_pos]
        simp [dot, upRay, edgeTriangle, Fin.sum_univ_three]
      positivity
    unfold intersectsRayTriangle
    rw [up_intersection tol hmag.ne', up_shear, up_shear, up_shear]
    have m0 : 0 < 3 / magSum upRay edgeTriangle := by positivity
    generalize 3 / magSum upRay edgeTriangle = m at m0
    rw [sheared_coplanar h1 (by simp [edgeTriangle]) (by simp [edgeTriangle]) (by simp [edgeTriangle])]
    simp only [edgeTriangle, Matrix.cons_val, zero_mul, rotate_x]
    unfold coplanarRange
    have e1 : rayEdge tol.edge (-1 * m, (0 : ℝ)) (1 * m, 0) = none := by simp [rayEdge]
    have e2 : rayEdge tol.edge (1 * m, (0 : ℝ)) (0, -5) = some (-5) :=
      rayEdge_hit h2 ⟨by dsimp only; linarith, by simp, by ring⟩ (by simp)
    have e3 : rayEdge tol.edge (0, -5) (-1 * m, (0 : ℝ)) = some (-5) :=
      rayEdge_hit h2 ⟨by dsimp only; linarith, by simp, by ring⟩ (by simp)
    rw [e1, e2, e3]
    norm_num [updateRange, finishRange, inFront]

/-- A triangle in a plane with the ray. -/
noncomputable def flatTriangle : Triangle ℝ 3 := ⟨![-1, 0, 1], ![1, 0, 1], ![0, 0, 5]⟩

/-- The segment from below the triangle to a point inside the triangle. -/
noncomputable def flatSegment : Segment ℝ 3 := ⟨![0, 0, 0], ![0, 0, 2]⟩

/-- A segment in the plane of the triangle enters the triangle and ends inside, and
`intersects(Segment, Triangle)` returns false: only the point where the line leaves the triangle is compared
with the length of the segment. -/
theorem segment_triangle_defect (tol : Tol) (h1 : 0 ≤ tol.plane) (h2 : 0 ≤ tol.edge) :
    flatTriangle.NonDegenerate ∧ flatSegment.b ∈ flatTriangle.set ∧ (flatSegment.set ∩ flatTriangle.set).Nonempty ∧
      intersectsSegmentTriangle tol flatSegment flatTriangle = some false := by
  have hb : flatSegment.b ∈ flatTriangle.set := by
    refine ⟨3 / 8, 3 / 8, 1 / 4, by norm_num, by norm_num, by norm_num, by norm_num, fun d => ?_⟩
    fin_cases d <;> norm_num [flatTriangle, flatSegment]
  refine ⟨?_, hb, ⟨_, ⟨0, 1, le_rfl, zero_le_one, by norm_num, fun d => by ring⟩, hb⟩, ?_⟩
  · intro u v w hs h
    have h0 := h 0
    have h2 := h 2
    simp [flatTriangle] at h0 h2
    have : w = 0 := by linarith
    exact ⟨by linarith, by linarith, this⟩
  · have hlen : norm3 (flatSegment.b - flatSegment.a) = 2 := by
      unfold norm3 dot
      rw [Fin.sum_univ_three]
      simp [flatSegment]
    have hray : segmentRay flatSegment = upRay := by
      unfold segmentRay upRay
      rw [hlen]
      congr 1
      funext d
      fin_cases d <;> simp [flatSegment]
    unfold intersectsSegmentTriangle
    rw [hlen, if_neg (by norm_num), hray]
    have hmag : 0 < magSum upRay flatTriangle := by
      unfold magSum
      have : (0 : ℝ) < Real.sqrt (dot (flatTriangle.a - upRay.origin) (flatTriangle.a - upRay.origin)) := by
        rw [Real.sqrt_pos]
        simp only [dot, upRay, flatTriangle, Fin.sum_univ_three, Pi.sub_apply, Matrix.cons_val]
        norm_num
      positivity
    rw [up_intersection tol hmag.ne', up_shear, up_shear, up_shear]
    have m0 : 0 < 3 / magSum upRay flatTriangle := by positivity
    generalize 3 / magSum upRay flatTriangle = m at m0
    rw [sheared_coplanar h1 (by simp [flatTriangle]) (by simp [flatTriangle]) (by simp [flatTriangle])]
    simp only [flatTriangle, Matrix.cons_val, zero_mul, rotate_x]
    unfold coplanarRange
    have e1 : rayEdge tol.edge (-1 * m, (1 : ℝ)) (1 * m, 1) = some 1 :=
      rayEdge_hit h2 ⟨by dsimp only; linarith, by dsimp only; nlinarith, by ring⟩ (by simp)
    have e2 : rayEdge tol.edge (1 * m, (1 : ℝ)) (0, 5) = some 5 :=
      rayEdge_hit h2 ⟨by dsimp only; linarith, by simp, by ring⟩ (by simp)
    have e3 : rayEdge tol.edge (0, 5) (-1 * m, (1 : ℝ)) = some 5 :=
      rayEdge_hit h2 ⟨by dsimp only; linarith, by simp, by ring⟩ (by simp)
    rw [e1, e2, e3]
    norm_num [updateRange, finishRange, inSegment]

/-! ## The hypotheses are met -/

/-- The hypotheses of `segment_triangle_coplanar_partial`, with a segment through the whole triangle. -/
example : (⟨![0, 0, 0], ![0, 0, 6]⟩ : Segment ℝ 3).a ≠ (⟨![0, 0, 0], ![0, 0, 6]⟩ : Segment ℝ 3).b ∧ dot flatTriangle.normal (![0, 0, 6] - ![0, 0, 0]) = 0 ∧
    ¬ flatTriangle.onEdge ![0, 0, 0] ∧ ((⟨![0, 0, 0], ![0, 0, 6]⟩ : Segment ℝ 3).set ∩ flatTriangle.set).Nonempty := by
  refine ⟨fun h => ?_, ?_, ?_, ![0, 0, 2], ⟨2 / 3, 1 / 3, by norm_num, by norm_num, by norm_num, fun d => ?_⟩,
    ⟨3 / 8, 3 / 8, 1 / 4, by norm_num, by norm_num, by norm_num, by norm_num, fun d => ?_⟩⟩
  · have := congrFun h 2
    simp at this
  · simp [dot, Fin.sum_univ_three, Triangle.normal, cross, flatTriangle]
  · rintro (⟨u, v, hu, hv, huv, h⟩ | ⟨u, v, hu, hv, huv, h⟩ | ⟨u, v, hu, hv, huv, h⟩) <;> have h2 := h 2 <;> simp [flatTriangle] at h2 <;> nlinarith
  · fin_cases d <;> norm_num
  · fin_cases d <;> norm_num [flatTriangle]

/-- A triangle across the ray. -/
noncomputable def acrossTriangle : Triangle ℝ 3 := ⟨![-1, -1, 2], ![1, -1, 2], ![0, 1, 2]⟩

lemma across_nondeg : acrossTriangle.NonDegenerate := by
  intro u v w hs h
  have h0 := h 0
  have h1 := h 1
  simp [acrossTriangle] at h0 h1
  exact ⟨by linarith, by linarith, by linarith⟩

lemma across_normal : dot acrossTriangle.normal upRay.dir = 4 := by
  unfold dot Triangle.normal cross
  rw [Fin.sum_univ_three]
  simp only [acrossTriangle, upRay, Pi.sub_apply, Matrix.cons_val]
  norm_num

lemma across_edge : ¬ acrossTriangle.onEdge upRay.origin := by
  rintro (⟨u, v, -, -, h, e⟩ | ⟨u, v, -, -, h, e⟩ | ⟨u, v, -, -, h, e⟩) <;>
  · have := e 2
    simp [acrossTriangle, upRay] at this
    linarith

lemma across_hit : (fun d => upRay.origin d + 2 * upRay.dir d) ∈ acrossTriangle.set := by
  refine ⟨1 / 4, 1 / 4, 1 / 2, by norm_num, by norm_num, by norm_num, by norm_num, fun d => ?_⟩
  fin_cases d <;> norm_num [acrossTriangle, upRay]

lemma across_mean : acrossTriangle.meanDistance upRay.origin ≤ 3 := by
  have h : ∀ p : Pt ℝ 3, dot (p - upRay.origin) (p - upRay.origin) ≤ 9 → norm3 (p - upRay.origin) ≤ 3 := by
    intro p hp
    unfold norm3
    rw [Real.sqrt_le_left (by norm_num)]
    linarith
  have a := h acrossTriangle.a (by unfold dot; rw [Fin.sum_univ_three]; simp only [acrossTriangle, upRay, Pi.sub_apply, Matrix.cons_val]; norm_num)
  have b := h acrossTriangle.b (by unfold dot; rw [Fin.sum_univ_three]; simp only [acrossTriangle, upRay, Pi.sub_apply, Matrix.cons_val]; norm_num)
  have c := h acrossTriangle.c (by unfold dot; rw [Fin.sum_univ_three]; simp only [acrossTriangle, upRay, Pi.sub_apply, Matrix.cons_val]; norm_num)
  unfold Triangle.meanDistance
  linarith

lemma across_case : 3 * (1 / 10000000) * acrossTriangle.meanDistance upRay.origin ^ 2 < |dot acrossTriangle.normal upRay.dir| := by
  rw [across_normal]
  have h0 : 0 ≤ acrossTriangle.meanDistance upRay.origin := by
    unfold Triangle.meanDistance
    have := norm3_nonneg (acrossTriangle.a - upRay.origin)
    have := norm3_nonneg (acrossTriangle.b - upRay.origin)
    have := norm3_nonneg (acrossTriangle.c - upRay.origin)
    positivity
  have := across_mean
  rw [abs_of_pos (by norm_num)]
  nlinarith

example : intersectsRayTriangle ⟨1 / 10000000, 1 / 100000⟩ upRay acrossTriangle = some true :=
  ray_triangle_no_miss_partial _ (by norm_num) (by norm_num) upRay (by simp [dot, upRay, Fin.sum_univ_three]) _ across_nondeg across_edge
    (.inl (by have := across_case; dsimp only; nlinarith [sq_nonneg (acrossTriangle.meanDistance upRay.origin)])) ⟨2, by norm_num, across_hit⟩

example : intersectionRayTriangle ⟨1 / 10000000, 1 / 100000⟩ upRay acrossTriangle = some (some (2, 2)) :=
  ray_triangle_parameter _ (by norm_num) upRay (by simp [dot, upRay, Fin.sum_univ_three]) _ across_nondeg
    (by have := across_case; dsimp only; nlinarith [sq_nonneg (acrossTriangle.meanDistance upRay.origin)]) 2 across_hit

/-- The coplanar case: the triangle above the origin. -/
example : intersectsRayTriangle ⟨1 / 10000000, 1 / 100000⟩ upRay flatTriangle = some true := by
  refine ray_triangle_no_miss_partial _ (by norm_num) (by norm_num) upRay (by simp [dot, upRay, Fin.sum_univ_three]) _
    (segment_triangle_defect ⟨0, 0⟩ le_rfl le_rfl).1 ?_ (.inr ?_) ⟨2, by norm_num, ?_⟩
  · rintro (⟨u, v, hu, hv, h, e⟩ | ⟨u, v, hu, hv, h, e⟩ | ⟨u, v, hu, hv, h, e⟩) <;>
    · have := e 2
      simp [flatTriangle, upRay] at this
      linarith
  · unfold dot Triangle.normal cross
    rw [Fin.sum_univ_three]
    simp only [flatTriangle, upRay, Pi.sub_apply, Matrix.cons_val]
    norm_num
  · refine ⟨3 / 8, 3 / 8, 1 / 4, by norm_num, by norm_num, by norm_num, by norm_num, fun d => ?_⟩
    fin_cases d <;> norm_num [flatTriangle, upRay]

example : ∃ r, intersectsRayTriangle ⟨0, 0⟩ upRay acrossTriangle = some r ∧ (r = true ↔ (upRay.hits acrossTriangle.set).Nonempty) :=
  ray_triangle_exact_partial upRay ⟨2, by simp [upRay]⟩ _ across_nondeg across_edge

example : ∃ r, intersectsSegmentTriangle ⟨0, 0⟩ ⟨![0, 0, 0], ![0, 0, 3]⟩ acrossTriangle = some r ∧
    (r = true ↔ ((Segment.mk ![0, 0, 0] ![0, 0, 3]).set ∩ acrossTriangle.set).Nonempty) :=
  segment_triangle_exact_partial _ _ across_nondeg (by
    unfold dot Triangle.normal cross
    rw [Fin.sum_univ_three]
    simp only [acrossTriangle, Pi.sub_apply, Matrix.cons_val]
    norm_num)

example := (ray_triangle_near ⟨1 / 10000000, 1 / 100000⟩ (by norm_num) upRay (by simp [dot, upRay, Fin.sum_univ_three]) acrossTriangle across_nondeg
    across_case 2 2 (ray_triangle_parameter _ (by norm_num) upRay (by simp [dot, upRay, Fin.sum_univ_three]) _ across_nondeg
      (by have := across_case; dsimp only; nlinarith [sq_nonneg (acrossTriangle.meanDistance upRay.origin)]) 2 across_hit)).2

end ArborX.Geometry
