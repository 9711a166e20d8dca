import Verif.Fp.ValidModel
import Verif.Fp.Curve
import Verif.Fp.AnyGeometry
import Verif.Geometry.RayExact

/-!
# Property theorems: valid and equal geometries (C104)
-/

namespace ArborX.Fp

open Nearest Geometry

variable {D : ℕ}

/-! ## Specification -/

/-- All coordinates are finite numbers. -/
def FinitePoint (p : Fin D → Num) : Prop := ∀ d, ∃ x : ℝ, p d = some (x : EReal)

/-- No coordinate is NaN. -/
def NoNan (p : Fin D → Num) : Prop := ∀ d, p d ≠ none

/-- The coordinates are numbers of the format, infinities, or NaN. -/
def Format.Has (F : Format) (p : Fin D → Fp.Num) : Prop := ∀ d, ∀ x : ℝ, p d = some (x : EReal) → F.rnd x = x

/-! ## Lemmas -/

lemma nfinite_iff (x : Num) : nfinite x = true ↔ ∃ y : ℝ, x = some (y : EReal) := by
  cases x with
  | none => simp [nfinite]
  | some x =>
    induction x with
    | bot => simp [nfinite]
    | top => simp [nfinite]
    | coe x => simp [nfinite]

lemma nne_iff (x y : Num) : nne x y = false ↔ ∃ z, x = some z ∧ y = some z := by
  cases x with
  | none => simp [nne]
  | some x =>
    cases y with
    | none => simp [nne]
    | some y =>
      simp only [nne, decide_eq_false_iff_not, not_not, Option.some.injEq]
      exact ⟨fun h => ⟨x, rfl, h.symm⟩, fun ⟨z, h1, h2⟩ => h1.trans h2.symm⟩

/-- A difference is finite only if both operands are. -/
lemma nsub_finite (F : Format) (x y : Num) (z : ℝ) (h : F.nsub x y = some (z : EReal)) :
    ∃ a b : ℝ, x = some (a : EReal) ∧ y = some (b : EReal) ∧ F.rnd (a - b) = z := by
  cases x with
  | none => simp [Format.nsub] at h
  | some x =>
    cases y with
    | none => simp [Format.nsub] at h
    | some y =>
      induction x with
      | bot => induction y <;> simp [Format.nsub] at h
      | top => induction y <;> simp [Format.nsub] at h
      | coe x =>
        induction y with
        | bot => simp [Format.nsub] at h
        | top => simp [Format.nsub] at h
        | coe y => exact ⟨x, y, rfl, rfl, by simpa [Format.nsub] using h⟩

lemma axis_valid_iff (F : Format) (lo hi : Num) :
    (!(nanLe (F.nsub hi lo) (some 0) || !(nfinite (F.nsub hi lo)))) = true ↔
      ∃ x y : ℝ, lo = some (x : EReal) ∧ hi = some (y : EReal) ∧ 0 < F.rnd (y - x) ∧ F.rnd (y - x) ≠ ⊤ := by
  rw [Bool.not_eq_true', Bool.or_eq_false_iff, Bool.not_eq_false', nfinite_iff]
  constructor
  · rintro ⟨h1, z, hz⟩
    obtain ⟨y, x, hy, hx, he⟩ := nsub_finite F _ _ z hz
    refine ⟨x, y, hx, hy, ?_, by rw [he]; exact EReal.coe_ne_top z⟩
    rw [he]
    rw [hz] at h1
    simpa [nanLe] using h1
  · rintro ⟨x, y, rfl, rfl, h1, h2⟩
    rw [nsub_coe]
    have hb : F.rnd (y - x) ≠ ⊥ := fun h => by rw [h] at h1; simp at h1
    obtain ⟨z, hz⟩ : ∃ z : ℝ, F.rnd (y - x) = z := ⟨_, (EReal.coe_toReal h2 hb).symm⟩
    refine ⟨by simpa [nanLe] using h1, z, by rw [hz]⟩

/-- Where no nonzero difference is rounded to zero, the rounded difference is positive exactly if the difference is. -/
lemma Format.Gradual.sub_pos {F : Format} (hF : F.Gradual) {x y : ℝ} (hx : F.rnd x = x) (hy : F.rnd y = y) : 0 < F.rnd (y - x) ↔ x < y := by
  constructor
  · intro h
    by_contra hle
    have : F.rnd (y - x) ≤ F.rnd 0 := F.mono (by linarith [not_lt.mp hle])
    rw [F.rnd_zero] at this
    exact absurd h (not_lt.mpr this)
  · intro h
    have h0 : 0 ≤ F.rnd (y - x) := by
      rw [← F.rnd_zero]
      exact F.mono (by linarith)
    exact lt_of_le_of_ne h0 fun e => h.ne (hF y x hy hx e.symm).symm

/-! ## Property theorems -/

/-- **C104.** A point is valid exactly if all its coordinates are finite numbers. -/
theorem valid_point_iff (p : Fin D → Num) : validPoint p = true ↔ FinitePoint p := by
  unfold validPoint FinitePoint
  rw [List.all_eq_true]
  simp only [Bool.not_not, nfinite_iff, List.mem_finRange, forall_const]

/-- **C104.** A sphere is valid exactly if its centre has finite coordinates and its radius is a finite number that is not negative. -/
theorem valid_sphere_iff (c : Fin D → Num) (r : Num) : validSphere c r = true ↔ FinitePoint c ∧ ∃ x : ℝ, r = some (x : EReal) ∧ 0 ≤ x := by
  unfold validSphere
  rw [Bool.and_eq_true, Bool.and_eq_true, valid_point_iff, nfinite_iff, and_assoc]
  refine and_congr_right fun _ => ?_
  constructor
  · rintro ⟨⟨x, rfl⟩, h⟩
    exact ⟨x, rfl, by simpa [nanLe] using h⟩
  · rintro ⟨x, rfl, h⟩
    exact ⟨⟨x, rfl⟩, by simpa [nanLe] using h⟩

/-- **C104.** A box is valid exactly if its corners have finite coordinates, the lower one is strictly below the upper one along every axis, and no extent
overflows. (For formats in which different numbers have a nonzero difference, as `float` and `double`.) -/
theorem valid_box_iff (F : Format) (hF : F.Gradual) (lo hi : Fin D → Num) (hlo : F.Has lo) (hhi : F.Has hi) :
    F.validBox lo hi = true ↔
      ∀ d, ∃ x y : ℝ, lo d = some (x : EReal) ∧ hi d = some (y : EReal) ∧ x < y ∧ F.rnd (y - x) ≠ ⊤ := by
  unfold Format.validBox
  rw [List.all_eq_true]
  simp only [List.mem_finRange, forall_const]
  refine forall_congr' fun d => ?_
  rw [axis_valid_iff]
  constructor
  · rintro ⟨x, y, h1, h2, h3, h4⟩
    exact ⟨x, y, h1, h2, (hF.sub_pos (hlo d x h1) (hhi d y h2)).mp h3, h4⟩
  · rintro ⟨x, y, h1, h2, h3, h4⟩
    exact ⟨x, y, h1, h2, (hF.sub_pos (hlo d x h1) (hhi d y h2)).mpr h3, h4⟩

/-- **C104.** The same for every format: what counts is that the computed extents are positive and finite. -/
theorem valid_box_extent_iff (F : Format) (lo hi : Fin D → Num) :
    F.validBox lo hi = true ↔
      ∀ d, ∃ x y : ℝ, lo d = some (x : EReal) ∧ hi d = some (y : EReal) ∧ 0 < F.rnd (y - x) ∧ F.rnd (y - x) ≠ ⊤ := by
  unfold Format.validBox
  rw [List.all_eq_true]
  simp only [List.mem_finRange, forall_const]
  exact forall_congr' fun d => axis_valid_iff F (lo d) (hi d)

/-- **C104 (limits).** Where small differences are flushed to zero, boxes with corners in the right order can be not valid. -/
theorem flushed_box_not_valid (F : Format) (x y : ℝ) (h : F.rnd (y - x) = 0) (hD : 0 < D) :
    F.validBox (fun _ : Fin D => some (x : EReal)) (fun _ => some (y : EReal)) = false := by
  rw [← Bool.not_eq_true, valid_box_extent_iff]
  intro hv
  obtain ⟨x', y', hx, hy, h1, -⟩ := hv ⟨0, hD⟩
  rw [← EReal.coe_eq_coe_iff.mp (Option.some.inj hx), ← EReal.coe_eq_coe_iff.mp (Option.some.inj hy), h] at h1
  exact lt_irrefl _ h1

/-- From 1 to 3/2, in an arithmetic that flushes numbers below 1. -/
example : flushing.rnd 1 = ((1 : ℝ) : EReal) ∧ flushing.rnd (3 / 2) = ((3 / 2 : ℝ) : EReal) ∧
    flushing.validBox (fun _ : Fin 3 => some ((1 : ℝ) : EReal)) (fun _ => some ((3 / 2 : ℝ) : EReal)) = false := by
  refine ⟨?_, ?_, flushed_box_not_valid flushing _ _ ?_ (by norm_num)⟩
  · show ((if |(1 : ℝ)| < 1 then 0 else 1 : ℝ) : EReal) = _
    norm_num
  · show ((if |(3 / 2 : ℝ)| < 1 then 0 else 3 / 2 : ℝ) : EReal) = _
    rw [if_neg (by rw [abs_of_pos] <;> norm_num)]
  · show ((if |(3 / 2 - 1 : ℝ)| < 1 then 0 else 3 / 2 - 1 : ℝ) : EReal) = _
    rw [if_pos (by rw [abs_of_pos] <;> norm_num)]
    rfl

/-- **C104 (limits).** A box that is flat along some axis, such as the bounding box of a point, is not valid, although trees store and find such boxes. -/
theorem flat_box_not_valid (F : Format) (lo hi : Fin D → Num) (d : Fin D) (h : lo d = hi d) : F.validBox lo hi = false := by
  rw [← Bool.not_eq_true]
  intro hv
  unfold Format.validBox at hv
  rw [List.all_eq_true] at hv
  obtain ⟨x, y, h1, h2, h3, -⟩ := (axis_valid_iff F _ _).mp (hv d (List.mem_finRange d))
  have : x = y := by
    rw [h1, h2] at h
    exact_mod_cast Option.some.inj h
  rw [this, sub_self, F.rnd_zero] at h3
  exact lt_irrefl _ h3

/-- **C104.** A valid box meets itself and contains its corners, in the tests of the library. -/
theorem valid_box_meets (F : Format) (hF : F.Gradual) (lo hi : Fin D → Num) (hlo : F.Has lo) (hhi : F.Has hi) (h : F.validBox lo hi = true) :
    nboxes lo hi lo hi = true ∧ ninBox lo lo hi = true ∧ ninBox hi lo hi = true := by
  rw [valid_box_iff F hF lo hi hlo hhi] at h
  unfold nboxes ninBox
  simp only [List.all_eq_true, List.mem_finRange, forall_const]
  refine ⟨fun d => ?_, fun d => ?_, fun d => ?_⟩ <;>
  · obtain ⟨x, y, h1, h2, h3, -⟩ := h d
    rw [h1, h2]
    simp [nanLt, h3.le]

/-- **C104.** Two points are equal exactly if every coordinate of one is a number and the same number as the coordinate of the other. -/
theorem eq_point_iff (p q : Fin D → Num) : eqPoint p q = true ↔ ∀ d, ∃ x : EReal, p d = some x ∧ q d = some x := by
  unfold eqPoint
  rw [List.all_eq_true]
  simp only [List.mem_finRange, forall_const, Bool.not_eq_true', nne_iff]

/-- So equality is substitution, for points without NaN; points with NaN are equal to nothing, themselves included. -/
theorem eq_point_iff_eq (p q : Fin D → Num) : eqPoint p q = true ↔ p = q ∧ NoNan p := by
  rw [eq_point_iff]
  constructor
  · intro h
    refine ⟨funext fun d => ?_, fun d e => ?_⟩
    · obtain ⟨x, h1, h2⟩ := h d
      rw [h1, h2]
    · obtain ⟨x, h1, -⟩ := h d
      rw [h1] at e
      cases e
  · rintro ⟨rfl, h⟩ d
    obtain ⟨x, hx⟩ := Option.ne_none_iff_exists'.mp (h d)
    exact ⟨x, hx, hx⟩

/-- **C104.** The same for boxes. -/
theorem eq_box_iff_eq (lo hi lo' hi' : Fin D → Num) : eqBox lo hi lo' hi' = true ↔ (lo = lo' ∧ hi = hi') ∧ NoNan lo ∧ NoNan hi := by
  unfold eqBox
  rw [Bool.and_eq_true, eq_point_iff_eq, eq_point_iff_eq]
  tauto

/-- **C104.** The same for spheres. -/
theorem eq_sphere_iff_eq (c c' : Fin D → Num) (r r' : Num) : eqSphere c r c' r' = true ↔ (c = c' ∧ r = r') ∧ NoNan c ∧ r ≠ none := by
  unfold eqSphere
  rw [Bool.and_eq_true, eq_point_iff_eq, Bool.not_eq_true', nne_iff]
  constructor
  · rintro ⟨⟨h1, h2⟩, x, h3, h4⟩
    exact ⟨⟨h1, by rw [h3, h4]⟩, h2, by rw [h3]; simp⟩
  · rintro ⟨⟨h1, h2⟩, h3, h4⟩
    obtain ⟨x, hx⟩ := Option.ne_none_iff_exists'.mp h4
    exact ⟨⟨h1, h3⟩, x, hx, by rw [← h2, hx]⟩

/-- **C104 (partial).** Equal rays are found to hit the same boxes, at the same distance, unless a component of a direction is zero; missing: rays whose
directions have zeros of different signs. -/
theorem eq_ray_same_hits_partial {K : Type} [Field K] [LinearOrder K] [IsStrictOrderedRing K] (R S : Ray K) (h : eqRay R S = true)
    (h0 : ∀ d, R.dir d = 0 → R.negZero d = S.negZero d) (B : Box K 3) :
    intersectsRayBox R B = intersectsRayBox S B ∧ distanceRayBox R B = distanceRayBox S B := by
  unfold eqRay at h
  simp only [Bool.and_eq_true, List.all_eq_true, List.mem_finRange, forall_const, decide_eq_true_eq] at h
  have e : slab R B = slab S B := by
    funext d
    unfold slab zeroSignbit
    rw [← h.1 d, ← h.2 d]
    by_cases hd : R.dir d = 0
    · rw [h0 d hd]
    · rw [if_neg hd, if_neg hd]
  have e' : intersectionRayBox R B = intersectionRayBox S B := by
    unfold intersectionRayBox
    have : rayStep R B = rayStep S B := by
      funext st d
      unfold rayStep
      rw [e]
    rw [this]
  unfold intersectsRayBox distanceRayBox
  rw [e']
  exact ⟨rfl, rfl⟩

/-- **C104 (limits).** Two rays that compare equal can differ in whether they hit a box: the comparison does not see the sign of a zero, the test does. -/
theorem eq_ray_different_hits : ∃ (R S : Ray ℚ) (B : Box ℚ 3), eqRay R S = true ∧ R.dir ≠ 0 ∧ B.Valid ∧
    intersectsRayBox R B = true ∧ intersectsRayBox S B = false := by
  refine ⟨⟨![0, 0, 0], ![1, 0, 0], ![false, false, false]⟩, ⟨![0, 0, 0], ![1, 0, 0], ![false, true, false]⟩, ⟨![1, -1, -1], ![2, 1, 1]⟩,
    by decide +kernel, fun h => ?_, fun d => by fin_cases d <;> decide +kernel, by decide +kernel, by decide +kernel⟩
  have := congrFun h 0
  revert this
  decide +kernel

/-- **C104 (limits).** A box whose corners are finite and in order can be invalid because its extent overflows: the box from `-2^127` to `2^127` of type
`float`. -/
theorem wide_box_not_valid (b : Bool) : (Ieee.float b).Has (fun _ : Fin D => some ((-2 ^ (127 : ℤ) : ℝ) : EReal)) ∧
    (Ieee.float b).Has (fun _ : Fin D => some ((2 ^ (127 : ℤ) : ℝ) : EReal)) ∧
    (0 < D → (Ieee.float b).validBox (fun _ : Fin D => some ((-2 ^ (127 : ℤ) : ℝ) : EReal)) (fun _ => some ((2 ^ (127 : ℤ) : ℝ) : EReal)) = false) := by
  have hp : (Ieee.float b).rnd (2 ^ (127 : ℤ)) = ((2 ^ (127 : ℤ) : ℝ) : EReal) := float_pow b (by norm_num) (by norm_num)
  have h1 : (Ieee.float b).Has (fun _ : Fin D => some ((-2 ^ (127 : ℤ) : ℝ) : EReal)) := fun d x hx => by
    have : (-2 ^ (127 : ℤ) : ℝ) = x := EReal.coe_injective (Option.some.inj hx)
    rw [← this, (Ieee.float b).neg, hp, EReal.coe_neg]
  have h2 : (Ieee.float b).Has (fun _ : Fin D => some ((2 ^ (127 : ℤ) : ℝ) : EReal)) := fun d x hx => by
    have : (2 ^ (127 : ℤ) : ℝ) = x := EReal.coe_injective (Option.some.inj hx)
    rw [← this, hp]
  refine ⟨h1, h2, fun hD => ?_⟩
  rw [← Bool.not_eq_true, valid_box_iff _ (Ieee.gradual_float b) _ _ h1 h2]
  intro h
  obtain ⟨x, y, hx, hy, -, hf⟩ := h ⟨0, hD⟩
  have ex : (-2 ^ (127 : ℤ) : ℝ) = x := EReal.coe_injective (Option.some.inj hx)
  have ey : (2 ^ (127 : ℤ) : ℝ) = y := EReal.coe_injective (Option.some.inj hy)
  rw [← ex, ← ey] at hf
  rw [show (2 : ℝ) ^ (127 : ℤ) - -2 ^ (127 : ℤ) = 2 ^ (128 : ℤ) by norm_num] at hf
  exact hf (float_top b (by norm_num))

/-! ## The hypotheses are met -/

/-- The unit box in `float` is valid. -/
example (b : Bool) : (Ieee.float b).Gradual ∧ (Ieee.float b).validBox (fun _ : Fin 2 => some ((0 : ℝ) : EReal)) (fun _ => some ((1 : ℝ) : EReal)) = true := by
  have h0 : (Ieee.float b).rnd 0 = (0 : ℝ) := by rw [Format.rnd_zero]; rfl
  have h1 : (Ieee.float b).rnd 1 = (1 : ℝ) := by
    simpa using float_int b 1 (by norm_num)
  refine ⟨Ieee.gradual_float b, (valid_box_iff _ (Ieee.gradual_float b) _ _ ?_ ?_).mpr fun d => ⟨0, 1, rfl, rfl, by norm_num, ?_⟩⟩
  · intro d x hx
    have : (0 : ℝ) = x := by exact_mod_cast Option.some.inj hx
    rw [← this, h0]
  · intro d x hx
    have : (1 : ℝ) = x := by exact_mod_cast Option.some.inj hx
    rw [← this, h1]
  · rw [sub_zero, h1]
    exact EReal.coe_ne_top 1

end ArborX.Fp
