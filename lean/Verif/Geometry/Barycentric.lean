import Verif.Geometry.ClosestPoint
import Verif.Geometry.Distance
import Mathlib.LinearAlgebra.Matrix.ToLinearEquiv
import Mathlib.LinearAlgebra.Matrix.Determinant.Basic
import Mathlib.Tactic.LinearCombination

/-!
# Barycentric coordinates, containment and distance for triangles and tetrahedra (C39, C32, C33)
-/

namespace ArborX.Geometry

variable {K : Type} [Field K] [LinearOrder K] [IsStrictOrderedRing K] {D : ℕ}

/-! ## Specification -/

/-- The vertices are affinely independent. -/
def Triangle.NonDegenerate (T : Triangle K D) : Prop :=
  ∀ u v w : K, u + v + w = 0 → (∀ d, u * T.a d + v * T.b d + w * T.c d = 0) → u = 0 ∧ v = 0 ∧ w = 0

/-- The vertices are affinely independent. -/
def Tetrahedron.NonDegenerate (T : Tetrahedron K D) : Prop :=
  ∀ t u v w : K, t + u + v + w = 0 → (∀ d, t * T.a d + u * T.b d + v * T.c d + w * T.d d = 0) →
    t = 0 ∧ u = 0 ∧ v = 0 ∧ w = 0

/-! ## Model -/

/-- `barycentricCoordinates(Triangle, Point)` in the plane (`ArborX_BarycentricCoordinates.hpp` 48-83);
`none` is `Kokkos::abort`. -/
def barycentricTriangle (T : Triangle K 2) (p : Pt K 2) : Option (K × K × K) :=
  let u0 := T.b 0 - T.a 0
  let u1 := T.b 1 - T.a 1
  let v0 := T.c 0 - T.a 0
  let v1 := T.c 1 - T.a 1
  let det := v1 * u0 - v0 * u1
  if det = 0 then none
  else
    let inv_det := 1 / det
    let alpha := (v1 * inv_det) * (p 0 - T.a 0) + (-v0 * inv_det) * (p 1 - T.a 1)
    let beta := (-u1 * inv_det) * (p 0 - T.a 0) + (u0 * inv_det) * (p 1 - T.a 1)
    some (1 - alpha - beta, alpha, beta)

/-- `intersects(Point, Triangle)` in the plane (`ArborX_Intersects.hpp` 126-163), the same
computation; `none` is the failed `KOKKOS_ASSERT`. -/
def intersectsPointTriangle (p : Pt K 2) (T : Triangle K 2) : Option Bool :=
  let u0 := T.b 0 - T.a 0
  let u1 := T.b 1 - T.a 1
  let v0 := T.c 0 - T.a 0
  let v1 := T.c 1 - T.a 1
  let det := v1 * u0 - v0 * u1
  if det = 0 then none
  else
    let inv_det := 1 / det
    let alpha := (v1 * inv_det) * (p 0 - T.a 0) + (-v0 * inv_det) * (p 1 - T.a 1)
    let beta := (-u1 * inv_det) * (p 0 - T.a 0) + (u0 * inv_det) * (p 1 - T.a 1)
    some (decide (1 - alpha - beta ≥ 0) && decide (alpha ≥ 0) && decide (beta ≥ 0))

/-- `Vector::cross` (`misc/ArborX_Vector.hpp` 58-66). -/
def cross (v w : Pt K 3) : Pt K 3 :=
  ![v 1 * w 2 - v 2 * w 1, v 2 * w 0 - v 0 * w 2, v 0 * w 1 - v 1 * w 0]

/-- `triple_product` (`ArborX_BarycentricCoordinates.hpp` 91-97). -/
def triple (u v w : Pt K 3) : K := dot u (cross v w)

/-- `barycentricCoordinates(Tetrahedron, Point)` (99-118). -/
def barycentricTetrahedron (T : Tetrahedron K 3) (p : Pt K 3) : Option (K × K × K × K) :=
  let ap := p - T.a
  let bp := p - T.b
  let ab := T.b - T.a
  let ac := T.c - T.a
  let ad := T.d - T.a
  let bc := T.c - T.b
  let bd := T.d - T.b
  (divide 1 (triple ab ac ad)).map (fun denom =>
    (triple bp bd bc * denom, triple ap ac ad * denom, triple ap ad ab * denom, triple ap ab ac * denom))

/-- Vertex `i` of the array `v` (`ArborX_Intersects.hpp` 378-379). -/
def Tetrahedron.vertex (T : Tetrahedron K 3) (i : ℕ) : Pt K 3 :=
  match i % 4 with
  | 0 => T.a
  | 1 => T.b
  | 2 => T.c
  | _ => T.d

/-- `same_half_space` for the plane `j` (`ArborX_Intersects.hpp` 384-389, `ArborX_Distance.hpp` 143-147). -/
def sameHalfSpace (T : Tetrahedron K 3) (p : Pt K 3) (j : ℕ) : Bool :=
  let normal := cross (T.vertex (j + 1) - T.vertex j) (T.vertex (j + 2) - T.vertex j)
  decide (dot normal (T.vertex (j + 3) - T.vertex j) * dot normal (p - T.vertex j) ≥ 0)

/-- `intersects(Point, Tetrahedron)` (369-393). -/
def intersectsPointTetrahedron (p : Pt K 3) (T : Tetrahedron K 3) : Bool :=
  [0, 1, 2, 3].all (sameHalfSpace T p)

/-- `distance(Point, Triangle)` (`ArborX_Distance.hpp` 109-122). -/
noncomputable def distancePointTriangle (p : Pt ℝ D) (T : Triangle ℝ D) : Option ℝ :=
  (closestPointTriangle p T).map (fun q => distancePoint p q)

/-- `distance(Point, Segment)` (212-220). -/
noncomputable def distancePointSegment (p : Pt ℝ D) (S : Segment ℝ D) : Option ℝ :=
  (closestPointSegment p S).map (fun q => distancePoint p q)

/-- `intersects(Sphere, Triangle)` (`ArborX_Intersects.hpp` 115-124). -/
noncomputable def intersectsSphereTriangle (S : Sphere ℝ D) (T : Triangle ℝ D) : Option Bool :=
  (distancePointTriangle S.center T).map (fun r => decide (r ≤ S.radius))

/-- The face `j` of the tetrahedron. -/
def Tetrahedron.face (T : Tetrahedron K 3) (j : ℕ) : Triangle K 3 :=
  ⟨T.vertex j, T.vertex (j + 1), T.vertex (j + 2)⟩

/-- Update of the running minimum. -/
noncomputable def lower (m : Option ℝ) (r : ℝ) : ℝ :=
  match m with
  | none => r
  | some m => min m r

/-- `distance(Point, Tetrahedron)` (`ArborX_Distance.hpp` 124-160). The running minimum starts at
the largest finite number, `none` here, which all distances are assumed to be below. -/
noncomputable def distancePointTetrahedron (p : Pt ℝ 3) (T : Tetrahedron ℝ 3) : Option ℝ :=
  ([0, 1, 2, 3].foldlM (fun (m : Option ℝ) j =>
    if sameHalfSpace T p j then some m
    else (distancePointTriangle p (T.face j)).map (fun r => some (lower m r))) none).map
    (fun m => m.getD 0)

/-! ## Lemmas: triangles -/

lemma Triangle.det_ne_zero {T : Triangle K 2} (h : T.NonDegenerate) :
    (T.c 1 - T.a 1) * (T.b 0 - T.a 0) - (T.c 0 - T.a 0) * (T.b 1 - T.a 1) ≠ 0 := by
  intro h0
  have hdet : Matrix.det !![T.b 0 - T.a 0, T.b 1 - T.a 1; T.c 0 - T.a 0, T.c 1 - T.a 1] = 0 := by
    rw [Matrix.det_fin_two_of]; linear_combination h0
  obtain ⟨v, hv, he⟩ := Matrix.exists_vecMul_eq_zero_iff.mpr hdet
  have e0 := congrFun he 0
  have e1 := congrFun he 1
  simp [Matrix.vecMul, dotProduct, Fin.sum_univ_two] at e0 e1
  obtain ⟨-, h1, h2⟩ := h (-(v 0 + v 1)) (v 0) (v 1) (by ring) (by
    intro d
    fin_cases d
    · simp; linear_combination e0
    · simp; linear_combination e1)
  apply hv
  funext i
  fin_cases i
  · exact h1
  · exact h2

lemma barycentricTriangle_spec {T : Triangle K 2}
    (hdet : (T.c 1 - T.a 1) * (T.b 0 - T.a 0) - (T.c 0 - T.a 0) * (T.b 1 - T.a 1) ≠ 0) (p : Pt K 2) :
    ∃ u v w, barycentricTriangle T p = some (u, v, w) ∧ u + v + w = 1 ∧ (∀ d, p d = u * T.a d + v * T.b d + w * T.c d) := by
  unfold barycentricTriangle
  dsimp only
  rw [if_neg hdet]
  refine ⟨_, _, _, rfl, by ring, ?_⟩
  intro d
  have hd := mul_one_div_cancel hdet
  generalize 1 / ((T.c 1 - T.a 1) * (T.b 0 - T.a 0) - (T.c 0 - T.a 0) * (T.b 1 - T.a 1)) = r at hd
  fin_cases d
  · simp only [Fin.zero_eta]
    linear_combination (-(p 0 - T.a 0)) * hd
  · simp only [Fin.mk_one]
    linear_combination (-(p 1 - T.a 1)) * hd

lemma Triangle.unique {T : Triangle K D} (h : T.NonDegenerate) {u v w u' v' w' : K} (h1 : u + v + w = 1) (h1' : u' + v' + w' = 1)
    (e : ∀ d, u * T.a d + v * T.b d + w * T.c d = u' * T.a d + v' * T.b d + w' * T.c d) : u = u' ∧ v = v' ∧ w = w' := by
  obtain ⟨a, b, c⟩ := h (u - u') (v - v') (w - w') (by linear_combination h1 - h1') (fun d => by linear_combination e d)
  exact ⟨sub_eq_zero.mp a, sub_eq_zero.mp b, sub_eq_zero.mp c⟩

/-! ## Lemmas: tetrahedra -/

/-- Written out. -/
lemma triple_eq (u v w : Pt K 3) : triple u v w =
    u 0 * (v 1 * w 2 - v 2 * w 1) + u 1 * (v 2 * w 0 - v 0 * w 2) + u 2 * (v 0 * w 1 - v 1 * w 0) := by
  unfold triple dot cross
  rw [Fin.sum_univ_three]
  simp

lemma Tetrahedron.det_ne_zero {T : Tetrahedron K 3} (h : T.NonDegenerate) :
    triple (T.b - T.a) (T.c - T.a) (T.d - T.a) ≠ 0 := by
  intro h0
  have hdet : Matrix.det !![T.b 0 - T.a 0, T.b 1 - T.a 1, T.b 2 - T.a 2; T.c 0 - T.a 0, T.c 1 - T.a 1, T.c 2 - T.a 2;
      T.d 0 - T.a 0, T.d 1 - T.a 1, T.d 2 - T.a 2] = 0 := by
    rw [Matrix.det_fin_three]
    rw [triple_eq] at h0
    simp only [Pi.sub_apply] at h0
    simp
    linear_combination h0
  obtain ⟨v, hv, he⟩ := Matrix.exists_vecMul_eq_zero_iff.mpr hdet
  have e0 := congrFun he 0
  have e1 := congrFun he 1
  have e2 := congrFun he 2
  simp [Matrix.vecMul, dotProduct, Fin.sum_univ_three] at e0 e1 e2
  obtain ⟨-, h1, h2, h3⟩ := h (-(v 0 + v 1 + v 2)) (v 0) (v 1) (v 2) (by ring) (by
    intro d
    fin_cases d
    · simp; linear_combination e0
    · simp; linear_combination e1
    · simp; linear_combination e2)
  apply hv
  funext i
  fin_cases i
  · exact h1
  · exact h2
  · exact h3

lemma barycentricTetrahedron_spec {T : Tetrahedron K 3} (hdet : triple (T.b - T.a) (T.c - T.a) (T.d - T.a) ≠ 0) (p : Pt K 3) :
    ∃ t u v w, barycentricTetrahedron T p = some (t, u, v, w) ∧ t + u + v + w = 1 ∧
      (∀ d, p d = t * T.a d + u * T.b d + v * T.c d + w * T.d d) := by
  unfold barycentricTetrahedron divide
  dsimp only
  rw [if_neg hdet, Option.map_some]
  have hd := mul_one_div_cancel hdet
  generalize 1 / triple (T.b - T.a) (T.c - T.a) (T.d - T.a) = r at hd
  simp only [triple_eq, Pi.sub_apply] at hd ⊢
  refine ⟨_, _, _, _, rfl, ?_, ?_⟩
  · linear_combination hd
  · intro d
    fin_cases d
    · simp only [Fin.zero_eta]; linear_combination (-(p 0)) * hd
    · simp only [Fin.mk_one]; linear_combination (-(p 1)) * hd
    · simp only [Fin.reduceFinMk]; linear_combination (-(p 2)) * hd

lemma Tetrahedron.unique {T : Tetrahedron K D} (h : T.NonDegenerate) {t u v w t' u' v' w' : K}
    (h1 : t + u + v + w = 1) (h1' : t' + u' + v' + w' = 1)
    (e : ∀ d, t * T.a d + u * T.b d + v * T.c d + w * T.d d = t' * T.a d + u' * T.b d + v' * T.c d + w' * T.d d) :
    t = t' ∧ u = u' ∧ v = v' ∧ w = w' := by
  obtain ⟨a, b, c, d⟩ := h (t - t') (u - u') (v - v') (w - w') (by linear_combination h1 - h1') (fun d => by linear_combination e d)
  exact ⟨sub_eq_zero.mp a, sub_eq_zero.mp b, sub_eq_zero.mp c, sub_eq_zero.mp d⟩

/-- The test of a plane is the sign of one barycentric coordinate. -/
lemma sameHalfSpace_iff {T : Tetrahedron K 3} (hdet : triple (T.b - T.a) (T.c - T.a) (T.d - T.a) ≠ 0) (p : Pt K 3) (t u v w : K)
    (h1 : t + u + v + w = 1) (hp : ∀ d, p d = t * T.a d + u * T.b d + v * T.c d + w * T.d d) :
    (sameHalfSpace T p 0 = true ↔ 0 ≤ w) ∧ (sameHalfSpace T p 1 = true ↔ 0 ≤ t) ∧
      (sameHalfSpace T p 2 = true ↔ 0 ≤ u) ∧ (sameHalfSpace T p 3 = true ↔ 0 ≤ v) := by
  have hpos : 0 < triple (T.b - T.a) (T.c - T.a) (T.d - T.a) ^ 2 := by positivity
  have hsign : ∀ (x y : K), x = y * triple (T.b - T.a) (T.c - T.a) (T.d - T.a) ^ 2 → (x ≥ 0 ↔ 0 ≤ y) := by
    intro x y e
    rw [e, ge_iff_le, mul_nonneg_iff_left_nonneg_of_pos hpos]
  have ht : t = 1 - u - v - w := by linear_combination h1
  have hu : u = 1 - t - v - w := by linear_combination h1
  have hv : v = 1 - t - u - w := by linear_combination h1
  have hw : w = 1 - t - u - v := by linear_combination h1
  unfold sameHalfSpace
  simp only [decide_eq_true_iff]
  have e0 : ∀ x : Pt K 3, dot (cross (T.b - T.a) (T.c - T.a)) x = triple x (T.b - T.a) (T.c - T.a) := fun x => dot_comm _ _
  refine ⟨hsign _ _ ?_, hsign _ _ ?_, hsign _ _ ?_, hsign _ _ ?_⟩
  · simp only [Tetrahedron.vertex, dot_comm (cross _ _), ← triple.eq_def]
    simp only [triple_eq, Pi.sub_apply, hp]
    rw [ht]; ring
  · simp only [Tetrahedron.vertex, dot_comm (cross _ _), ← triple.eq_def]
    simp only [triple_eq, Pi.sub_apply, hp]
    rw [hu]; ring
  · simp only [Tetrahedron.vertex, dot_comm (cross _ _), ← triple.eq_def]
    simp only [triple_eq, Pi.sub_apply, hp]
    rw [hv]; ring
  · simp only [Tetrahedron.vertex, dot_comm (cross _ _), ← triple.eq_def]
    simp only [triple_eq, Pi.sub_apply, hp]
    rw [hw]; ring

/-! ## Property theorems -/

/-- **C39.** Barycentric coordinates with respect to a non-degenerate triangle in the plane exist,
sum to one and reproduce the point. -/
theorem barycentric_triangle (T : Triangle K 2) (hT : T.NonDegenerate) (p : Pt K 2) :
    ∃ u v w, barycentricTriangle T p = some (u, v, w) ∧ u + v + w = 1 ∧ (∀ d, p d = u * T.a d + v * T.b d + w * T.c d) :=
  barycentricTriangle_spec (Triangle.det_ne_zero hT) p

/-- **C39.** The point-in-triangle test is true exactly for the convex combinations of the vertices. -/
theorem intersects_point_triangle (T : Triangle K 2) (hT : T.NonDegenerate) (p : Pt K 2) :
    ∃ r, intersectsPointTriangle p T = some r ∧ (r = true ↔ p ∈ T.set) := by
  obtain ⟨u, v, w, e, h1, hp⟩ := barycentric_triangle T hT p
  have e' : intersectsPointTriangle p T = some (decide (u ≥ 0) && decide (v ≥ 0) && decide (w ≥ 0)) := by
    unfold barycentricTriangle at e
    unfold intersectsPointTriangle
    dsimp only at e ⊢
    rw [if_neg (Triangle.det_ne_zero hT)] at e ⊢
    obtain ⟨rfl, rfl, rfl⟩ := by simpa only [Option.some.injEq, Prod.mk.injEq] using e
    rfl
  refine ⟨_, e', ?_⟩
  simp only [Bool.and_eq_true, decide_eq_true_iff]
  constructor
  · rintro ⟨⟨h2, h3⟩, h4⟩
    exact ⟨u, v, w, h2, h3, h4, h1, hp⟩
  · rintro ⟨u', v', w', h2, h3, h4, h1', hp'⟩
    obtain ⟨rfl, rfl, rfl⟩ := Triangle.unique hT h1 h1' (fun d => (hp d).symm.trans (hp' d))
    exact ⟨⟨h2, h3⟩, h4⟩

/-- **C39.** Barycentric coordinates with respect to a non-degenerate tetrahedron exist, sum to one
and reproduce the point. -/
theorem barycentric_tetrahedron (T : Tetrahedron K 3) (hT : T.NonDegenerate) (p : Pt K 3) :
    ∃ t u v w, barycentricTetrahedron T p = some (t, u, v, w) ∧ t + u + v + w = 1 ∧
      (∀ d, p d = t * T.a d + u * T.b d + v * T.c d + w * T.d d) :=
  barycentricTetrahedron_spec (Tetrahedron.det_ne_zero hT) p

/-- **C39.** The point-in-tetrahedron test is true exactly for the convex combinations of the
vertices. -/
theorem intersects_point_tetrahedron (T : Tetrahedron K 3) (hT : T.NonDegenerate) (p : Pt K 3) :
    intersectsPointTetrahedron p T = true ↔ p ∈ T.set := by
  obtain ⟨t, u, v, w, -, h1, hp⟩ := barycentric_tetrahedron T hT p
  obtain ⟨k0, k1, k2, k3⟩ := sameHalfSpace_iff (Tetrahedron.det_ne_zero hT) p t u v w h1 hp
  unfold intersectsPointTetrahedron
  simp only [List.all_cons, List.all_nil, Bool.and_true, Bool.and_eq_true, k0, k1, k2, k3]
  constructor
  · rintro ⟨h2, h3, h4, h5⟩
    exact ⟨t, u, v, w, h3, h4, h5, h2, h1, hp⟩
  · rintro ⟨t', u', v', w', h2, h3, h4, h5, h1', hp'⟩
    obtain ⟨rfl, rfl, rfl, rfl⟩ := Tetrahedron.unique hT h1 h1' (fun d => (hp d).symm.trans (hp' d))
    exact ⟨h5, h2, h3, h4⟩

lemma IsClosest.distance {p q : Pt ℝ D} {s : Set (Pt ℝ D)} (h : IsClosest p s q) : IsDistance {p} s (distancePoint p q) := by
  rw [distancePoint_eq]
  refine ⟨⟨p, rfl, q, h.mem, rfl⟩, fun x hx y hy => ?_⟩
  rw [Set.mem_singleton_iff.mp hx]
  exact edist_mono (h.minimal y hy)

/-- **C33.** The distance of a point and a segment is attained and minimal. -/
theorem distance_point_segment (p : Pt ℝ D) (S : Segment ℝ D) :
    ∃ r, distancePointSegment p S = some r ∧ IsDistance {p} S.set r := by
  obtain ⟨q, e, h⟩ := closest_point_segment p S
  exact ⟨_, by unfold distancePointSegment; rw [e]; rfl, h.distance⟩

/-- **C33 (partial).** The distance of a point and a triangle is attained and minimal, if the first
two vertices differ (see `closest_point_triangle_nan`). -/
theorem distance_point_triangle_partial (p : Pt ℝ D) (T : Triangle ℝ D) (hab : T.a ≠ T.b) :
    ∃ r, distancePointTriangle p T = some r ∧ IsDistance {p} T.set r := by
  obtain ⟨q, e, h⟩ := closest_point_triangle_partial p T hab
  exact ⟨_, by unfold distancePointTriangle; rw [e]; rfl, h.distance⟩

/-- **C32 (partial).** A ball and a triangle (first two vertices different) intersect exactly if they
have a common point. -/
theorem intersects_sphere_triangle_partial (S : Sphere ℝ D) (T : Triangle ℝ D) (hab : T.a ≠ T.b) :
    ∃ r, intersectsSphereTriangle S T = some r ∧ (r = true ↔ (S.set ∩ T.set).Nonempty) := by
  obtain ⟨r, e, h⟩ := distance_point_triangle_partial S.center T hab
  refine ⟨_, by unfold intersectsSphereTriangle; rw [e]; rfl, ?_⟩
  rw [decide_eq_true_iff]
  constructor
  · intro hr
    obtain ⟨c, hc, y, hy, e⟩ := h.attained
    rw [Set.mem_singleton_iff.mp hc] at e
    exact ⟨y, mem_sphere.mpr (by rw [edist_comm, e]; exact hr), hy⟩
  · rintro ⟨y, hy, hy'⟩
    exact (h.minimal S.center rfl y hy').trans ((edist_comm _ _).trans_le (mem_sphere.mp hy))

lemma Tetrahedron.face_ne {T : Tetrahedron K 3} (hT : T.NonDegenerate) (j : ℕ) (hj : j < 4) : (T.face j).a ≠ (T.face j).b := by
  intro h
  have h' : ∀ d, T.vertex j d = T.vertex (j + 1) d := fun d => congrFun h d
  match j, hj with
  | 0, _ =>
    have := (hT 1 (-1) 0 0 (by ring) (fun d => by have := h' d; simp only [Tetrahedron.vertex] at this; linear_combination this)).1
    exact one_ne_zero this
  | 1, _ =>
    have := (hT 0 1 (-1) 0 (by ring) (fun d => by have := h' d; simp only [Tetrahedron.vertex] at this; linear_combination this)).2.1
    exact one_ne_zero this
  | 2, _ =>
    have := (hT 0 0 1 (-1) (by ring) (fun d => by have := h' d; simp only [Tetrahedron.vertex] at this; linear_combination this)).2.2.1
    exact one_ne_zero this
  | 3, _ =>
    have := (hT (-1) 0 0 1 (by ring) (fun d => by have := h' d; simp only [Tetrahedron.vertex] at this; linear_combination this)).2.2.2
    exact one_ne_zero this

lemma Tetrahedron.face_subset (T : Tetrahedron K 3) (j : ℕ) (hj : j < 4) : (T.face j).set ⊆ T.set := by
  rintro x ⟨u, v, w, hu, hv, hw, h1, hx⟩
  match j, hj with
  | 0, _ => exact ⟨u, v, w, 0, hu, hv, hw, le_rfl, by linear_combination h1, fun d => by
      have := hx d; simp only [Tetrahedron.face, Tetrahedron.vertex] at this; linear_combination this⟩
  | 1, _ => exact ⟨0, u, v, w, le_rfl, hu, hv, hw, by linear_combination h1, fun d => by
      have := hx d; simp only [Tetrahedron.face, Tetrahedron.vertex] at this; linear_combination this⟩
  | 2, _ => exact ⟨w, 0, u, v, hw, le_rfl, hu, hv, by linear_combination h1, fun d => by
      have := hx d; simp only [Tetrahedron.face, Tetrahedron.vertex] at this; linear_combination this⟩
  | 3, _ => exact ⟨v, w, 0, u, hv, hw, le_rfl, hu, by linear_combination h1, fun d => by
      have := hx d; simp only [Tetrahedron.face, Tetrahedron.vertex] at this; linear_combination this⟩

/-- From a point of the tetrahedron one reaches a visible face without moving away from an outside point. -/
lemma visible_face {T : Tetrahedron ℝ 3} (hT : T.NonDegenerate) (p : Pt ℝ 3) (hp : p ∉ T.set) (x : Pt ℝ 3) (hx : x ∈ T.set) :
    ∃ j < 4, sameHalfSpace T p j = false ∧ ∃ y ∈ (T.face j).set, edist p y ≤ edist p x := by
  obtain ⟨t, u, v, w, -, h1, hpe⟩ := barycentric_tetrahedron T hT p
  obtain ⟨k0, k1, k2, k3⟩ := sameHalfSpace_iff (Tetrahedron.det_ne_zero hT) p t u v w h1 hpe
  obtain ⟨t', u', v', w', ht, hu, hv, hw, h1', hxe⟩ := hx
  -- the parameter at which coordinate `m` (of x) and `l` (of p) vanishes
  let f : Fin 4 → ℝ × ℝ := ![(t', t), (u', u), (v', v), (w', w)]
  let par : Fin 4 → ℝ := fun i => if (f i).2 < 0 then (f i).1 / ((f i).1 - (f i).2) else 1
  have hm0 : ∀ i, 0 ≤ (f i).1 := by intro i; fin_cases i <;> simp [f, ht, hu, hv, hw]
  have hpar : ∀ i, 0 ≤ par i ∧ par i ≤ 1 := by
    intro i
    simp only [par]
    split_ifs with h
    · have : 0 < (f i).1 - (f i).2 := by linarith [hm0 i]
      exact ⟨div_nonneg (hm0 i) this.le, (div_le_one this).mpr (by linarith)⟩
    · exact ⟨zero_le_one, le_rfl⟩
  have hneg : ∃ i, (f i).2 < 0 := by
    by_contra hn
    push Not at hn
    apply hp
    exact ⟨t, u, v, w, by simpa [f] using hn 0, by simpa [f] using hn 1, by simpa [f] using hn 2, by simpa [f] using hn 3, h1, hpe⟩
  obtain ⟨i0, hi0m, hmin⟩ := Finset.exists_min_image (Finset.univ.filter (fun i => (f i).2 < 0)) par
    (by obtain ⟨i, hi⟩ := hneg; exact ⟨i, by simp [hi]⟩)
  have hi0 : (f i0).2 < 0 := by
    simpa using hi0m
  have hs : ∀ i, 0 ≤ (1 - par i0) * (f i).1 + par i0 * (f i).2 := by
    intro i
    by_cases h : (f i).2 < 0
    · have hle := hmin i (by simp [h])
      have hpos : 0 < (f i).1 - (f i).2 := by linarith [hm0 i]
      have e : par i = (f i).1 / ((f i).1 - (f i).2) := by simp only [par]; rw [if_pos h]
      rw [e, le_div_iff₀ hpos] at hle
      linarith
    · have := hpar i0
      exact add_nonneg (mul_nonneg (by linarith [this.2]) (hm0 i)) (mul_nonneg this.1 (not_lt.mp h))
  have hz : (1 - par i0) * (f i0).1 + par i0 * (f i0).2 = 0 := by
    have hpos : 0 < (f i0).1 - (f i0).2 := by linarith [hm0 i0]
    have e : par i0 = (f i0).1 / ((f i0).1 - (f i0).2) := by simp only [par]; rw [if_pos hi0]
    have : par i0 * ((f i0).1 - (f i0).2) = (f i0).1 := by rw [e, div_mul_cancel₀ _ hpos.ne']
    linarith
  obtain ⟨p0, p1⟩ := hpar i0
  have hdist : edist p (lerp x p (par i0)) ≤ edist p x := by
    rw [edist_comm, edist_lerp_right _ _ p1, edist_comm p x]
    have := edist_nonneg x p
    nlinarith
  generalize par i0 = s at hs hz p0 p1 hdist
  have hs0 := hs 0
  have hs1 := hs 1
  have hs2 := hs 2
  have hs3 := hs 3
  simp only [f, Matrix.cons_val_zero, Matrix.cons_val_one, Matrix.cons_val, Fin.isValue] at hs0 hs1 hs2 hs3
  have hfalse : ∀ {b : Bool} {y : ℝ}, (b = true ↔ 0 ≤ y) → y < 0 → b = false := by
    intro b y h hy
    cases b
    · rfl
    · exact absurd (h.mp rfl) (not_le.mpr hy)
  fin_cases i0
  · simp only [f] at hi0 hz
    refine ⟨1, by norm_num, hfalse k1 (by simpa using hi0), lerp x p s, ⟨_, _, _, hs1, hs2, hs3, ?_, ?_⟩, hdist⟩
    · simp at hz; linear_combination (1 - s) * h1' + s * h1 - hz
    · intro d
      simp at hz
      simp only [lerp, Tetrahedron.face, Tetrahedron.vertex]
      rw [hxe d, hpe d]; linear_combination T.a d * hz
  · simp only [f] at hi0 hz
    refine ⟨2, by norm_num, hfalse k2 (by simpa using hi0), lerp x p s, ⟨_, _, _, hs2, hs3, hs0, ?_, ?_⟩, hdist⟩
    · simp at hz; linear_combination (1 - s) * h1' + s * h1 - hz
    · intro d
      simp at hz
      simp only [lerp, Tetrahedron.face, Tetrahedron.vertex]
      rw [hxe d, hpe d]; linear_combination T.b d * hz
  · simp only [f] at hi0 hz
    refine ⟨3, by norm_num, hfalse k3 (by simpa using hi0), lerp x p s, ⟨_, _, _, hs3, hs0, hs1, ?_, ?_⟩, hdist⟩
    · simp at hz; linear_combination (1 - s) * h1' + s * h1 - hz
    · intro d
      simp at hz
      simp only [lerp, Tetrahedron.face, Tetrahedron.vertex]
      rw [hxe d, hpe d]; linear_combination T.c d * hz
  · simp only [f] at hi0 hz
    refine ⟨0, by norm_num, hfalse k0 (by simpa using hi0), lerp x p s, ⟨_, _, _, hs0, hs1, hs2, ?_, ?_⟩, hdist⟩
    · simp at hz; linear_combination (1 - s) * h1' + s * h1 - hz
    · intro d
      simp at hz
      simp only [lerp, Tetrahedron.face, Tetrahedron.vertex]
      rw [hxe d, hpe d]; linear_combination T.d d * hz

/-- The loop over the faces computes the minimum of the distances to the visible ones. -/
lemma tet_loop {T : Tetrahedron ℝ 3} (hT : T.NonDegenerate) (p : Pt ℝ 3) :
    ∀ (L : List ℕ), (∀ j ∈ L, j < 4) → ∀ (m : Option ℝ), ∃ m', L.foldlM (fun (m : Option ℝ) j =>
      if sameHalfSpace T p j then some m
      else (distancePointTriangle p (T.face j)).map (fun r => some (lower m r))) m = some m' ∧
      (∀ r, m = some r → ∃ r', m' = some r' ∧ r' ≤ r) ∧
      (∀ j ∈ L, sameHalfSpace T p j = false → ∃ r', m' = some r' ∧ ∀ y ∈ (T.face j).set, r' ≤ edist p y) ∧
      (m' = m ∨ ∃ r', m' = some r' ∧ ∃ j ∈ L, sameHalfSpace T p j = false ∧ ∃ y ∈ (T.face j).set, edist p y = r') := by
  intro L
  induction L with
  | nil => intro _ m; exact ⟨m, rfl, fun r h => ⟨r, h, le_rfl⟩, by simp, .inl rfl⟩
  | cons j L ih =>
    intro hL m
    rw [List.foldlM_cons]
    have hj := hL j List.mem_cons_self
    by_cases hv : sameHalfSpace T p j = true
    · obtain ⟨m', e, h1, h2, h3⟩ := ih (fun i hi => hL i (List.mem_cons_of_mem _ hi)) m
      refine ⟨m', ?_, h1, ?_, ?_⟩
      · rw [if_pos hv]; exact e
      · intro i hi hi'
        rcases List.mem_cons.mp hi with rfl | hi
        · rw [hv] at hi'; cases hi'
        · exact h2 i hi hi'
      · rcases h3 with h3 | ⟨r', e', i, hi, h3⟩
        · exact .inl h3
        · exact .inr ⟨r', e', i, List.mem_cons_of_mem _ hi, h3⟩
    · obtain ⟨r, er, hr⟩ := distance_point_triangle_partial p (T.face j) (T.face_ne hT j hj)
      obtain ⟨y0, hy0, e0⟩ : ∃ y ∈ (T.face j).set, edist p y = r := by
        obtain ⟨c, hc, y, hy, e⟩ := hr.attained
        rw [Set.mem_singleton_iff.mp hc] at e
        exact ⟨y, hy, e⟩
      obtain ⟨m', e, h1, h2, h3⟩ := ih (fun i hi => hL i (List.mem_cons_of_mem _ hi))
        (some (lower m r))
      obtain ⟨r', er', hr'⟩ := h1 _ rfl
      have hle : r' ≤ r ∧ ∀ s, m = some s → r' ≤ s := by
        cases m with
        | none => exact ⟨hr', fun s h => by cases h⟩
        | some s => exact ⟨hr'.trans (min_le_right _ _), fun s' h => by cases h; exact hr'.trans (min_le_left _ _)⟩
      refine ⟨m', ?_, ?_, ?_, ?_⟩
      · rw [if_neg hv, er]; exact e
      · intro s hs; exact ⟨r', er', hle.2 s hs⟩
      · intro i hi hi'
        rcases List.mem_cons.mp hi with rfl | hi
        · exact ⟨r', er', fun y hy => hle.1.trans (hr.minimal p rfl y hy)⟩
        · exact h2 i hi hi'
      · rcases h3 with h3 | ⟨r'', e', i, hi, h3⟩
        · cases m with
          | none =>
            right
            exact ⟨r, h3, j, List.mem_cons_self, by simpa using hv, y0, hy0, e0⟩
          | some s =>
            rcases min_choice s r with hc | hc
            · left; rw [h3]; exact congrArg some hc
            · right; exact ⟨r, by rw [h3]; exact congrArg some hc, j, List.mem_cons_self, by simpa using hv, y0, hy0, e0⟩
        · exact .inr ⟨r'', e', i, List.mem_cons_of_mem _ hi, h3⟩

/-- **C33.** The distance of a point and a non-degenerate tetrahedron is attained and minimal; it is
zero exactly for the points of the tetrahedron. -/
theorem distance_point_tetrahedron (p : Pt ℝ 3) (T : Tetrahedron ℝ 3) (hT : T.NonDegenerate) :
    ∃ r, distancePointTetrahedron p T = some r ∧ IsDistance {p} T.set r := by
  obtain ⟨m', e, -, h2, h3⟩ := tet_loop hT p [0, 1, 2, 3] (by decide) none
  refine ⟨m'.getD 0, by unfold distancePointTetrahedron; rw [e]; rfl, ?_⟩
  by_cases hp : p ∈ T.set
  · have hin := (intersects_point_tetrahedron T hT p).mpr hp
    unfold intersectsPointTetrahedron at hin
    have hm : m' = none := by
      rcases h3 with h3 | ⟨r', -, j, hj, hv, -⟩
      · exact h3
      · have := List.all_eq_true.mp hin j hj
        rw [hv] at this; cases this
    rw [hm]
    refine ⟨⟨p, rfl, p, hp, edist_self p⟩, fun x hx y hy => edist_nonneg _ _⟩
  · obtain ⟨j, hj, hv, -⟩ := visible_face hT p hp T.a ⟨1, 0, 0, 0, zero_le_one, le_rfl, le_rfl, le_rfl, by ring, fun d => by ring⟩
    have hjL : ∀ j, j < 4 → j ∈ [0, 1, 2, 3] := by decide
    obtain ⟨r, er, -⟩ := h2 j (hjL j hj) hv
    subst er
    constructor
    · rcases h3 with h3 | ⟨r', e', i, hi, -, y, hy, e⟩
      · cases h3
      · cases e'
        have hi4 : i < 4 := by
          simp only [List.mem_cons, List.not_mem_nil, or_false] at hi; omega
        exact ⟨p, rfl, y, T.face_subset i hi4 hy, e⟩
    · intro x hx y hy
      rw [Set.mem_singleton_iff.mp hx]
      obtain ⟨i, hi, hvi, z, hz, hle⟩ := visible_face hT p hp y hy
      obtain ⟨r', er', hr'⟩ := h2 i (hjL i hi) hvi
      cases er'
      exact (hr' z hz).trans hle

/-! ## Non-vacuity -/

/-- The unit triangle and the unit tetrahedron. -/
def exampleTriangle : Triangle ℚ 2 := ⟨![0, 0], ![1, 0], ![0, 1]⟩
def exampleTetrahedron (K : Type) [Field K] : Tetrahedron K 3 := ⟨![0, 0, 0], ![1, 0, 0], ![0, 1, 0], ![0, 0, 1]⟩

example : exampleTriangle.NonDegenerate := by
  intro u v w h1 h
  have h2 := h 0
  have h3 := h 1
  simp [exampleTriangle] at h2 h3
  subst h2; subst h3
  simpa using h1

lemma exampleTetrahedron_ok (K : Type) [Field K] : (exampleTetrahedron K).NonDegenerate := by
  intro t u v w h1 h
  have h2 := h 0
  have h3 := h 1
  have h4 := h 2
  simp [exampleTetrahedron] at h2 h3 h4
  subst h2; subst h3; subst h4
  simpa using h1

example : barycentricTriangle exampleTriangle ![1/4, 1/2] = some (1/4, 1/4, 1/2) := by decide +kernel
example : intersectsPointTetrahedron ![1/4, 1/4, 1/4] (exampleTetrahedron ℚ) = true ∧
    intersectsPointTetrahedron ![1/2, 1/4, 1/2] (exampleTetrahedron ℚ) = false := by decide +kernel
example : ∃ r, distancePointTetrahedron ![1, 1, 1] (exampleTetrahedron ℝ) = some r ∧
    IsDistance {![1, 1, 1]} (exampleTetrahedron ℝ).set r := distance_point_tetrahedron _ _ (exampleTetrahedron_ok ℝ)

end ArborX.Geometry
