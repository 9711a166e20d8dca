import Verif.Geometry.Barycentric

/-!
# Property theorems: tetrahedra whose vertices are in a plane (C33, C39, C109)

The tests of `intersects(Point, Tetrahedron)` (`src/geometry/algorithms/ArborX_Intersects.hpp` 370-395) and `distance(Point, Tetrahedron)` (`ArborX_Distance.hpp` 126-159) compare signs that are all zero for these.
-/

namespace ArborX.Geometry

section

variable {K : Type} [Field K] [LinearOrder K] [IsStrictOrderedRing K]

/-- The vertices are affinely independent exactly if the volume is not zero. -/
lemma Tetrahedron.nonDegenerate_iff (T : Tetrahedron K 3) : T.NonDegenerate ↔ triple (T.b - T.a) (T.c - T.a) (T.d - T.a) ≠ 0 := by
  refine ⟨Tetrahedron.det_ne_zero, fun h t u v w hs hc => ?_⟩
  have e0 := hc 0
  have e1 := hc 1
  have e2 := hc 2
  have ht : t = -(u + v + w) := by linear_combination hs
  subst ht
  have key : u * triple (T.b - T.a) (T.c - T.a) (T.d - T.a) = 0 ∧ v * triple (T.b - T.a) (T.c - T.a) (T.d - T.a) = 0 ∧ w * triple (T.b - T.a) (T.c - T.a) (T.d - T.a) = 0 := by
    simp only [triple_eq, Pi.sub_apply]
    refine ⟨?_, ?_, ?_⟩
    · linear_combination ((T.c 1 - T.a 1) * (T.d 2 - T.a 2) - (T.c 2 - T.a 2) * (T.d 1 - T.a 1)) * e0
        + ((T.c 2 - T.a 2) * (T.d 0 - T.a 0) - (T.c 0 - T.a 0) * (T.d 2 - T.a 2)) * e1
        + ((T.c 0 - T.a 0) * (T.d 1 - T.a 1) - (T.c 1 - T.a 1) * (T.d 0 - T.a 0)) * e2
    · linear_combination ((T.d 1 - T.a 1) * (T.b 2 - T.a 2) - (T.d 2 - T.a 2) * (T.b 1 - T.a 1)) * e0
        + ((T.d 2 - T.a 2) * (T.b 0 - T.a 0) - (T.d 0 - T.a 0) * (T.b 2 - T.a 2)) * e1
        + ((T.d 0 - T.a 0) * (T.b 1 - T.a 1) - (T.d 1 - T.a 1) * (T.b 0 - T.a 0)) * e2
    · linear_combination ((T.b 1 - T.a 1) * (T.c 2 - T.a 2) - (T.b 2 - T.a 2) * (T.c 1 - T.a 1)) * e0
        + ((T.b 2 - T.a 2) * (T.c 0 - T.a 0) - (T.b 0 - T.a 0) * (T.c 2 - T.a 2)) * e1
        + ((T.b 0 - T.a 0) * (T.c 1 - T.a 1) - (T.b 1 - T.a 1) * (T.c 0 - T.a 0)) * e2
  obtain ⟨k1, k2, k3⟩ := key
  have hu := (mul_eq_zero.1 k1).resolve_right h
  have hv := (mul_eq_zero.1 k2).resolve_right h
  have hw := (mul_eq_zero.1 k3).resolve_right h
  subst hu hv hw
  simp

/-- All points are on the same side of the faces of a flat tetrahedron as its vertices. -/
lemma sameHalfSpace_flat {T : Tetrahedron K 3} (h : ¬T.NonDegenerate) (p : Pt K 3) (j : ℕ) (hj : j < 4) : sameHalfSpace T p j = true := by
  rw [Tetrahedron.nonDegenerate_iff, not_not, triple_eq] at h
  simp only [Pi.sub_apply] at h
  have hz : dot (cross (T.vertex (j + 1) - T.vertex j) (T.vertex (j + 2) - T.vertex j)) (T.vertex (j + 3) - T.vertex j) = 0 := by
    match j, hj with
    | 0, _ | 1, _ | 2, _ | 3, _ =>
      simp [dot, cross, Fin.sum_univ_three, Tetrahedron.vertex]
      first | linear_combination h | linear_combination -h
  rw [sameHalfSpace]
  rw [hz, zero_mul]
  simp

/-- **C39, C109.** For every tetrahedron and every point: the test is true exactly for the points of the tetrahedron, or the vertices are in a plane; in this case it is true for all points of space. -/
theorem intersects_point_tetrahedron_exact (T : Tetrahedron K 3) (p : Pt K 3) : intersectsPointTetrahedron p T = true ↔ p ∈ T.set ∨ ¬T.NonDegenerate := by
  by_cases h : T.NonDegenerate
  · rw [intersects_point_tetrahedron T h]
    simp [h]
  · simp [h, intersectsPointTetrahedron, sameHalfSpace_flat h p]

/-- **C39.** Barycentric coordinates are computed without a division by zero exactly if the vertices are not in a plane. -/
theorem barycentric_tetrahedron_exact (T : Tetrahedron K 3) (p : Pt K 3) : barycentricTetrahedron T p = none ↔ ¬T.NonDegenerate := by
  by_cases h : T.NonDegenerate
  · obtain ⟨t, u, v, w, e, -⟩ := barycentric_tetrahedron T h p
    simp [e, h]
  · have h' := h
    rw [Tetrahedron.nonDegenerate_iff, not_not] at h'
    simp only [h, not_false_eq_true, iff_true]
    simp [barycentricTetrahedron, h', divide]

end

/-- **C33, C109.** The computed distance of a point and a tetrahedron is attained and minimal, unless the vertices are in a plane; in this case it is zero for all points of space. -/
theorem distance_point_tetrahedron_exact (p : Pt ℝ 3) (T : Tetrahedron ℝ 3) :
    ∃ r, distancePointTetrahedron p T = some r ∧ (T.NonDegenerate → IsDistance {p} T.set r) ∧ (¬T.NonDegenerate → r = 0) := by
  by_cases h : T.NonDegenerate
  · obtain ⟨r, e, hr⟩ := distance_point_tetrahedron p T h
    exact ⟨r, e, fun _ => hr, fun h' => absurd h h'⟩
  · refine ⟨0, ?_, fun h' => absurd h' h, fun _ => rfl⟩
    simp [distancePointTetrahedron, sameHalfSpace_flat h p]

/-- A square in the plane z = 0. -/
def flatTetrahedron : Tetrahedron ℚ 3 := ⟨![0, 0, 0], ![1, 0, 0], ![1, 1, 0], ![0, 1, 0]⟩

/-- The unit tetrahedron is not degenerate, the square is; the square is found to contain a point far above it. -/
example : (⟨![0, 0, 0], ![1, 0, 0], ![0, 1, 0], ![0, 0, 1]⟩ : Tetrahedron ℚ 3).NonDegenerate ∧ ¬flatTetrahedron.NonDegenerate ∧
    intersectsPointTetrahedron ![0, 0, 9] flatTetrahedron = true ∧ (![0, 0, 9] : Pt ℚ 3) ∉ flatTetrahedron.set := by
  have hf : ¬flatTetrahedron.NonDegenerate := by rw [Tetrahedron.nonDegenerate_iff]; decide +kernel
  refine ⟨by rw [Tetrahedron.nonDegenerate_iff]; decide +kernel, hf, (intersects_point_tetrahedron_exact _ _).2 (.inr hf), ?_⟩
  rintro ⟨t, u, v, w, -, -, -, -, -, h⟩
  have := h 2
  simp [flatTetrahedron] at this

end ArborX.Geometry
