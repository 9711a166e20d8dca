import Verif.Geometry.Barycentric

/-!
# Property theorems: triangles whose first two vertices coincide (C32, C33, C38)

`closestPoint(Point, Triangle)` (`src/geometry/algorithms/ArborX_ClosestPoint.hpp` 84-152) divides zero by zero for some of these. The theorems say exactly for which.
-/

namespace ArborX.Geometry

section

variable {K : Type} [Field K] [LinearOrder K] [IsStrictOrderedRing K] {D : ℕ}

/-- **C38.** For every point and every triangle: the result is a number exactly unless the vertices `a` and `b` coincide and the foot of the perpendicular from the point
to the line through `a` and `c` is strictly between `a` and `c`; if it is a number, it is a point of the triangle at minimal distance. -/
theorem closest_point_triangle_exact (p : Pt K D) (T : Triangle K D) :
    (closestPointTriangle p T = none ↔ T.a = T.b ∧ 0 < ∑ d, (T.c d - T.a d) * (p d - T.a d) ∧ 0 < ∑ d, (T.a d - T.c d) * (p d - T.c d)) ∧
      ∀ q, closestPointTriangle p T = some q → IsClosest p T.set q := by
  by_cases hab : T.a = T.b
  · have hz : T.b - T.a = 0 := by rw [hab]; exact sub_self _
    have z : ∀ x : Pt K D, dot (T.b - T.a) x = 0 := by
      intro x; rw [hz]; simp [dot]
    have e2 : ∑ d, (T.c d - T.a d) * (p d - T.a d) = dot (T.c - T.a) (p - T.a) := rfl
    have e6 : ∑ d, (T.a d - T.c d) * (p d - T.c d) = -dot (T.c - T.a) (p - T.c) := by
      unfold dot
      rw [← Finset.sum_neg_distrib]
      exact Finset.sum_congr rfl (fun d _ => by rw [Pi.sub_apply, Pi.sub_apply]; ring)
    have h6 : dot (T.c - T.a) (p - T.c) = dot (T.c - T.a) (p - T.a) - dot (T.c - T.a) (T.c - T.a) := by
      rw [← dot_sub_right]; congr 1; abel
    rw [e2, e6]
    unfold closestPointTriangle
    dsimp only
    rw [z, z, z, ← hab]
    by_cases h1 : dot (T.c - T.a) (p - T.a) ≤ 0
    · rw [if_pos ⟨le_rfl, h1⟩]
      refine ⟨?_, ?_⟩
      · simp only [reduceCtorEq, true_and, false_iff, not_and]
        exact fun h => absurd h (not_lt.mpr h1)
      · intro q hq
        have hc := closest_of_optimal p T 0 0 ⟨le_rfl, le_rfl, by norm_num, by simp, by rw [z, z, z]; simp, by rw [z, z]; simpa using h1⟩
        have : combine T.a T.b T.c (1 - 0 - 0) 0 0 = T.a := by funext d; simp [combine]
        rw [this] at hc
        rw [← Option.some.inj hq]; exact hc
    · have h1' := not_le.mp h1
      rw [if_neg (fun h => h1 h.2), if_neg (fun h => h1 h.2)]
      by_cases h3 : 0 ≤ dot (T.c - T.a) (p - T.c)
      · rw [if_pos ⟨h3, h3⟩]
        refine ⟨?_, ?_⟩
        · simp only [reduceCtorEq, true_and, false_iff, not_and]
          intro _
          linarith
        · intro q hq
          have h3' : dot (T.c - T.a) (T.c - T.a) ≤ dot (T.c - T.a) (p - T.a) := by linarith
          have hc := closest_of_optimal p T 0 1 ⟨le_rfl, zero_le_one, by norm_num, by rw [z, z, z]; simpa using h3', by rw [z, z, z]; simpa using h3',
            by rw [z, z]; simp⟩
          have : combine T.a T.b T.c (1 - 0 - 1) 0 1 = T.c := by funext d; simp [combine]
          rw [this] at hc
          rw [← Option.some.inj hq]; exact hc
      · have h3' := not_le.mp h3
        rw [if_neg (fun h => h3 h.1), if_pos ⟨by simp, le_rfl, le_rfl⟩]
        have hn : divide (0 : K) (0 - 0) = none := by unfold divide; rw [if_pos (by ring)]
        rw [hn, Option.map_none]
        refine ⟨?_, fun q hq => by simp at hq⟩
        simp only [true_and, true_iff]
        exact ⟨h1', by linarith⟩
  · obtain ⟨q, hq, h⟩ := closest_point_triangle_partial p T hab
    rw [hq]
    refine ⟨?_, fun q' e => by rw [← Option.some.inj e]; exact h⟩
    simp [hab]

end

variable {D : ℕ}

/-- **C33.** Whenever the computed distance of a point and a triangle is a number, it is attained and minimal; it is one unless the vertices `a` and `b` coincide and the
foot of the perpendicular is strictly between `a` and `c`. -/
theorem distance_point_triangle_exact (p : Pt ℝ D) (T : Triangle ℝ D) :
    (distancePointTriangle p T = none ↔ T.a = T.b ∧ 0 < ∑ d, (T.c d - T.a d) * (p d - T.a d) ∧ 0 < ∑ d, (T.a d - T.c d) * (p d - T.c d)) ∧
      ∀ r, distancePointTriangle p T = some r → IsDistance {p} T.set r := by
  obtain ⟨h1, h2⟩ := closest_point_triangle_exact p T
  unfold distancePointTriangle
  refine ⟨by rw [Option.map_eq_none_iff, h1], ?_⟩
  intro r hr
  obtain ⟨q, hq, rfl⟩ := Option.map_eq_some_iff.mp hr
  exact (h2 q hq).distance

/-- **C32.** What the test of a ball and a triangle answers (a comparison with a distance that is not a number is false): yes exactly if they have a common point, except
that the answer is always no if the vertices `a` and `b` coincide and the foot of the perpendicular from the center is strictly between `a` and `c`. -/
theorem intersects_sphere_triangle_exact (S : Sphere ℝ D) (T : Triangle ℝ D) :
    intersectsSphereTriangle S T = some true ↔ (S.set ∩ T.set).Nonempty ∧
      ¬ (T.a = T.b ∧ 0 < ∑ d, (T.c d - T.a d) * (S.center d - T.a d) ∧ 0 < ∑ d, (T.a d - T.c d) * (S.center d - T.c d)) := by
  obtain ⟨h1, h2⟩ := distance_point_triangle_exact S.center T
  rw [← h1]
  unfold intersectsSphereTriangle
  cases hd : distancePointTriangle S.center T with
  | none => simp
  | some r =>
    have h := h2 r hd
    simp only [Option.map_some, Option.some.injEq, decide_eq_true_eq, reduceCtorEq, not_false_eq_true, and_true]
    constructor
    · intro hr
      obtain ⟨c, hc, y, hy, e⟩ := h.attained
      rw [Set.mem_singleton_iff.mp hc] at e
      exact ⟨y, mem_sphere.mpr (by rw [edist_comm, e]; exact hr), hy⟩
    · rintro ⟨y, hy, hy'⟩
      exact (h.minimal S.center rfl y hy').trans ((edist_comm _ _).trans_le (mem_sphere.mp hy))

/-- The exception occurs: the ball of radius 1 around (1, 0) contains (1, 0), a point of the triangle (0, 0), (0, 0), (2, 0), and the answer is no. -/
example : intersectsSphereTriangle (D := 2) ⟨![1, 0], 1⟩ ⟨![0, 0], ![0, 0], ![2, 0]⟩ ≠ some true := by
  rw [Ne, intersects_sphere_triangle_exact, not_and_not_right]
  intro _
  refine ⟨rfl, ?_, ?_⟩ <;> norm_num [Fin.sum_univ_two]

/-- Before `a`, the result is a number. -/
example : closestPointTriangle (K := ℚ) (D := 2) ![-1, 1] ⟨![0, 0], ![0, 0], ![2, 0]⟩ ≠ none := by
  rw [Ne, (closest_point_triangle_exact _ _).1]
  norm_num [Fin.sum_univ_two]

end ArborX.Geometry
