import Mathlib.Algebra.Order.Field.Basic
import Mathlib.Algebra.BigOperators.Fin
import Mathlib.Algebra.Order.BigOperators.Ring.Finset
import Mathlib.Data.Set.Basic

/-!
# Specification: the geometries as sets of points

Independent of the code. Coordinates are exact numbers in any ordered field `K`.
-/

namespace ArborX.Geometry

/-- A point (or vector) with `D` coordinates. -/
abbrev Pt (K : Type) (D : ℕ) := Fin D → K

/-- Axis-aligned box, given by its corners. -/
structure Box (K : Type) (D : ℕ) where
  /-- `minCorner` -/
  lo : Pt K D
  /-- `maxCorner` -/
  hi : Pt K D

/-- Ball, given by its centre and radius. -/
structure Sphere (K : Type) (D : ℕ) where
  center : Pt K D
  radius : K

structure Segment (K : Type) (D : ℕ) where
  a : Pt K D
  b : Pt K D

structure Triangle (K : Type) (D : ℕ) where
  a : Pt K D
  b : Pt K D
  c : Pt K D

structure Tetrahedron (K : Type) (D : ℕ) where
  a : Pt K D
  b : Pt K D
  c : Pt K D
  d : Pt K D

variable {K : Type} [Field K] [LinearOrder K] [IsStrictOrderedRing K] {D : ℕ}

/-- Square of the Euclidean distance. -/
def dist2 (x y : Pt K D) : K := ∑ d, (x d - y d) ^ 2

/-- The point at parameter `t` of the line through `x` and `y`. -/
def lerp (x y : Pt K D) (t : K) : Pt K D := fun d => x d + t * (y d - x d)

/-- The points of a box. -/
def Box.set (B : Box K D) : Set (Pt K D) := {x | ∀ d, B.lo d ≤ x d ∧ x d ≤ B.hi d}

/-- The points of a ball: distance to the centre at most the radius. -/
def Sphere.set (S : Sphere K D) : Set (Pt K D) := {x | 0 ≤ S.radius ∧ dist2 x S.center ≤ S.radius ^ 2}

/-- The points of a segment: convex combinations of the end points. -/
def Segment.set (S : Segment K D) : Set (Pt K D) :=
  {x | ∃ u v : K, 0 ≤ u ∧ 0 ≤ v ∧ u + v = 1 ∧ ∀ d, x d = u * S.a d + v * S.b d}

/-- The points of a triangle: convex combinations of the vertices. -/
def Triangle.set (T : Triangle K D) : Set (Pt K D) :=
  {x | ∃ u v w : K, 0 ≤ u ∧ 0 ≤ v ∧ 0 ≤ w ∧ u + v + w = 1 ∧ ∀ d, x d = u * T.a d + v * T.b d + w * T.c d}

/-- The points of a tetrahedron: convex combinations of the vertices. -/
def Tetrahedron.set (T : Tetrahedron K D) : Set (Pt K D) :=
  {x | ∃ t u v w : K, 0 ≤ t ∧ 0 ≤ u ∧ 0 ≤ v ∧ 0 ≤ w ∧ t + u + v + w = 1 ∧
    ∀ d, x d = t * T.a d + u * T.b d + v * T.c d + w * T.d d}

/-- A box with ordered corners. -/
def Box.Valid (B : Box K D) : Prop := ∀ d, B.lo d ≤ B.hi d

end ArborX.Geometry
