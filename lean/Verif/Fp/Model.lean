import Verif.Euclid.Model
import Mathlib.Data.EReal.Basic

/-!
# Distances and tests in floating-point arithmetic

The other geometric files compute with exact numbers. Here every arithmetic operation is rounded, overflows to infinity, and accumulations may or
may not be contracted to fused multiply-adds, as for `float` and `double`. Coordinates are finite; comparisons, minima and maxima are exact.
-/

namespace ArborX.Fp

open Geometry BVH Euclid

/-- The arithmetic of a floating-point type: `rnd x` is the result of an operation with exact result `x`, infinite if it overflows. Of the rounding it is
only assumed that it is monotone, symmetric, and exact on numbers of the type (`Verif/Fp/Ieee.lean`: round to nearest even has these properties). `fma`
tells whether the compiler contracts `s + t * t` to one rounding. -/
structure Format where
  rnd : ℝ → EReal
  mono : Monotone rnd
  neg : ∀ x, rnd (-x) = -rnd x
  idem : ∀ x y : ℝ, rnd x = y → rnd y = y
  fma : Bool

/-- `s + t * t` for `s` not negative; an infinite operand makes it infinite. -/
noncomputable def Format.madd (F : Format) (s t : EReal) : EReal :=
  if s = ⊤ ∨ t = ⊤ ∨ t = ⊥ then ⊤
  else if F.fma then F.rnd (t.toReal * t.toReal + s.toReal)
  else if F.rnd (t.toReal * t.toReal) = ⊤ then ⊤
  else F.rnd (s.toReal + (F.rnd (t.toReal * t.toReal)).toReal)

/-- `Kokkos::sqrt` of a number which is not negative, correctly rounded. -/
noncomputable def Format.sqrt (F : Format) (s : EReal) : EReal := if s = ⊤ then ⊤ else F.rnd (Real.sqrt s.toReal)

/-- `s - r` for `s` not negative infinity and `r` finite. -/
noncomputable def Format.sub (F : Format) (s : EReal) (r : ℝ) : EReal := if s = ⊤ then ⊤ else F.rnd (s.toReal - r)

variable {D : ℕ}

/-- One iteration of a loop that accumulates `distance_squared`: the difference along one axis is rounded and its square added; nothing is done if
there is none. -/
noncomputable def Format.step (F : Format) (s : EReal) : Option ℝ → EReal
  | some x => F.madd s (F.rnd x)
  | none => s

/-- The loop and the final square root. -/
noncomputable def Format.norm (F : Format) (gap : Fin D → Option ℝ) : EReal :=
  F.sqrt ((List.finRange D).foldl (fun s d => F.step s (gap d)) 0)

/-- `distance(Point, Point)` (`src/geometry/algorithms/ArborX_Distance.hpp` 52-69). -/
noncomputable def Format.distPoint (F : Format) (a b : Pt ℝ D) : EReal := F.norm (fun d => some (b d - a d))

/-- `distance(Point, Box)` (71-79). -/
noncomputable def Format.distPointBox (F : Format) (p : Pt ℝ D) (B : Box ℝ D) : EReal := F.distPoint p (closestPointBox p B)

/-- The difference of two boxes along one axis (176-192). -/
noncomputable def boxGap (B C : Box ℝ D) (d : Fin D) : Option ℝ :=
  if B.lo d > C.hi d then some (B.lo d - C.hi d) else if C.lo d > B.hi d then some (C.lo d - B.hi d) else none

/-- `distance(Box, Box)` (162-196). -/
noncomputable def Format.distBox (F : Format) (B C : Box ℝ D) : EReal := F.norm (boxGap B C)

/-- `distance(Point, Sphere)` (81-92). -/
noncomputable def Format.distPointSphere (F : Format) (p : Pt ℝ D) (S : Sphere ℝ D) : EReal := max (F.sub (F.distPoint p S.center) S.radius) 0

/-- `distance(Sphere, Box)` (198-210). -/
noncomputable def Format.distSphereBox (F : Format) (S : Sphere ℝ D) (B : Box ℝ D) : EReal := max (F.sub (F.distPointBox S.center B) S.radius) 0

/-- `distance(geometry, geometry)` with the reversal of arguments of `ArborX_ReverseDispatch.hpp` 31-46, for points, boxes and spheres against points
and boxes. -/
noncomputable def Format.distance (F : Format) : Geom ℝ D → Geom ℝ D → Option EReal
  | .point p, .point q => some (F.distPoint p q)
  | .point p, .box B => some (F.distPointBox p B)
  | .box B, .point p => some (F.distPointBox p B)
  | .box B, .box C => some (F.distBox B C)
  | .sphere S, .point p => some (F.distPointSphere p S)
  | .sphere S, .box B => some (F.distSphereBox S B)
  | _, _ => none

/-- `intersects(geometry, geometry)` (`src/geometry/algorithms/ArborX_Intersects.hpp` 50-90, 104-113), likewise; box-box and point-box only compare. -/
noncomputable def Format.intersects (F : Format) : Geom ℝ D → Geom ℝ D → Option Bool
  | .box B, .box C => some (intersectsBoxBox B C)
  | .point p, .box B => some (intersectsPointBox p B)
  | .box B, .point p => some (intersectsPointBox p B)
  | .sphere S, .box B => some (decide (F.distPointBox S.center B ≤ S.radius))
  | .sphere S, .point p => some (decide (F.distPoint S.center p ≤ S.radius))
  | _, _ => none

/-- What the constructor of the tree works on: the user values, the largest finite number, the codes, whatever space-filling curve and arithmetic they
come from, and the permutation of `sortObjects`. -/
structure Scene (D : ℕ) where
  geo : List (Geom ℝ D)
  M : ℝ
  code : ℕ → BitVec 64
  perm : ℕ → ℕ

/-- The value `i`. -/
def Scene.at (S : Scene D) (i : ℕ) : Geom ℝ D := S.geo.getD i (.point 0)

/-- The input of the construction (`src/spatial/ArborX_LinearBVH.hpp` 171-255) with values `attach_indices(geo)`, represented by the index. The boxes of
points and boxes are computed with minima and maxima only (`src/geometry/algorithms/ArborX_Expand.hpp` 43-78). -/
noncomputable def Scene.input (S : Scene D) : Input ℕ (Bound D) 64 where
  n := S.geo.length
  values := fun i => i
  vol := fun i => leafBound S.M (S.at i)
  code := S.code
  perm := S.perm

/-- `Intersects::operator()` (`src/spatial/detail/ArborX_Predicates.hpp` 95-101) on a leaf. -/
noncomputable def Scene.leafTest (S : Scene D) (F : Format) (Q : Geom ℝ D) (i : ℕ) : Bool := decide (F.intersects Q (S.at i) = some true)

/-- The same on an internal node. -/
noncomputable def nodeTest (F : Format) (Q : Geom ℝ D) : Bound D → Bool :=
  WithBot.recBotCoe false (fun B => decide (F.intersects Q (.box B.1) = some true))

/-- A distance as the value compared in the traversal; infinity if there is none. -/
noncomputable def asDistance : Option EReal → EReal
  | some r => r
  | none => ⊤

/-- `Nearest::distance` (`ArborX_Predicates.hpp` 71-76) for the predicate `nearest(Q, k)`. -/
noncomputable def Scene.nearest (S : Scene D) (F : Format) (Q : Geom ℝ D) (k : ℕ) : Nearest.Query ℕ (Bound D) EReal where
  k := k
  dl := fun i => asDistance (F.distance Q (S.at i))
  dv := WithBot.recBotCoe ⊤ (fun B => asDistance (F.distance Q (.box B.1)))
  zero := 0
  inf := ⊤
  cap := 64

end ArborX.Fp
