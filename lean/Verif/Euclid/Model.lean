import Verif.Geometry.Lattice
import Verif.Geometry.Segments
import Verif.Geometry.Barycentric
import Verif.Morton.Theorems
import Verif.Nearest.Theorems

/-!
# Trees over geometries, with nothing left abstract

The constructor of the tree with the default space-filling curve on points, boxes, spheres, segments, triangles and tetrahedra, and the
predicates `intersects(geometry)` and `nearest(geometry, k)`. Coordinates of the stored values are rational numbers (every finite
floating-point number is one); they are compared with real numbers in the queries.
-/

namespace ArborX.Euclid

open Geometry BVH

/-- A rational point as a real point. -/
def toRealPt {D : ℕ} (p : Pt ℚ D) : Pt ℝ D := fun d => (p d : ℝ)

/-- A rational geometry as a real geometry. -/
def toReal {D : ℕ} : Geom ℚ D → Geom ℝ D
  | .point p => .point (toRealPt p)
  | .box B => .box ⟨toRealPt B.lo, toRealPt B.hi⟩
  | .sphere S => .sphere ⟨toRealPt S.center, (S.radius : ℝ)⟩
  | .segment S => .segment ⟨toRealPt S.a, toRealPt S.b⟩
  | .triangle T => .triangle ⟨toRealPt T.a, toRealPt T.b, toRealPt T.c⟩
  | .tetrahedron T => .tetrahedron ⟨toRealPt T.a, toRealPt T.b, toRealPt T.c, toRealPt T.d⟩

/-- `returnCentroid` (`src/geometry/algorithms/ArborX_Centroid.hpp` 40-118). -/
def centroid {D : ℕ} : Geom ℚ D → Pt ℚ D
  | .point p => p
  | .box B => fun d => (B.lo d + B.hi d) / 2
  | .sphere S => S.center
  | .segment S => fun d => (S.a d + S.b d) / 2
  | .triangle T => fun d => (T.a d + T.b d + T.c d) / 3
  | .tetrahedron T => fun d => (T.a d + T.b d + T.c d + T.d d) / 4

/-- What the constructor of the tree works on.
* `geo` is the list of user values;
* `M` is the largest finite number of the coordinate type, `prec` its precision;
* `red` is the arrangement of the reduction that computes the box of the scene;
* `perm` is the permutation computed by `sortObjects`. -/
structure Scene (D : ℕ) where
  geo : List (Geom ℚ D)
  M : ℚ
  prec : ℕ
  red : Reduction
  perm : ℕ → ℕ

variable {D : ℕ}

/-- The value `i`. -/
def Scene.at (S : Scene D) (i : ℕ) : Geom ℚ D := S.geo.getD i (.point 0)

/-- `calculateBoundingBoxOfTheScene` (`src/spatial/detail/ArborX_TreeConstruction.hpp` 26-39). -/
def Scene.box (S : Scene D) : Box ℚ D := S.red.eval S.M S.at

/-- The code of value `i`: `projectOntoSpaceFillingCurve` with `Morton64`
(`src/spatial/detail/ArborX_SpaceFillingCurves.hpp` 41-55, 65-92): the centroid is mapped to the unit cube by the box of the scene. -/
def Scene.code (S : Scene D) (i : ℕ) : BitVec 64 :=
  Morton.morton64 D S.prec (fun d => if h : d < D then
    Morton.translateAndScale (centroid (S.at i) ⟨d, h⟩) (S.box.lo ⟨d, h⟩) (S.box.hi ⟨d, h⟩) else 0)

/-- The bounding volume of a leaf: `expand(BoundingVolume{}, geometry)` (`ArborX_TreeConstruction.hpp` 60-62, 198-206). -/
noncomputable def leafBound (M : ℝ) (g : Geom ℝ D) : Bound D :=
  if h : ∀ d, ((Box.empty M).expand g).lo d ≤ ((Box.empty M).expand g).hi d then ((⟨_, h⟩ : VBox D) : Bound D) else ⊥

/-- The input of the construction (`src/spatial/ArborX_LinearBVH.hpp` 171-255) with values `attach_indices(geo)`, represented by the index. -/
noncomputable def Scene.input (S : Scene D) : Input ℕ (Bound D) 64 where
  n := S.geo.length
  values := fun i => i
  vol := fun i => leafBound S.M (toReal (S.at i))
  code := S.code
  perm := S.perm

/-- `intersects(geometry, geometry)` (`src/geometry/algorithms/ArborX_Intersects.hpp`) with the reversal of arguments of
`ArborX_ReverseDispatch.hpp` 31-46; `none` for pairs without an implementation and for divisions by zero. The pairs box-triangle and
segment-triangle are left out (see `Verif/Geometry/BoxTriangle.lean` for the first). -/
noncomputable def intersects : {D : ℕ} → Geom ℝ D → Geom ℝ D → Option Bool
  | _, .box B, .box C => some (intersectsBoxBox B C)
  | _, .point p, .box B => some (intersectsPointBox p B)
  | _, .box B, .point p => some (intersectsPointBox p B)
  | _, .sphere S, .box B => some (intersectsSphereBox S B)
  | _, .box B, .sphere S => some (intersectsSphereBox S B)
  | _, .sphere S, .sphere T => some (intersectsSphereSphere S T)
  | _, .sphere S, .point p => some (intersectsSpherePoint S p)
  | _, .point p, .sphere S => some (intersectsSpherePoint S p)
  | _, .sphere S, .triangle T => intersectsSphereTriangle S T
  | _, .triangle T, .sphere S => intersectsSphereTriangle S T
  | 2, .point p, .triangle T => intersectsPointTriangle p T
  | 2, .triangle T, .point p => intersectsPointTriangle p T
  | 3, .point p, .tetrahedron T => some (intersectsPointTetrahedron p T)
  | 3, .tetrahedron T, .point p => some (intersectsPointTetrahedron p T)
  | 2, .segment S, .segment T => some (intersectsSegmentSegment S T)
  | 2, .segment S, .box B => some (intersectsSegmentBox S B)
  | 2, .box B, .segment S => some (intersectsSegmentBox S B)
  | _, _, _ => none

/-- `distance(geometry, geometry)` (`src/geometry/algorithms/ArborX_Distance.hpp`), likewise. -/
noncomputable def distance : {D : ℕ} → Geom ℝ D → Geom ℝ D → Option ℝ
  | _, .point p, .point q => some (distancePoint p q)
  | _, .point p, .box B => some (distancePointBox p B)
  | _, .box B, .point p => some (distancePointBox p B)
  | _, .point p, .sphere S => some (distancePointSphere p S)
  | _, .sphere S, .point p => some (distancePointSphere p S)
  | _, .sphere S, .sphere T => some (distanceSphereSphere S T)
  | _, .point p, .triangle T => distancePointTriangle p T
  | _, .triangle T, .point p => distancePointTriangle p T
  | 3, .point p, .tetrahedron T => distancePointTetrahedron p T
  | 3, .tetrahedron T, .point p => distancePointTetrahedron p T
  | _, .box B, .box C => some (distanceBoxBox B C)
  | _, .sphere S, .box B => some (distanceSphereBox S B)
  | _, .box B, .sphere S => some (distanceSphereBox S B)
  | _, .point p, .segment S => distancePointSegment p S
  | _, .segment S, .point p => distancePointSegment p S
  | _, _, _ => none

/-- `Intersects::operator()` (`src/spatial/detail/ArborX_Predicates.hpp` 95-101) on a leaf. -/
noncomputable def Scene.leafTest (S : Scene D) (Q : Geom ℝ D) (i : ℕ) : Bool :=
  decide (intersects Q (toReal (S.at i)) = some true)

/-- The same on an internal node; an empty box intersects nothing. -/
noncomputable def nodeTest (Q : Geom ℝ D) : Bound D → Bool :=
  WithBot.recBotCoe false (fun B => decide (intersects Q (.box B.1) = some true))

/-- A distance as the value compared in the traversal; infinity if there is none. -/
noncomputable def asDistance : Option ℝ → WithTop ℝ
  | some r => (r : WithTop ℝ)
  | none => ⊤

/-- `Nearest::distance` (`ArborX_Predicates.hpp` 71-76) for the predicate `nearest(Q, k)`; the stack of the traversal has 64 entries
(`src/spatial/detail/ArborX_TreeTraversal.hpp` 218). -/
noncomputable def Scene.nearest (S : Scene D) (Q : Geom ℝ D) (k : ℕ) : Nearest.Query ℕ (Bound D) (WithTop ℝ) where
  k := k
  dl := fun i => asDistance (distance Q (toReal (S.at i)))
  dv := WithBot.recBotCoe ⊤ (fun B => asDistance (distance Q (.box B.1)))
  zero := 0
  inf := ⊤
  cap := 64

end ArborX.Euclid
