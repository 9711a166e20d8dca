import Verif.Fp.NanModel
import Verif.Fp.Ray
import Verif.Morton.Theorems

/-!
# Model: positions on the space-filling curve in floating-point arithmetic

The Morton codes of `Verif/Morton/Model.lean` are computed from rational numbers. Here they are computed as the program does, from the corners of the scene and the
centroid of a geometry, with rounding, overflow and NaN. The last step is a conversion to an unsigned integer, which is undefined in C++ if the number is NaN or out of
range; `none` stands for this undefined behaviour.
-/

namespace ArborX.Fp

open Nearest Morton

/-- `x / y`; a `y` that is zero has a positive sign (it is the difference of a larger and a smaller number, or no zero). -/
noncomputable def Format.quotient (F : Format) : Num → Num → Num
  | some x, some y =>
    if y = ⊤ ∨ y = ⊥ then (if x = ⊤ ∨ x = ⊥ then none else some 0)
    else if y = 0 then (if x = 0 then none else if 0 < x then some ⊤ else some ⊥)
    else some (F.rayQuot x y.toReal)
  | _, _ => none

/-- `x != y` of floating-point numbers. -/
def nanNe : Num → Num → Prop
  | some x, some y => x ≠ y
  | _, _ => True

open Classical in
/-- `translateAndScale` (`src/geometry/algorithms/ArborX_TranslateAndScale.hpp` 26-37), one coordinate. -/
noncomputable def Format.place (F : Format) (x a b : Num) : Num := if nanNe a b then F.quotient (F.nsub x a) (F.nsub b a) else some 0

/-- The conversion of a floating-point number to another floating-point type. -/
noncomputable def Format.conv (F : Format) : Num → Num
  | some x => if x = ⊤ ∨ x = ⊥ then some x else some (F.rnd x.toReal)
  | none => none

/-- The product with a positive finite number. -/
noncomputable def Format.scale (F : Format) (N : ℝ) : Num → Num
  | some x => if x = ⊤ ∨ x = ⊥ then some x else some (F.rnd (x.toReal * N))
  | none => none

/-- `Kokkos::clamp`. -/
noncomputable def nclamp (v lo hi : Num) : Num := if nanLt v lo then lo else if nanLt hi v then hi else v

/-- The conversion to an unsigned integer of `w` bits: undefined, if the number without its fraction is not in the range. -/
noncomputable def toUnsigned (w : ℕ) : Num → Option ℕ
  | some x => if x = ⊤ ∨ x = ⊥ then none else if -1 < x.toReal ∧ x.toReal < 2 ^ w then some ⌊x.toReal⌋₊ else none
  | none => none

/-- What distinguishes `morton32` and `morton64` and their instances (`src/spatial/detail/ArborX_MortonCode.hpp` 291-347): the type `Float` in which they compute, the type
of the variable `x`, the number of bits `N = 2 ^ bits`, and `expandBitsBy<DIM - 1>`. -/
structure Curve (w : ℕ) where
  G : Format
  H : Format
  bits : ℕ
  expand : BitVec w → BitVec w

/-- `morton32` (291-316) for coordinates of type `F`; `fl` is `float`. -/
def curve32 (F fl : Format) (dim : ℕ) : Curve 32 := ⟨F, fl, bits32 dim, expand32 (dim - 1)⟩

/-- `morton64` (318-347); `db` is `double`. -/
def curve64 (F fl db : Format) (dim : ℕ) : Curve 64 :=
  if needDouble dim then ⟨db, db, bits64 dim, expand64 (dim - 1)⟩ else ⟨F, fl, bits64 dim, expand64 (dim - 1)⟩

variable {D w : ℕ}

/-- The body of the loops (311-312, 341-342): a coordinate in the unit interval becomes a number of a cell. -/
noncomputable def Curve.cell (C : Curve w) (p : Num) : Option ℕ :=
  toUnsigned w (C.H.conv (nclamp (C.G.scale (2 ^ C.bits) (C.G.conv p)) (some 0) (some (C.G.rnd (2 ^ C.bits - 1)))))

/-- `morton32` and `morton64` (291-347), undefined if a conversion is. -/
noncomputable def Curve.morton (C : Curve w) (p : Fin D → Num) : Option (BitVec w) :=
  if (List.finRange D).all (fun d => (C.cell (p d)).isSome) then
    some (codeLoop C.expand D (fun d => if h : d < D then (C.cell (p ⟨d, h⟩)).getD 0 else 0) D)
  else none

/-- `Morton32::operator()` and `Morton64::operator()` (`src/spatial/detail/ArborX_SpaceFillingCurves.hpp` 30-58), after `returnCentroid`: `c` is the centroid and `a`, `b` the
corners of the scene. -/
noncomputable def Curve.position (C : Curve w) (F : Format) (a b c : Fin D → Num) : Option (BitVec w) := C.morton (fun d => F.place (c d) (a d) (b d))

/-- A geometry that is the hull of given vertices: a point, a segment, a triangle, a tetrahedron, or a box with its two corners. -/
abbrev Hull (D : ℕ) := List (Fin D → ℝ)

/-- `returnCentroid` (`src/geometry/algorithms/ArborX_Centroid.hpp` 43-155), one coordinate: the rounded sum of the vertices divided by their number; a point is its own
centroid. The sum `s + v` is computed as `s - (-v)`, which is the same number. -/
noncomputable def Format.centroid (F : Format) (g : Hull D) (d : Fin D) : Num :=
  match g with
  | [] => none
  | [v] => some (v d : EReal)
  | v :: vs => F.quotient (vs.foldl (fun s v => F.nsub s (some ((-(v d) : ℝ) : EReal))) (some (v d : EReal))) (some (((v :: vs).length : ℝ) : EReal))

/-- The lower corner of the scene: `calculateBoundingBoxOfTheScene` (`src/spatial/detail/ArborX_TreeConstruction.hpp` 26-39), or `bounds()` of a tree. `M` is the largest
number of the type (`Box{}`, `src/geometry/ArborX_Box.hpp` 33-43). The minima are exact and so may be taken in any order (C31). -/
noncomputable def sceneLo (M : ℝ) (geo : List (Hull D)) (d : Fin D) : ℝ := geo.flatten.foldl (fun m v => min m (v d)) M

/-- The upper corner. -/
noncomputable def sceneHi (M : ℝ) (geo : List (Hull D)) (d : Fin D) : ℝ := geo.flatten.foldl (fun m v => max m (v d)) (-M)

/-- `projectOntoSpaceFillingCurve` (`ArborX_SpaceFillingCurves.hpp` 66-89) for an object with centroid `c`; the scene is that of the values of a tree. The constructor calls
it with the values themselves (`src/spatial/ArborX_LinearBVH.hpp` 237-238), queries with `Morton32` and the centroids of the predicates (296-298;
`src/spatial/detail/ArborX_CrsGraphWrapperImpl.hpp` 416-418). -/
noncomputable def Curve.project (C : Curve w) (F : Format) (M : ℝ) (geo : List (Hull D)) (c : Fin D → Num) : Option (BitVec w) :=
  C.position F (fun d => some (sceneLo M geo d : EReal)) (fun d => some (sceneHi M geo d : EReal)) c

end ArborX.Fp
