import Verif.Fp.NanModel
import Verif.Geometry.Ray

/-!
# Model: the tests of validity and of equality of geometries

With coordinates that are any floating-point numbers, NaN and infinities included. Positive and negative zero are the same number here, except in
the directions of rays (`Ray.negZero`).
-/

noncomputable section

namespace ArborX.Fp

open Nearest Geometry

variable {D : ℕ}

/-- `Kokkos::isfinite`. -/
def nfinite : Num → Bool
  | some x => decide (x ≠ ⊤ ∧ x ≠ ⊥)
  | none => false

/-- `x != y` of floating-point numbers: true if one of them is NaN. -/
def nne : Num → Num → Bool
  | some x, some y => decide (x ≠ y)
  | _, _ => true

/-- `isValid(Point)` (`src/geometry/algorithms/ArborX_Valid.hpp` 38-50); the loop returns at the first coordinate that is not finite. -/
def validPoint (p : Fin D → Num) : Bool := (List.finRange D).all (fun d => !(!(nfinite (p d))))

/-- `isValid(Box)` (52-67). -/
def Format.validBox (F : Format) (lo hi : Fin D → Num) : Bool :=
  (List.finRange D).all (fun d =>
    let r := F.nsub (hi d) (lo d)
    !(nanLe r (some 0) || !(nfinite r)))

/-- `isValid(Sphere)` (69-78). -/
def validSphere (c : Fin D → Num) (r : Num) : Bool := validPoint c && nfinite r && nanLe (some 0) r

/-- `equals(Point, Point)` (`src/geometry/algorithms/ArborX_Equals.hpp` 39-51). -/
def eqPoint (p q : Fin D → Num) : Bool := (List.finRange D).all (fun d => !(nne (p d) (q d)))

/-- `equals(Box, Box)` (53-62). -/
def eqBox (lo hi lo' hi' : Fin D → Num) : Bool := eqPoint lo lo' && eqPoint hi hi'

/-- `equals(Sphere, Sphere)` (64-73). -/
def eqSphere (c : Fin D → Num) (r : Num) (c' : Fin D → Num) (r' : Num) : Bool := eqPoint c c' && !(nne r r')

/-- `equals(Ray, Ray)` (`src/geometry/ArborX_Ray.hpp` 70-76), for finite coordinates: the comparison does not see the sign of a zero. `==` of the
directions compares the components (`src/misc/ArborX_Vector.hpp` 66-75). -/
def eqRay {K : Type} [DecidableEq K] (R S : Ray K) : Bool :=
  (List.finRange 3).all (fun d => decide (R.origin d = S.origin d)) && (List.finRange 3).all (fun d => decide (R.dir d = S.dir d))

end ArborX.Fp

end
