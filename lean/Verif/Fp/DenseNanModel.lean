import Verif.Fp.CurveModel
import Verif.Fp.DenseBoxModel

/-!
# Model: the cells of FDBSCAN-DenseBox, with NaN and infinite coordinates

`Fp.DenseBoxModel` has finite points. Here the coordinates are any floating-point numbers, and the conversion of a NaN, or of a number out of range, to an
integer is undefined behaviour.
-/

noncomputable section

namespace ArborX.Fp

open Nearest Geometry

variable {D : ℕ}

/-- `undefined`: undefined behaviour. `rejected`: an assertion fails or an exception is thrown. -/
inductive Outcome (α : Type) where
  | ok (a : α)
  | rejected
  | undefined

/-- The bounds of the points (`src/cluster/ArborX_DBSCAN.hpp` 332-337, `src/spatial/detail/ArborX_TreeConstruction.hpp` 26-39). Minima are exact, and so may be taken in any order
(C31). -/
def nlo (M : ℝ) (pts : List (Fin D → Num)) (d : Fin D) : EReal := pts.foldl (fun m p => minWith m (p d)) M

/-- The upper corner. -/
def nhi (M : ℝ) (pts : List (Fin D → Num)) (d : Fin D) : EReal := pts.foldl (fun m p => maxWith m (p d)) (-M : ℝ)

/-- The conversion of `ceil(x)` to `size_t`; `none` is undefined. -/
def ceilSize : Num → Option ℕ
  | some x => if x = ⊤ ∨ x = ⊥ then none else if 0 ≤ ⌈x.toReal⌉ ∧ ⌈x.toReal⌉ < 2 ^ 64 then some ⌈x.toReal⌉.toNat else none
  | none => none

/-- The conversion of `floor(x)` to `int`. -/
def floorInt : Num → Option ℤ
  | some x => if x = ⊤ ∨ x = ⊥ then none else if -2 ^ 31 ≤ ⌊x.toReal⌋ ∧ ⌊x.toReal⌋ < 2 ^ 31 then some ⌊x.toReal⌋ else none
  | none => none

open Classical in
/-- `_n[d]` (`src/cluster/detail/ArborX_CartesianGrid.hpp` 98-107), `h` the length of a cell. -/
def Format.gridSize (F : Format) (lo hi : EReal) (h : ℝ) : Outcome ℕ :=
  let delta := F.nsub (some hi) (some lo)
  if nanNe delta (some 0) then
    match ceilSize (F.quotient delta (some (h : EReal))) with
    | none => .undefined
    | some n => if n > 0 then .ok n else .rejected
  else .ok 1

/-- The loop (96-108) over the dimensions of a list. -/
def Format.gridSizes (F : Format) (lo hi : Fin D → EReal) (h : ℝ) : List (Fin D) → Outcome (List ℕ)
  | [] => .ok []
  | d :: ds =>
    match F.gridSize (lo d) (hi d) h with
    | .ok n =>
      match F.gridSizes lo hi h ds with
      | .ok l => .ok (n :: l)
      | .rejected => .rejected
      | .undefined => .undefined
    | .rejected => .rejected
    | .undefined => .undefined

/-- `std::abs(_h[d] / min_corner[d]) < eps` (131). -/
def Format.imprecise (F : Format) (lo : EReal) (h prec : ℝ) : Bool :=
  nanLt ((F.quotient (some (h : EReal)) (some lo)).map fun q => max q (-q)) (some (prec : EReal))

/-- The constructor and `buildGrid` (30-37, 92-137): the sizes. -/
def Format.gridBuild (F : Format) (lo hi : Fin D → EReal) (h prec : ℝ) : Outcome (List ℕ) :=
  if h > 0 then
    match F.gridSizes lo hi h (List.finRange D) with
    | .ok n =>
      if DenseBox.sizeCheck (2 ^ 64 - 1) n then
        if (List.finRange D).any (fun d => F.imprecise (lo d) h prec) then .rejected else .ok n
      else .rejected
    | .rejected => .rejected
    | .undefined => .undefined
  else .rejected

/-- The loop of `cellIndex` (49-63) over the dimensions of a list and their sizes, the last one first; arithmetic of `size_t`. -/
def Format.cellLoop (F : Format) (lo : Fin D → EReal) (h : ℝ) (p : Fin D → Num) : List (Fin D) → List ℕ → Option ℤ
  | d :: ds, n :: ns =>
    match floorInt (F.quotient (F.nsub (p d) (some (lo d))) (some (h : EReal))), F.cellLoop lo h p ds ns with
    | some i, some s => some ((s * n + i) % 2 ^ 64)
    | _, _ => none
  | _, _ => some 0

/-- The cells of all points, or the first undefined conversion. -/
def Format.cellsOf (F : Format) (lo : Fin D → EReal) (h : ℝ) (n : List ℕ) : List (Fin D → Num) → Option (List ℤ)
  | [] => some []
  | p :: ps =>
    match F.cellLoop lo h p (List.finRange D) n, F.cellsOf lo h n ps with
    | some c, some cs => some (c :: cs)
    | _, _ => none

/-- The grid of `dbscan` and `computeCellIndices` (`src/cluster/ArborX_DBSCAN.hpp` 332-344, `src/cluster/detail/ArborX_FDBSCANDenseBox.hpp` 200-222): the cell of each point. `h` is
the length of a cell. -/
def Format.denseCells (F : Format) (M h prec : ℝ) (pts : List (Fin D → Num)) : Outcome (List ℤ) :=
  match F.gridBuild (nlo M pts) (nhi M pts) h prec with
  | .ok n =>
    match F.cellsOf (nlo M pts) h n pts with
    | some cs => .ok cs
    | none => .undefined
  | .rejected => .rejected
  | .undefined => .undefined

end ArborX.Fp

end
