import Verif.Fp.Cloud
import Verif.DenseBox.Grid
import Verif.DenseBox.Model

/-!
# FDBSCAN-DenseBox in floating-point arithmetic: model

The grid of `Verif/DenseBox/Grid.lean` with every operation rounded. The integer parts of the grid (sizes, overflow check, mixed radix) are those of the
exact grid, applied to the quotients the code rounds down or up.
-/

namespace ArborX.Fp

open Geometry BVH Euclid

variable {D : ℕ}

/-- `(x - y) / h` (`src/cluster/detail/ArborX_CartesianGrid.hpp` 59 and 100-103): both operations are rounded; infinite if one of them overflows. -/
noncomputable def Format.quot (F : Format) (x y h : ℝ) : EReal :=
  if F.rnd (x - y) = ⊤ ∨ F.rnd (x - y) = ⊥ then ⊤ else F.rnd ((F.rnd (x - y)).toReal / h)

/-- The quotients of a point along the dimensions. -/
noncomputable def Format.quots (F : Format) (lo : Pt ℝ D) (h : ℝ) (p : Pt ℝ D) : Pt ℝ D := fun a => (F.quot (p a) (lo a) h).toReal

/-- `eps / sqrt((Coordinate)DIM)` (`src/cluster/ArborX_DBSCAN.hpp` 341). -/
noncomputable def Format.cellLength (F : Format) (D : ℕ) (eps : ℝ) : EReal := F.rnd (eps / (F.rnd (Real.sqrt D)).toReal)

/-- `_bounds.minCorner()` and `_h` (139-140); `unit` has the sizes `_n` (141) and the cells of length 1 that the quotients are rounded to. -/
structure FGrid (D : ℕ) where
  lo : Pt ℝ D
  h : ℝ
  unit : DenseBox.Grid ℝ D

/-- The constructor (30-37) and `buildGrid` (92-137), `prec` being `5 * epsilon`. `none`: an assertion fails or an exception is thrown, or the number of
cells does not fit `size_t`. The sizes are `ceil((max - min) / h)`; for them and for the check of their product see `DenseBox.Grid.build`. -/
noncomputable def FGrid.build (F : Format) (B : Box ℝ D) (h prec : ℝ) : Option (FGrid D) :=
  if ¬ 0 < h then none
  else if ∃ a, F.quot (B.hi a) (B.lo a) h = ⊤ then none
  else if ∃ a, F.rnd (B.hi a - B.lo a) ≠ 0 ∧ F.quot (B.hi a) (B.lo a) h = 0 then none
  else if ∃ a, B.lo a ≠ 0 ∧ F.rnd |h / B.lo a| < prec then none
  else (DenseBox.Grid.build 0 (F.quots B.lo h B.hi) 1 0).map fun u => ⟨B.lo, h, u⟩

/-- `cellIndex` (49-63); `none` if a quotient is infinite or does not fit `int` (undefined behaviour). -/
noncomputable def FGrid.cellIndex (F : Format) (g : FGrid D) (p : Pt ℝ D) : Option ℕ :=
  if ∃ a, F.quot (p a) (g.lo a) g.h = ⊤ then none else g.unit.cellIndex (F.quots g.lo g.h p)

/-- `min[d] + x * _h[d]` (78-79) with `x` converted to the floating-point type, the sum contracted or not. -/
noncomputable def FGrid.corner (F : Format) (g : FGrid D) (a : Fin D) (x : ℝ) : EReal :=
  let m := (F.rnd x).toReal * g.h
  if F.rnd x = ⊤ then ⊤
  else if F.fma then F.rnd (g.lo a + m)
  else if F.rnd m = ⊤ then ⊤
  else F.rnd (g.lo a + (F.rnd m).toReal)

/-- `cellBox` (65-82): the coordinates of the cell are those of the box of the exact unit cell. Used for cells whose corners do not overflow. -/
noncomputable def FGrid.cellBox (F : Format) (g : FGrid D) (c : ℕ) : Box ℝ D :=
  ⟨fun a => (g.corner F a ((g.unit.cellBox c).1 a)).toReal, fun a => (g.corner F a ((g.unit.cellBox c).2 a)).toReal⟩

/-- `calculateBoundingBoxOfTheScene` (`src/spatial/detail/ArborX_TreeConstruction.hpp` 26-39): minima and maxima are exact, and the order of the
reduction does not matter. -/
noncomputable def boundsOf (M : ℝ) (pts : List (Pt ℝ D)) : Box ℝ D := pts.foldl Box.expandPoint (Box.empty M)

/-- The grid of `dbscan` (`src/cluster/ArborX_DBSCAN.hpp` 332-342); `none` also if the cell length overflows. -/
noncomputable def Cloud.grid (A : Cloud D) (F : Format) (eps prec : ℝ) : Option (FGrid D) :=
  if F.cellLength D eps = ⊤ then none else FGrid.build F (boundsOf A.M A.pts) (F.cellLength D eps).toReal prec

/-- The parts of the input that are not geometry: see `DenseBox.DIn`. -/
structure DenseRest (D : ℕ) where
  σ : ℕ → ℕ
  code : ℕ → (ℕ → Bound D) → ℕ → BitVec 64
  tperm : ℕ → (ℕ → Bound D) → ℕ → ℕ
  minPts : ℕ
  star : Bool
  serial : Bool
  chunks1 : ℕ → List (List ℕ)
  chunks2 : List (List ℕ)

/-- `dbscan` with `Implementation::FDBSCAN_DenseBox` (`src/cluster/ArborX_DBSCAN.hpp` 328-522) on points in floating-point arithmetic, with the grid `g`. The test
on the leaf of a dense cell is that on its box, which is also its bounding volume. -/
noncomputable def Cloud.dense (A : Cloud D) (F : Format) (eps : ℝ) (g : FGrid D) (R : DenseRest D) : DenseBox.DIn (Bound D) 64 where
  n := A.pts.length
  near i j := decide (F.intersects (.sphere ⟨A.pt i, eps⟩) (.point (A.pt j)) = some true)
  pv i := nodeTest F (.sphere ⟨A.pt i, eps⟩)
  pvol i := leafBound A.M (.point (A.pt i))
  cell i := (g.cellIndex F (A.pt i)).getD 0
  box c := leafBound A.M (.box (g.cellBox F c))
  nearBox i c := nodeTest F (.sphere ⟨A.pt i, eps⟩) (leafBound A.M (.box (g.cellBox F c)))
  σ := R.σ
  code := R.code
  tperm := R.tperm
  minPts := R.minPts
  star := R.star
  serial := R.serial
  chunks1 := R.chunks1
  chunks2 := R.chunks2

/-- Preconditions on the rest, see `DIn.Valid`. -/
structure DenseRest.Valid (R : DenseRest D) (n : ℕ) (cell : ℕ → ℕ) : Prop where
  sort : Perm.IsSort n cell R.σ
  tree : ∀ m ≤ n, ∀ f : ℕ → Bound D, (⟨m, id, f, R.code m f, R.tperm m f⟩ : Input ℕ (Bound D) 64).Valid
  minPts : 2 ≤ R.minPts
  chunks1 : ∀ m, (R.chunks1 m).flatten.Perm (List.range' 1 (m - 1))
  chunks2 : R.chunks2.flatten.Perm (List.range n)
  serial1 : ∀ m, R.serial = true → (R.chunks1 m).length ≤ 1
  serial2 : R.serial = true → R.chunks2.length ≤ 1

end ArborX.Fp
