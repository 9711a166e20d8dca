import Verif.Interp.BasisLemmas
import Verif.Interp.Crbf
import Verif.Interp.Svd
import Verif.Geometry.Distance

/-!
# Moving least squares: the coefficients and the interpolation

Models `src/interpolation/detail/ArborX_InterpDetailsMovingLeastSquaresCoefficients.hpp` and
`src/interpolation/ArborX_InterpMovingLeastSquares.hpp` over ℝ (exact arithmetic, but with the
tolerance `eps`).  Sums are written as sums, the code accumulates them in a loop.  The checks
that only debug builds make are left out, except the one on the number of source points; those
of the kernel are in `ChecksModel.lean`.
-/

namespace ArborX.Interp

open ArborX.Geometry

variable {n k dim : ℕ}

/-! ### Normalisation, weights and matrices -/

/-- `radius` of `sourceNormalization` (MovingLeastSquaresCoefficients.hpp 235-243). -/
noncomputable def radius (eps : ℝ) (t : Pt ℝ dim) (src : Fin k → Pt ℝ dim) : ℝ :=
  (List.finRange k).foldl (fun r j => max r (distancePoint (src j) t)) eps * (11 / 10)

/-- `sourceNormalization` (MovingLeastSquaresCoefficients.hpp 231-249). -/
noncomputable def normalize (eps : ℝ) (t : Pt ℝ dim) (src : Fin k → Pt ℝ dim) :
    Fin k → Pt ℝ dim :=
  fun j d => (src j d - t d) / radius eps t src

/-- `phiComputation` (MovingLeastSquaresCoefficients.hpp 252-257) with `CRBF::evaluate`
(CompactRadialBasisFunction.hpp 98-104). -/
noncomputable def weights (F : CRBF) (y : Fin k → Pt ℝ dim) : Fin k → ℝ :=
  fun j => F.evaluate (distancePoint (y j) (fun _ => 0))

/-- The coordinates of a point as they are accessed by `evaluatePolynomialBasis`. -/
def coord (x : Pt ℝ dim) : ℕ → ℝ := fun d => if h : d < dim then x ⟨d, h⟩ else 0

/-- A row of `vandermondeComputation` (MovingLeastSquaresCoefficients.hpp 264-269). -/
noncomputable def vandermondeRow (deg : ℕ) (x : Pt ℝ dim) : Option (Fin (basisSize dim deg) → ℝ) :=
  (evaluateBasis dim deg (coord x)).map fun l i => l.getD i 0

/-- `vandermondeComputation` (MovingLeastSquaresCoefficients.hpp 260-270). -/
noncomputable def vandermonde (deg : ℕ) (y : Fin k → Pt ℝ dim) :
    Option (Fin k → Fin (basisSize dim deg) → ℝ) :=
  if h : ∀ j, (vandermondeRow deg (y j)).isSome then
    some fun j => (vandermondeRow deg (y j)).get (h j)
  else none

/-- `momentComputation` (MovingLeastSquaresCoefficients.hpp 273-285). -/
noncomputable def momentMatrix (phi : Fin k → ℝ) (P : Fin k → Fin n → ℝ) : Mat n :=
  fun i j => ((List.finRange k).map fun nb => P nb i * P nb j * phi nb).sum

/-! ### Singular moment matrices -/

/-- `tolerance` of `isSingularMatrix` (MovingLeastSquaresCoefficients.hpp 290-295). -/
noncomputable def tolerance (eps : ℝ) (D : Fin n → ℝ) : ℝ := n * maxEigen D * eps

section Echelon

variable {K : Type} [Field K] [LinearOrder K]

/-- The search of the pivot in `rowEchelonForm` (MovingLeastSquaresCoefficients.hpp 313-320):
`i_max` is 0 unless there is a larger entry from row `row` on. -/
def findPivot (M : Matrix (Fin n) (Fin n) K) (row : ℕ) (col zero : Fin n) : Fin n :=
  (((List.finRange n).filter fun i : Fin n => decide (row ≤ (i : ℕ))).foldl
    (fun s i => if |M i col| > s.2 then (i, |M i col|) else s) ((zero, 0) : Fin n × K)).1

/-- The exchange of two rows (MovingLeastSquaresCoefficients.hpp 329-330). -/
def swapRows (M : Matrix (Fin n) (Fin n) K) (r i : Fin n) : Matrix (Fin n) (Fin n) K := fun a b =>
  if a = r then M i b else if a = i then M r b else M a b

/-- The exchange in `permutation` (MovingLeastSquaresCoefficients.hpp 331). -/
def swapPerm (perm : Fin n → Fin n) (i r : Fin n) : Fin n → Fin n := fun a =>
  if a = r then perm i else if a = i then perm r else perm a

/-- The elimination below the pivot (MovingLeastSquaresCoefficients.hpp 333-342). -/
def eliminateBelow (M : Matrix (Fin n) (Fin n) K) (r c : Fin n) : Matrix (Fin n) (Fin n) K :=
  fun i j =>
    if r < i then
      if j = c then 0 else if c < j then M i j - M r j * (M i c / M r c) else M i j
    else M i j

/-- `rowEchelonForm` (MovingLeastSquaresCoefficients.hpp 302-347) from the state `pivot_row`,
`pivot_col`, `matrix`, `permutation`, where `todo` columns are left: `pivot_col` is `n - todo`.
`none` if it divides by a pivot that is zero. -/
def rowEchelon (tol : K) : (todo row : ℕ) → (M : Matrix (Fin n) (Fin n) K) →
    (perm : Fin n → Fin n) → Option (Matrix (Fin n) (Fin n) K × (Fin n → Fin n))
  | 0, _, M, perm => some (M, perm)
  | todo + 1, row, M, perm =>
    if h : row < n ∧ n - (todo + 1) < n then
      let r : Fin n := ⟨row, h.1⟩
      let c : Fin n := ⟨n - (todo + 1), h.2⟩
      let i := findPivot M row c ⟨0, by omega⟩
      if |M i c| < tol then rowEchelon tol todo row M perm
      else if M i c = 0 then none
      else rowEchelon tol todo (row + 1) (eliminateBelow (swapRows M r i) r c)
        (swapPerm perm i r)
    else some (M, perm)

/-- The largest entry of row `i` from the diagonal on (MovingLeastSquaresCoefficients.hpp
166-169). -/
def rowMax (M : Matrix (Fin n) (Fin n) K) (i : Fin n) : K :=
  ((List.finRange n).filter fun j : Fin n => decide (i ≤ j)).foldl
    (fun m j => if |M i j| > m then |M i j| else m) 0

/-- One index taken out of the moment matrix (MovingLeastSquaresCoefficients.hpp 176-180). -/
def dropMoment (M : Matrix (Fin n) (Fin n) K) (r : Fin n) : Matrix (Fin n) (Fin n) K := fun i j =>
  if i = r ∧ j = r then 1 else if i = r ∨ j = r then 0 else M i j

/-- One column taken out of the Vandermonde matrix (MovingLeastSquaresCoefficients.hpp
178-179). -/
def dropColumn (P : Fin k → Fin n → K) (r : Fin n) : Fin k → Fin n → K := fun nb i =>
  if i = r then 0 else P nb i

/-- The loop that takes out the indices of the zero rows of the echelon form
(MovingLeastSquaresCoefficients.hpp 164-182), for the rows of the list `l`. -/
def dropZero (tol : K) (ech : Matrix (Fin n) (Fin n) K) (perm : Fin n → Fin n) :
    List (Fin n) → Matrix (Fin n) (Fin n) K × (Fin k → Fin n → K) →
      Matrix (Fin n) (Fin n) K × (Fin k → Fin n → K)
  | [], s => s
  | i :: l, s =>
      if rowMax ech i < tol then
        dropZero tol ech perm l (dropMoment s.1 (perm i), dropColumn s.2 (perm i))
      else dropZero tol ech perm l s

end Echelon

/-! ### The coefficients -/

/-- `coefficientsComputation` (MovingLeastSquaresCoefficients.hpp 350-360). -/
noncomputable def coefficients (phi : Fin k → ℝ) (P : Fin k → Fin n → ℝ) (B : Mat n)
    (zero : Fin n) : Fin k → ℝ :=
  fun nb => ((List.finRange n).map fun i => B zero i * P nb i * phi nb).sum

/-- The operator of the kernel from the moment matrix on (MovingLeastSquaresCoefficients.hpp
113-198), for the given weights and Vandermonde matrix. -/
noncomputable def solve (eps : ℝ) (fuel : ℕ) (phi : Fin k → ℝ) (P : Fin k → Fin n → ℝ)
    (zero : Fin n) : Option (Fin k → ℝ) :=
  (symmetricSVD eps fuel (momentMatrix phi P)).bind fun s =>
    open Classical in
    if ∃ i, |s.1 i| ≤ tolerance eps s.1 then
      (rowEchelon (tolerance eps s.1) n 0 (matrixFromSVD s.1 s.2) id).bind fun e =>
        let mp := dropZero (tolerance eps s.1) e.1 e.2 (List.finRange n)
          (matrixFromSVD s.1 s.2, P)
        (symmetricSVD eps fuel mp.1).map fun s' =>
          coefficients phi mp.2 (pseudoInverse eps s'.1 s'.2) zero
    else some (coefficients phi P (pseudoInverse eps s.1 s.2) zero)

theorem basisSize_pos (dim deg : ℕ) : 0 < basisSize dim deg := by
  rw [basisSize_eq]; exact Nat.choose_pos (by omega)

/-- The operator of the kernel for one target (MovingLeastSquaresCoefficients.hpp 71-199). -/
noncomputable def mlsCoefficients (eps : ℝ) (fuel : ℕ) (F : CRBF) (deg : ℕ) (t : Pt ℝ dim)
    (src : Fin k → Pt ℝ dim) : Option (Fin k → ℝ) :=
  (vandermonde deg (normalize eps t src)).bind fun P =>
    solve eps fuel (weights F (normalize eps t src)) P ⟨0, basisSize_pos dim deg⟩

end ArborX.Interp
