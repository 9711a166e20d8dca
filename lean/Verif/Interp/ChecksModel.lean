import Verif.Interp.Mls

/-!
# Model: the checks of the moving least squares kernel

Builds without `NDEBUG` compare numbers of zeros in `operator()` of
`src/interpolation/detail/ArborX_InterpDetailsMovingLeastSquaresCoefficients.hpp` and abort the program if they differ.  Exact arithmetic, as in `Interp.Mls`.
-/

namespace ArborX.Interp

open ArborX.Geometry

variable {n k dim : ℕ}

open Classical in
/-- `n_zero_values` (MovingLeastSquaresCoefficients.hpp 128-131). -/
noncomputable def zeroValues (tol : ℝ) (D : Fin n → ℝ) : ℕ := ((List.finRange n).filter fun i => decide (|D i| < tol)).length

open Classical in
/-- `n_zero_values_in_echelon_form` (MovingLeastSquaresCoefficients.hpp 152-161). -/
noncomputable def zeroRows (tol : ℝ) (ech : Mat n) : ℕ := ((List.finRange n).filter fun i => decide (rowMax ech i < tol)).length

open Classical in
/-- The checks of `operator()` (MovingLeastSquaresCoefficients.hpp 132, 162, 185-189) for the given weights and Vandermonde matrix: whether all hold.  The last one reads the diagonal
of the orthogonal matrix, as the code does. -/
noncomputable def checks (eps : ℝ) (fuel : ℕ) (phi : Fin k → ℝ) (P : Fin k → Fin n → ℝ) : Option Bool :=
  (symmetricSVD eps fuel (momentMatrix phi P)).bind fun s =>
    if ∃ i, |s.1 i| ≤ tolerance eps s.1 then
      (rowEchelon (tolerance eps s.1) n 0 (matrixFromSVD s.1 s.2) id).bind fun e =>
        (symmetricSVD eps fuel (dropZero (tolerance eps s.1) e.1 e.2 (List.finRange n) (matrixFromSVD s.1 s.2, P)).1).map fun s' =>
          decide (0 < zeroValues (tolerance eps s.1) s.1 ∧ zeroRows (tolerance eps s.1) e.1 = zeroValues (tolerance eps s.1) s.1 ∧ ∀ i, tolerance eps s.1 ≤ |s'.2 i i|)
    else some true

/-- The checks for one target (MovingLeastSquaresCoefficients.hpp 71-199). -/
noncomputable def mlsChecks (eps : ℝ) (fuel : ℕ) (F : CRBF) (deg : ℕ) (t : Pt ℝ dim) (src : Fin k → Pt ℝ dim) : Option Bool :=
  (vandermonde deg (normalize eps t src)).bind fun P => checks eps fuel (weights F (normalize eps t src)) P

end ArborX.Interp
