import Verif.Interp.Mls

/-!
# A defect of the row echelon form (C51)

`rowEchelonForm` starts the search of the pivot with `i_max = 0` and not with `pivot_row`
(MovingLeastSquaresCoefficients.hpp 313).  If all the entries of the column from the pivot row on
are zero, then the entry of row 0, which has been dealt with, is compared with the tolerance and
row 0 is exchanged with the pivot row.  A row that is zero in this column, but not in the next
ones, ends at position 0 and is kept, and so is every other row.
-/

namespace ArborX.Interp

/-- The values of `1, x, y, z` at the four sources (1, 2, 1), (2, 3, 4), (3, 4, 5), (2, 3, 2)
divided by ten: they are in the plane `y = x + 1/10`. -/
def planeValues : Fin 4 → Fin 4 → ℚ
  | 0 => ![1, 1 / 10, 2 / 10, 1 / 10]
  | 1 => ![1, 2 / 10, 3 / 10, 4 / 10]
  | 2 => ![1, 3 / 10, 4 / 10, 5 / 10]
  | 3 => ![1, 2 / 10, 3 / 10, 2 / 10]

/-- The moment matrix of these sources with weights one. -/
def planeMoment : Matrix (Fin 4) (Fin 4) ℚ := fun i j =>
  ((List.finRange 4).map fun nb => planeValues nb i * planeValues nb j).sum

/-- The basis functions `1`, `x` and `y` are dependent on the sources: `y = 1/10 + x`. -/
theorem plane_dependent (nb : Fin 4) :
    planeValues nb 2 = 1 / 10 * planeValues nb 0 + planeValues nb 1 := by
  revert nb; decide +kernel

/-- **C51 is false as stated**: after the elimination no row of the moment matrix of these sources
is taken for zero, so all four monomials are kept although they are dependent on the sources. -/
theorem rowEchelon_defect :
    ((rowEchelon (1 / 10 ^ 9) 4 0 planeMoment id).map fun e =>
      (List.finRange 4).filter fun i => decide (rowMax e.1 i < 1 / 10 ^ 9)) = some [] ∧
    ∃ a : Fin 4 → ℚ, a ≠ 0 ∧ ∀ nb, ∑ i, planeValues nb i * a i = 0 := by
  refine ⟨by decide +kernel, ![1 / 10, 1, -1, 0], fun h => ?_, ?_⟩
  · have := congrFun h 1
    simp at this
  · decide +kernel

end ArborX.Interp
