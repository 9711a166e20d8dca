import Mathlib.Data.Nat.Choose.Basic
import Mathlib.Algebra.Field.Basic
import Mathlib.Logic.Function.Basic

/-!
# Moving least squares: the polynomial basis

Models `src/interpolation/detail/ArborX_InterpDetailsPolynomialBasis.hpp`.
`DIM` and `Degree` are template arguments in the code and natural numbers here.
The arrays of the code are functions on ℕ together with a size, an access that is not
below the size gives `none`.
-/

namespace ArborX.Interp

/-- `polynomialBasisSliceLengths`, entry `arr[deg][dim]` (PolynomialBasis.hpp 63-87).  The
loops of the code fill the table row by row, here each entry is given by recursion. -/
def sliceLen : ℕ → ℕ → ℕ
  | 0, _ => 1
  | _ + 1, 0 => 1
  | deg + 1, dim + 1 => sliceLen deg (dim + 1) + sliceLen (deg + 1) dim

/-- The loop of `polynomialBasisSize` (PolynomialBasis.hpp 97-103), after `k` iterations. -/
def basisSizeLoop (DIM deg : ℕ) : ℕ → ℕ
  | 0 => 1
  | k + 1 => basisSizeLoop DIM deg k * (DIM + deg - k) / (k + 1)

/-- `polynomialBasisSize<DIM, Degree>` (PolynomialBasis.hpp 91-105). -/
def basisSize (DIM deg : ℕ) : ℕ := basisSizeLoop DIM deg (min DIM deg)

variable {K : Type*} [Mul K] [One K] [Zero K]

/-- The innermost loop of `evaluatePolynomialBasis` (PolynomialBasis.hpp 135-136), after
`n` iterations: `arr[loc_offset + i] = arr[prev_col + i] * p[dim]`. -/
def fillSlice (size : ℕ) (x : K) (src dst : ℕ) : ℕ → (ℕ → K) → Option (ℕ → K)
  | 0, a => some a
  | n + 1, a => (fillSlice size x src dst n a).bind fun a =>
      if dst + n < size ∧ src + n < size then
        some (Function.update a (dst + n) (a (src + n) * x))
      else none

/-- The loop over the dimensions (PolynomialBasis.hpp 132-139), after `n` iterations.  The
state is the array and `loc_offset`. -/
def fillDims (size : ℕ) (p : ℕ → K) (deg src : ℕ) :
    ℕ → (ℕ → K) × ℕ → Option ((ℕ → K) × ℕ)
  | 0, s => some s
  | d + 1, s => (fillDims size p deg src d s).bind fun s =>
      (fillSlice size (p d) src s.2 (sliceLen deg d) s.1).map fun a =>
        (a, s.2 + sliceLen deg d)

/-- The loop over the degrees (PolynomialBasis.hpp 126-143), after `n` iterations.  The
state is the array, `prev_col` and `curr_col`. -/
def fillDegs (size DIM : ℕ) (p : ℕ → K) : ℕ → (ℕ → K) × ℕ × ℕ → Option ((ℕ → K) × ℕ × ℕ)
  | 0, s => some s
  | g + 1, s => (fillDegs size DIM p g s).bind fun s =>
      (fillDims size p g s.2.1 DIM (s.1, s.2.2)).map fun t => (t.1, s.2.2, t.2)

/-- `evaluatePolynomialBasis<Degree>(p)` (PolynomialBasis.hpp 109-147): the values of the
array that is returned. -/
def evaluateBasis (DIM deg : ℕ) (p : ℕ → K) : Option (List K) :=
  (fillDegs (basisSize DIM deg) DIM p deg (Function.update (fun _ => 0) 0 1, 0, 1)).map
    fun s => (List.range (basisSize DIM deg)).map s.1

end ArborX.Interp
