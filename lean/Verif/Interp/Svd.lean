import Mathlib.Analysis.Real.Sqrt
import Mathlib.Data.Matrix.Mul
import Mathlib.Data.List.FinRange

/-!
# Symmetric singular value decomposition

Models `src/misc/ArborX_SymmetricSVD.hpp` over ℝ: the arithmetic is exact, but the tolerance
`epsilon` with which the code stops is kept.  A matrix of the code (a rank two view of extent
`n` by `n`) is a function of two indices below `n`.
-/

namespace ArborX.Interp

/-- A matrix of the code. -/
abbrev Mat (n : ℕ) := Matrix (Fin n) (Fin n) ℝ

variable {n : ℕ}

/-- `A(i, j) = v`. -/
def Mat.set (A : Mat n) (i j : Fin n) (v : ℝ) : Mat n :=
  fun i' j' => if i' = i ∧ j' = j then v else A i' j'

/-- `symmetricMatrixFromSVD` (SymmetricSVD.hpp 51-65): the loops compute the entry for
`i ≤ j` and store it at both places. -/
noncomputable def matrixFromSVD (D : Fin n → ℝ) (U : Mat n) : Mat n := fun i j =>
  ((List.finRange n).map fun k => U (min i j) k * D k * U (max i j) k).sum

/-- One step of the loops of `argmaxUpperTriangle` (SymmetricSVD.hpp 82-93).  The state is
`max` and `row`, `col`; `none` stands for their initial value, which the caller does not use
because then `max = 0 ≤ epsilon`. -/
noncomputable def argmaxStep (A : Mat n) (s : ℝ × Option (Fin n × Fin n)) (ij : Fin n × Fin n) :
    ℝ × Option (Fin n × Fin n) :=
  if s.1 < |A ij.1 ij.2| then (|A ij.1 ij.2|, some ij) else s

/-- The positions above the diagonal in the order of the loops (SymmetricSVD.hpp 82-83). -/
def upperTriangle (n : ℕ) : List (Fin n × Fin n) :=
  (List.finRange n).flatMap fun i =>
    ((List.finRange n).filter fun j => decide (i < j)).map fun j => (i, j)

/-- `argmaxUpperTriangle` (SymmetricSVD.hpp 68-96). -/
noncomputable def argmaxUpper (A : Mat n) : ℝ × Option (Fin n × Fin n) :=
  (upperTriangle n).foldl (argmaxStep A) (0, none)

/-- `Kokkos::copysign(v, tau)` for `tau = (c - a) / (2 * b)`: if `tau` is a zero then it is
`+0 / (2 * b)`, so its sign is the one of `b`. -/
noncomputable def copysignTau (v tau b : ℝ) : ℝ :=
  if tau < 0 ∨ tau = 0 ∧ b < 0 then -|v| else |v|

/-- `tan_theta` of `jacobiRotationCoefficients` (SymmetricSVD.hpp 115-117). -/
noncomputable def tanTheta (a b c : ℝ) : ℝ :=
  let tau := (c - a) / (2 * b)
  copysignTau (1 / (|tau| + Real.sqrt (1 + tau * tau))) tau b

/-- `cos_theta` (SymmetricSVD.hpp 120). -/
noncomputable def cosTheta (a b c : ℝ) : ℝ := 1 / Real.sqrt (1 + tanTheta a b c * tanTheta a b c)

/-- `sin_theta` (SymmetricSVD.hpp 121). -/
noncomputable def sinTheta (a b c : ℝ) : ℝ := -tanTheta a b c * cosTheta a b c

/-- The body of the loop over `i` that rotates `A` (SymmetricSVD.hpp 185-204).  Only the upper
triangle of `A` is used, hence the exchanges of the indices. -/
noncomputable def rotateStep (p q : Fin n) (c s : ℝ) (A : Mat n) (i : Fin n) : Mat n :=
  if i = p ∨ i = q then A
  else
    let ip := if i > p then p else i
    let pi := if i > p then i else p
    let iq := if i > q then q else i
    let qi := if i > q then i else q
    let a_ip := A ip pi
    let a_iq := A iq qi
    (A.set ip pi (c * a_ip + s * a_iq)).set iq qi (-s * a_ip + c * a_iq)

/-- One iteration of the loop of `symmetricSVDKernel` for `A` (SymmetricSVD.hpp 174-204). -/
noncomputable def rotateA (p q : Fin n) (A : Mat n) : Mat n :=
  let a := A p p
  let b := A p q
  let c := A q q
  let x := a - tanTheta a b c * b
  let y := c + tanTheta a b c * b
  (List.finRange n).foldl (rotateStep p q (cosTheta a b c) (sinTheta a b c))
    (((A.set p p x).set q q y).set p q 0)

/-- The body of the loop over `i` that updates `U` (SymmetricSVD.hpp 207-213). -/
noncomputable def rotateU (p q : Fin n) (c s : ℝ) (U : Mat n) : Mat n :=
  (List.finRange n).foldl (fun U i =>
    (U.set i p (c * U i p + s * U i q)).set i q (-s * U i p + c * U i q)) U

/-- The loop of `symmetricSVDKernel` (SymmetricSVD.hpp 167-214).  `none` if it does not end
within `fuel` iterations. -/
noncomputable def svdLoop (epsilon : ℝ) : ℕ → Mat n → Mat n → Option (Mat n × Mat n)
  | 0, _, _ => none
  | fuel + 1, A, U =>
    if (argmaxUpper A).1 ≤ epsilon then some (A, U)
    else match (argmaxUpper A).2 with
      | none => none
      | some (p, q) => svdLoop epsilon fuel (rotateA p q A)
          (rotateU p q (cosTheta (A p p) (A p q) (A q q)) (sinTheta (A p p) (A p q) (A q q)) U)

/-- `symmetricSVDKernel` (SymmetricSVD.hpp 136-219): `D` and `U`. -/
noncomputable def symmetricSVD (epsilon : ℝ) (fuel : ℕ) (A : Mat n) :
    Option ((Fin n → ℝ) × Mat n) :=
  (svdLoop epsilon fuel A (fun i j => if i = j then 1 else 0)).map
    fun s => (fun i => s.1 i i, s.2)

/-- The largest absolute value of `D` (SymmetricSVD.hpp 239-241). -/
noncomputable def maxEigen (D : Fin n → ℝ) : ℝ :=
  (List.finRange n).foldl (fun m i => max |D i| m) 0

/-- `symmetricPseudoInverseSVDKernel` (SymmetricSVD.hpp 230-253). -/
noncomputable def pseudoInverse (epsilon : ℝ) (D : Fin n → ℝ) (U : Mat n) : Mat n :=
  let tolerance := n * maxEigen D * epsilon
  matrixFromSVD (fun i => if |D i| ≤ tolerance then 0 else 1 / D i) U

end ArborX.Interp
