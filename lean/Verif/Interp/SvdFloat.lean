import Verif.Fp.NanModel
import Verif.Interp.Svd

/-!
# Model: symmetric singular value decomposition in floating-point arithmetic

As `Interp/Svd.lean`, but the entries are any floating-point numbers, infinities and NaN included, and every operation is rounded. Sums of a product may or may not be
contracted to fused multiply-adds.
-/

namespace ArborX.Fp

open Nearest

/-! ## Operations of IEEE 754 -/

/-- Rounding of an exact result; infinities are exact. -/
noncomputable def Format.round (F : Format) (x : EReal) : EReal := if x = ⊤ ∨ x = ⊥ then x else F.rnd x.toReal

/-- Exact sum; the sum of opposite infinities is NaN. -/
noncomputable def exAdd : Num → Num → Num
  | some x, some y => if (x = ⊤ ∧ y = ⊥) ∨ (x = ⊥ ∧ y = ⊤) then none else some (x + y)
  | _, _ => none

/-- Exact product; the product of a zero and an infinity is NaN. -/
noncomputable def exMul : Num → Num → Num
  | some x, some y => if (x = 0 ∧ (y = ⊤ ∨ y = ⊥)) ∨ ((x = ⊤ ∨ x = ⊥) ∧ y = 0) then none else some (x * y)
  | _, _ => none

/-- Exact quotient; the quotient of two zeros or two infinities is NaN. The signs of zeros are not modelled: a quotient by zero is taken to be positive infinity (no
divisor is zero in the code below). -/
noncomputable def exDiv : Num → Num → Num
  | some x, some y =>
    if y = 0 then (if x = 0 then none else some ⊤)
    else if (x = ⊤ ∨ x = ⊥) ∧ (y = ⊤ ∨ y = ⊥) then none
    else some (x / y)
  | _, _ => none

/-- `x + y`. -/
noncomputable def Format.nadd (F : Format) (x y : Num) : Num := (exAdd x y).map F.round

/-- `x * y`. -/
noncomputable def Format.nmul (F : Format) (x y : Num) : Num := (exMul x y).map F.round

/-- `x / y`. -/
noncomputable def Format.ndiv (F : Format) (x y : Num) : Num := (exDiv x y).map F.round

/-- `z + x * y`, with one or two roundings. -/
noncomputable def Format.nmac (F : Format) (z x y : Num) : Num :=
  if F.fma then (exAdd z (exMul x y)).map F.round else F.nadd z (F.nmul x y)

/-- `Kokkos::sqrt`. -/
noncomputable def Format.nsqrt (F : Format) : Num → Num
  | some x => if x < 0 then none else some (F.sqrt x)
  | none => none

/-- `Kokkos::rsqrt`, which is `1 / sqrt(x)` on the host. -/
noncomputable def Format.nrsqrt (F : Format) (x : Num) : Num := F.ndiv (some 1) (F.nsqrt x)

/-- `-x`. -/
noncomputable def nneg (x : Num) : Num := x.map fun x => -x

/-- `Kokkos::abs`. -/
noncomputable def nabs (x : Num) : Num := x.map fun x => max x (-x)

/-- `Kokkos::copysign(v, tau)`; `bit` is the sign bit of `tau`, which only matters for zeros and NaN. -/
noncomputable def ncopysign (bit : Bool) (v tau : Num) : Num :=
  let negative := match tau with
    | some t => decide (t < 0) || (decide (t = 0) && bit)
    | none => bit
  if negative then nneg (nabs v) else nabs v

/-! ## The code -/

/-- A matrix of the code. -/
abbrev NMat (n : ℕ) := Fin n → Fin n → Num

variable {n : ℕ}

/-- `A(i, j) = v`. -/
def NMat.set (A : NMat n) (i j : Fin n) (v : Num) : NMat n := fun i' j' => if i' = i ∧ j' = j then v else A i' j'

/-- One step of the loops of `argmaxUpperTriangle` (`src/misc/ArborX_SymmetricSVD.hpp` 82-93), as `Interp.argmaxStep`. A comparison with NaN is false. -/
noncomputable def nargmaxStep (A : NMat n) (s : Num × Option (Fin n × Fin n)) (ij : Fin n × Fin n) : Num × Option (Fin n × Fin n) :=
  if nanLt s.1 (nabs (A ij.1 ij.2)) then (nabs (A ij.1 ij.2), some ij) else s

/-- `argmaxUpperTriangle` (lines 68-96). -/
noncomputable def nargmax (A : NMat n) : Num × Option (Fin n × Fin n) := (Interp.upperTriangle n).foldl (nargmaxStep A) (some 0, none)

/-- `tau` of `jacobiRotationCoefficients` (line 115). -/
noncomputable def Format.tau (F : Format) (a b c : Num) : Num := F.ndiv (F.nsub c a) (F.nmul (some 2) b)

/-- `tan_theta` (lines 116-117); `bit` gives the sign bit of `tau` if that is a zero or NaN. -/
noncomputable def Format.tan (F : Format) (bit : Num → Num → Num → Bool) (a b c : Num) : Num :=
  ncopysign (bit a b c) (F.ndiv (some 1) (F.nadd (nabs (F.tau a b c)) (F.nsqrt (F.nmac (some 1) (F.tau a b c) (F.tau a b c))))) (F.tau a b c)

/-- `cos_theta` (line 120). -/
noncomputable def Format.cos (F : Format) (t : Num) : Num := F.nrsqrt (F.nmac (some 1) t t)

/-- `sin_theta` (line 121). -/
noncomputable def Format.sin (F : Format) (t : Num) : Num := F.nmul (nneg t) (F.cos t)

/-- `c * x + s * y`; if the compiler contracts it then the second product is not rounded. -/
noncomputable def Format.ndot (F : Format) (c x s y : Num) : Num := F.nmac (F.nmul c x) s y

/-- The body of the loop over `i` that rotates `A` (lines 185-204), as `Interp.rotateStep`. -/
noncomputable def Format.rotateStep (F : Format) (p q : Fin n) (c s : Num) (A : NMat n) (i : Fin n) : NMat n :=
  if i = p ∨ i = q then A
  else
    let ip := if i > p then p else i
    let pi := if i > p then i else p
    let iq := if i > q then q else i
    let qi := if i > q then i else q
    let a_ip := A ip pi
    let a_iq := A iq qi
    (A.set ip pi (F.ndot c a_ip s a_iq)).set iq qi (F.ndot (nneg s) a_ip c a_iq)

/-- One iteration of the loop of `symmetricSVDKernel` for `A` (lines 174-204); `x = a - tan_theta * b` and `y = c + tan_theta * b` are lines 123-124. -/
noncomputable def Format.rotateA (F : Format) (bit : Num → Num → Num → Bool) (p q : Fin n) (A : NMat n) : NMat n :=
  let a := A p p
  let b := A p q
  let c := A q q
  let t := F.tan bit a b c
  (List.finRange n).foldl (F.rotateStep p q (F.cos t) (F.sin t))
    (((A.set p p (F.nmac a (nneg t) b)).set q q (F.nmac c t b)).set p q (some 0))

/-- The loop over `i` that updates `U` (lines 207-213). -/
noncomputable def Format.rotateU (F : Format) (p q : Fin n) (c s : Num) (U : NMat n) : NMat n :=
  (List.finRange n).foldl (fun U i => (U.set i p (F.ndot c (U i p) s (U i q))).set i q (F.ndot (nneg s) (U i p) c (U i q))) U

/-- The loop of `symmetricSVDKernel` (lines 167-214). `none` if it does not end within `fuel` iterations. -/
noncomputable def Format.svdLoop (F : Format) (bit : Num → Num → Num → Bool) (epsilon : ℝ) : ℕ → NMat n → NMat n → Option (NMat n × NMat n)
  | 0, _, _ => none
  | fuel + 1, A, U =>
    if nanLe (nargmax A).1 (some (epsilon : EReal)) then some (A, U)
    else match (nargmax A).2 with
      | none => none
      | some (p, q) => F.svdLoop bit epsilon fuel (F.rotateA bit p q A) (F.rotateU p q (F.cos (F.tan bit (A p p) (A p q) (A q q))) (F.sin (F.tan bit (A p p) (A p q) (A q q))) U)

/-- `symmetricSVDKernel` (lines 136-219): `D` and `U`. -/
noncomputable def Format.svd (F : Format) (bit : Num → Num → Num → Bool) (epsilon : ℝ) (fuel : ℕ) (A : NMat n) : Option ((Fin n → Num) × NMat n) :=
  (F.svdLoop bit epsilon fuel A (fun i j => if i = j then some 1 else some 0)).map fun s => (fun i => s.1 i i, s.2)

end ArborX.Fp
