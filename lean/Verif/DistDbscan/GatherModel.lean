import Verif.Construction.IntModel
import Verif.Crs.Model

/-!
# Model of `communicateMergePairs`

`Merge.lean` takes the result of `MPI_Allgatherv` to be the concatenation of the arrays of all processes. Here the counts and displacements are computed as in the code, in bytes and with values of
type `int`.
-/

namespace ArborX.DistDbscan

variable {T : Type}

/-- `offsets` of `computeCountsAndOffsets` (`src/cluster/detail/ArborX_DistributedDBSCANHelpers.hpp` 110-131, called at 573): partial sums of the numbers of pairs of the processes. -/
def gatherOffset (pairs : ℕ → List T) (s : ℕ) : ℕ := Crs.scan (fun i => (pairs i).length) s

/-- `x *= sc` (lines 582-583) with `sc = sizeof(MergePair) = 16` (lines 391-394): `x` is an `int`, the product a `size_t`, of which the lowest 32 bits are kept. -/
def scaled (x : ℕ) : ℤ := ((x * 16 : ℕ) : ℤ).bmod (2 ^ 32)

/-- The buffer of process `r` before the call of MPI (line 589 or 604): its own pairs at the unscaled offset, nothing else. -/
def inPlace (pairs : ℕ → List T) (r : ℕ) : ℕ → Option T := fun x =>
  if gatherOffset pairs r ≤ x ∧ x < gatherOffset pairs r + (pairs r).length then (pairs r)[x - gatherOffset pairs r]? else none

/-- The bytes of pair `x` are in the part of the buffer that belongs to process `s`. -/
def inPart (pairs : ℕ → List T) (s x : ℕ) : Bool :=
  decide (scaled (gatherOffset pairs s) ≤ 16 * (x : ℤ) ∧ 16 * (x : ℤ) + 16 ≤ scaled (gatherOffset pairs s) + scaled (pairs s).length)

/-- `MPI_Allgatherv` with `MPI_IN_PLACE` (lines 593-595, 608-610) on process `r`: the part of process `s` is copied from the buffer of process `s`. -/
def allgatherv (P : ℕ) (pairs : ℕ → List T) (r x : ℕ) : Option T :=
  match (List.range P).find? (fun s => inPart pairs s x) with
  | some s => inPlace pairs s x
  | none => inPlace pairs r x

/-- The arguments of the call of MPI are valid: no negative count, no negative displacement (which would be outside of the buffer), and no two parts overlap. -/
def gatherValid (P : ℕ) (pairs : ℕ → List T) : Prop :=
  (∀ s < P, 0 ≤ scaled (pairs s).length ∧ 0 ≤ scaled (gatherOffset pairs s)) ∧
    ∀ s < P, ∀ t < P, ∀ x, inPart pairs s x = true → inPart pairs t x = true → s = t

open Classical in
/-- `communicateMergePairs` (lines 562-613) on process `r`: `global_merge_pairs`. `none`: an offset overflows (line 130) or the call of MPI is erroneous. -/
noncomputable def communicate (P : ℕ) (pairs : ℕ → List T) (r : ℕ) : Option (List (Option T)) :=
  if AreInts ((List.range (P + 1)).map (fun s => (gatherOffset pairs s : ℤ))) ∧ gatherValid P pairs then
    some ((List.range (gatherOffset pairs P)).map (allgatherv P pairs r))
  else none

end ArborX.DistDbscan
