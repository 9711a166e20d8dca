import Mathlib.Logic.Function.Basic
import Mathlib.Data.List.Basic

/-!
# Model of the permutation utilities and of the offsets of an ordered view

Models `src/misc/ArborX_SortUtils.hpp`, `sortByKey` of
`src/kokkos_ext/ArborX_KokkosExtSort.hpp` and `src/misc/ArborX_Utils.hpp`.
The iterations of a `parallel_for` are single writes; `order` is the order in which they
happen. Views are functions on indices with an explicit extent.
-/

namespace ArborX.Perm

open Function (update)

variable {T K : Type}

/-- `applyInversePermutation` (`ArborX_SortUtils.hpp` lines 45-67). `none`: an assertion about
the extents failed, or a write was out of bounds. -/
def applyInversePermutation (np : ℕ) (perm : ℕ → ℕ) (n : ℕ) (inp : ℕ → T) (nout : ℕ) (out : ℕ → T)
    (order : List ℕ) : Option (ℕ → T) :=
  if np = n ∧ nout = n then
    order.foldl (fun o i => o.bind (fun out =>
      if perm i < n then some (update out (perm i) (inp i)) else none)) (some out)
  else none

/-- `applyPermutation` (lines 69-91), with separate output. -/
def applyPermutation (np : ℕ) (perm : ℕ → ℕ) (n : ℕ) (inp : ℕ → T) (nout : ℕ) (out : ℕ → T)
    (order : List ℕ) : Option (ℕ → T) :=
  if np = n ∧ nout = n then
    order.foldl (fun o i => o.bind (fun out =>
      if perm i < n then some (update out i (inp (perm i))) else none)) (some out)
  else none

/-- `applyPermutation` (lines 93-99), in place: the view is cloned first. -/
def applyPermutationInPlace (np : ℕ) (perm : ℕ → ℕ) (n : ℕ) (view : ℕ → T) (order : List ℕ) :
    Option (ℕ → T) :=
  applyPermutation np perm n view n view order

/-- The library sort used by `sortByKey` (`Kokkos::BinSort`, Thrust, oneDPL): it rearranges
keys and values by the same permutation `σ`, which puts the keys in order. -/
def IsSort [LE K] (n : ℕ) (key : ℕ → K) (σ : ℕ → ℕ) : Prop :=
  ((List.range n).map σ).Perm (List.range n) ∧ ∀ i, i + 1 < n → key (σ i) ≤ key (σ (i + 1))

/-- `sortByKey` (`ArborX_KokkosExtSort.hpp` lines 80-115): nothing is done for an empty view or
when all keys are equal (lines 97-102); otherwise keys and values are rearranged by the
permutation `σ` of the library sort. -/
def sortByKey [DecidableEq K] (n : ℕ) (key : ℕ → K) (val : ℕ → T) (σ : ℕ → ℕ) :
    (ℕ → K) × (ℕ → T) :=
  if n = 0 then (key, val)
  else if (List.range n).all (fun i => decide (key i = key 0)) then (key, val)
  else (fun i => key (σ i), fun i => val (σ i))

/-- `sortObjects` (`ArborX_SortUtils.hpp` lines 25-43): sorted view and permutation. -/
def sortObjects [DecidableEq K] (n : ℕ) (view : ℕ → K) (σ : ℕ → ℕ) : (ℕ → K) × (ℕ → ℕ) :=
  sortByKey n view (fun i => i) σ

/-- `is_cell_first_index` (`ArborX_Utils.hpp` lines 42-43). -/
def isFirst [DecidableEq K] (n : ℕ) (view : ℕ → K) (i : ℕ) : Bool :=
  decide (i = 0) || decide (i = n) || decide (view i ≠ view (i - 1))

/-- The value of `update` with which `parallel_scan` calls the functor for index `i`: the
increments of all earlier indices. -/
def prefixCount (p : ℕ → Bool) : ℕ → ℕ
  | 0 => 0
  | i + 1 => prefixCount p i + if p i then 1 else 0

/-- `computeOffsetsInOrderedView` (lines 24-53): in the final pass the iterations write in any
`order`; then the view is shrunk to `num_offsets`. -/
def computeOffsets [DecidableEq K] (n : ℕ) (view : ℕ → K) (garbage : ℕ → ℕ) (order : List ℕ) : List ℕ :=
  let p := isFirst n view
  let offsets := order.foldl (fun o i => if p i then update o (prefixCount p i) i else o) garbage
  let numOffsets := prefixCount p (n + 1)
  (List.range numOffsets).map offsets

end ArborX.Perm
