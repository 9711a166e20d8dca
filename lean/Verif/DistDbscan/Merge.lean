import Verif.Distributed.NearestModel
import Mathlib.Data.List.Sort

/-!
# Model of the distributed DBSCAN: merging the labels of the processes

Models `src/cluster/detail/ArborX_DistributedDBSCANHelpers.hpp` 391-660 and steps 5 to 7 of
`src/cluster/ArborX_DistributedDBSCAN.hpp`. Labels (`long long`) are integers; no overflow. `none`: an access out of bounds,
a read of uninitialised memory, or a loop that has not ended within the fuel.
-/

namespace ArborX.DistDbscan

open Distributed

/-- `MergePair` (391-417): `from` and `to`. -/
abbrev Pair := ℤ × ℤ

/-- `a <= b` of the `operator<` of `MergePair` (399-407): lexicographic. -/
def pairLe (a b : Pair) : Prop := a.1 < b.1 ∨ a.1 = b.1 ∧ a.2 ≤ b.2

instance : DecidableRel pairLe := fun a b => inferInstanceAs (Decidable (a.1 < b.1 ∨ a.1 = b.1 ∧ a.2 ≤ b.2))

/-- `Kokkos::sort` of merge pairs (510, 559), by specification; there is one sorted rearrangement only. -/
def sortPairs (l : List Pair) : List Pair := l.insertionSort pairLe

/-- A `parallel_scan` over `[0, n)` whose iteration `i` adds `emit i` to an array of size `cap` that is then shrunk: in the final pass
iteration `i` writes behind what all earlier iterations add; the final pass runs in the order `order`. -/
def scanWrites {X : Type} (order : List ℕ) (n cap : ℕ) (emit : ℕ → List X) : Option (List X) :=
  if Crs.scan (fun i => (emit i).length) n ≤ cap then
    writeRows order (Crs.toList (Crs.scan (fun i => (emit i).length)) (n + 1)) emit
  else none

/-- Entry `i` of an array. -/
def pairAt (l : List Pair) (i : ℕ) : Pair := l.getD i (0, 0)

/-- The inner loop of `sortAndFilterMergePairs` (537-550). -/
def reinsert (l : List Pair) (from_ to_ : ℤ) (j : ℕ) : List Pair :=
  if _h : j < l.length ∧ (pairAt l j).1 = from_ then
    (if (pairAt l j).2 ≠ (pairAt l (j - 1)).2 then [((pairAt l j).2, to_)] else []) ++ reinsert l from_ to_ (j + 1)
  else []
  termination_by l.length - j

/-- What iteration `i` of the filter of `sortAndFilterMergePairs` adds (520-551). -/
def filterAt (l : List Pair) (i : ℕ) : List Pair :=
  if i > 0 ∧ (pairAt l i).1 = (pairAt l (i - 1)).1 then []
  else pairAt l i :: reinsert l (pairAt l i).1 (pairAt l i).2 (i + 1)

/-- `sortAndFilterMergePairs` (499-560); the new array is as large as the old one (514-515). -/
def sortAndFilter (order : List ℕ) (l : List Pair) : Option (List Pair) :=
  if l.length = 0 then some l
  else (scanWrites order l.length l.length (filterAt (sortPairs l))).map sortPairs

/-- The loop of `relabel` for one label (644-658). -/
def relabelLoop (l : List Pair) : ℕ → ℤ → Option ℤ
  | 0, _ => none
  | fuel + 1, label =>
    (StdAlg.lowerBound (fun x y : ℤ => decide (x < y)) (l.map (·.1)) 0 l.length label).bind fun next =>
    if next = l.length ∨ (pairAt l next).1 ≠ label then some label else relabelLoop l fuel (pairAt l next).2

/-- What differs between executions: the order of the iterations of the final passes, for process and number of
iterations. -/
structure MEnv where
  localOrder : ℕ → ℕ → List ℕ
  globalOrder : ℕ → ℕ → List ℕ

structure MEnv.Valid (E : MEnv) : Prop where
  localOrder : ∀ r n, (E.localOrder r n).Perm (List.range n)
  globalOrder : ∀ r n, (E.globalOrder r n).Perm (List.range n)

/-- The merge pairs of all processes on process `r`: `sortAndFilterMergePairs` on each process (`ArborX_DistributedDBSCAN.hpp` 175; not called
if there are no ghosts, with the same effect), `communicateMergePairs` (562-613, `MPI_Allgatherv`: the arrays of all
processes in the order of the ranks), and `sortAndFilterMergePairs` again (`ArborX_DistributedDBSCAN.hpp` 186-187). -/
def globalPairs (E : MEnv) (P : ℕ) (pairs : ℕ → List Pair) (r : ℕ) : Option (List Pair) :=
  (collect P (fun s => sortAndFilter (E.localOrder s (pairs s).length) (pairs s))).bind fun filtered =>
  sortAndFilter (E.globalOrder r ((List.range P).flatMap filtered).length) ((List.range P).flatMap filtered)

/-- The merge phase (`ArborX_DistributedDBSCAN.hpp` 175-192): from the merge pairs of all processes, the new value of a label
of process `r`. -/
def merge (E : MEnv) (P : ℕ) (pairs : ℕ → List Pair) (fuel r : ℕ) (label : ℤ) : Option ℤ :=
  (globalPairs E P pairs r).bind fun l => relabelLoop l fuel label

end ArborX.DistDbscan
