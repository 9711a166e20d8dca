import Mathlib.Data.Finset.Image
import Mathlib.Data.Finset.Card
import Mathlib.Data.List.OfFn
import Mathlib.Logic.Equiv.Basic

/-!
# Model of `verifyDBSCAN`

Models `benchmarks/cluster/ArborX_DBSCANVerification.hpp`, with which the tests and the benchmarks check the labels of the clustering.
The views `offset` and `neighbors` are modelled by the rows they describe; `Experimental::make_intersects` queries by the rows they return, in any order.
The counts of errors are sums over all points or entries; they cannot overflow, as there are fewer than 2^31 entries.  Messages are left out.
-/

namespace ArborX.Verify

variable {V : Type}

/-- `PairIndexLabel`, and `TupleIndexRankLabel` with `pt` the pair of the rank and the index (lines 37-52). -/
structure Entry (V : Type) where
  pt : V
  label : ℤ
  core : Bool
  deriving DecidableEq

/-- A row of `neighbors`: its first entry and the others. -/
abbrev Row (V : Type) := Entry V × List (Entry V)

/-- The entries of a row: the points, their labels (`IndexLabelCallback`, lines 348-359, and `IndexRankLabelCoreCallback`, lines 432-446) and whether they are core points
(lines 403 and 490-494): `size j` is the length of the row of point `j`. -/
def entries (minPts : ℕ) (size : V → ℕ) (lab : V → ℤ) (row : List V) : List (Entry V) :=
  row.map fun j => ⟨j, lab j, decide (minPts ≤ size j)⟩

variable [DecidableEq V]

/-- `self_index`: the last place of the point in its row, none if it is not there (lines 399-406, 511-516). -/
def selfIndex (i : V) (l : List (Entry V)) : Option (Fin l.length) :=
  (List.finRange l.length).foldl (fun s p => if (l.get p).pt = i then some p else s) none

/-- `kokkos_swap` of the first entry with another one (lines 409-410, 519-520).  If the two places are equal nothing changes, as in the code. -/
def swapFirst (l : List (Entry V)) (q : Fin l.length) : List (Entry V) :=
  List.ofFn fun p : Fin l.length => l.get (Equiv.swap ⟨0, q.pos⟩ q p)

/-- The row with the point itself first (lines 396-413, 508-524).  Without an entry for the point the code exchanges the entry before the beginning of the view: `none`. -/
def selfFirst (i : V) (l : List (Entry V)) : Option (Row V) :=
  (selfIndex i l).bind fun q => match swapFirst l q with
    | [] => none
    | a :: r => some (a, r)

omit [DecidableEq V] in
/-- `verifyCorePointsNonnegativeIndex` (lines 81-104). -/
def coreNonnegative (pts : List V) (R : V → Row V) : Bool :=
  decide (pts.countP (fun i => (R i).1.core && decide ((R i).1.label < 0)) = 0)

/-- `verifyConnectedCorePointsShareIndex` (lines 106-137). -/
def coresShare (pts : List V) (R : V → Row V) : Bool :=
  decide ((pts.map fun i => if (R i).1.core then (R i).2.countP (fun e => e.core && decide ((R i).1.label ≠ e.label)) else 0).sum = 0)

/-- `verifyNoisePoints` (lines 139-171). -/
def noisePoints (pts : List V) (R : V → Row V) : Bool :=
  decide (pts.countP (fun i => !(R i).1.core && !(R i).2.any (fun e => e.core) && decide ((R i).1.label ≠ -1)) = 0)

/-- The loop over the neighbours of a point with label `l` (lines 189-203): `is_border` and `have_shared_core`. -/
def borderLoop (l : ℤ) : List (Entry V) → Bool → Bool × Bool
  | [], b => (b, false)
  | e :: r, b => if e.core then if l = e.label then (true, true) else borderLoop l r true else borderLoop l r b

/-- `verifyConnectedBorderPoints` (lines 173-215). -/
def borderPoints (pts : List V) (R : V → Row V) : Bool :=
  decide (pts.countP (fun i => !(R i).1.core && (borderLoop (R i).1.label (R i).2 false).1 && !(borderLoop (R i).1.label (R i).2 false).2) = 0)

/-- `verifyIgnoredBorderPoints` (lines 217-253). -/
def ignoredBorderPoints (pts : List V) (R : V → Row V) : Bool :=
  decide (pts.countP (fun i => !(R i).1.core && (R i).2.any (fun e => e.core) && decide ((R i).1.label ≠ -1)) = 0)

/-! ### `verifyClustersAreUnique` -/

/-- The labels in the first entries of the rows after those of border points are removed (lines 267-286).  The copies in the rows of other points keep theirs. -/
def keepCores (R : ℕ → Row ℕ) (i : ℕ) : ℤ :=
  if !(R i).1.core && ((R i).1 :: (R i).2).any (fun e => e.core) then -1 else (R i).1.label

/-- `unique_cluster_indices.size()` (lines 288-296). -/
def numUnique (n : ℕ) (s : ℕ → ℤ) : ℕ := (((List.range n).map s).filter fun l => decide (l ≠ -1)).toFinset.card

/-- The points pushed when `k` is marked (lines 322-327); the label of the first entry is -1 by then. -/
def pushed (R : ℕ → Row ℕ) (id : ℤ) (k : ℕ) : List ℕ :=
  (({ (R k).1 with label := -1 } :: (R k).2).filter fun e => e.core || decide (e.label = id)).map fun e => e.pt

/-- The search (lines 312-329): `s` are the labels in the first entries.  `none` if the fuel runs out or a point is out of range. -/
def dfs (n : ℕ) (R : ℕ → Row ℕ) (id : ℤ) : ℕ → List ℕ → (ℕ → ℤ) → Option (ℕ → ℤ)
  | 0, _, _ => none
  | _ + 1, [], s => some s
  | fuel + 1, k :: st, s =>
    if n ≤ k then none
    else if 0 ≤ s k then dfs n R id fuel ((pushed R id k).reverse ++ st) (Function.update s k (-1))
    else dfs n R id fuel st s

/-- One iteration of the loop over the points (lines 303-331) on the labels, `cluster_sets` and `num_clusters`. -/
def countStep (n : ℕ) (R : ℕ → Row ℕ) (fuel : ℕ) (st : (ℕ → ℤ) × Finset ℤ × ℕ) (i : ℕ) : Option ((ℕ → ℤ) × Finset ℤ × ℕ) :=
  if 0 ≤ st.1 i then (dfs n R (st.1 i) fuel [i] st.1).map fun s => (s, insert (st.1 i) st.2.1, st.2.2 + 1)
  else some st

/-- `verifyClustersAreUnique` (lines 255-346). -/
def clustersUnique (n : ℕ) (R : ℕ → Row ℕ) (fuel : ℕ) : Option Bool :=
  ((List.range n).foldlM (countStep n R fuel) (keepCores R, ∅, 0)).map fun st =>
    decide (st.2.1.card = numUnique n (keepCores R)) && decide (st.2.2 = numUnique n (keepCores R))

/-- The rows of a list of points, if all are well-formed. -/
def allRows (pts : List V) (rows : V → Option (Row V)) : Option (V → Row V) :=
  if h : ∀ i ∈ pts, (rows i).isSome then some fun i => if hi : i ∈ pts then (rows i).get (h i hi) else (⟨i, 0, false⟩, []) else none

/-- `verifyDBSCAN` (lines 361-429).  `rows i` is what the query of point `i` returns, `star` the algorithm `DBSCAN_STAR`.  The radius is positive (line 378).  `none`: an exception (line 379), an access out of bounds, or no fuel.
`all_of` stops at the first check that fails. -/
def verify (n minPts : ℕ) (star : Bool) (rows : ℕ → List ℕ) (lab : ℕ → ℤ) (fuel : ℕ) : Option Bool :=
  if minPts < 2 then none
  else (allRows (List.range n) fun i => selfFirst i (entries minPts (fun j => (rows j).length) lab (rows i))).bind fun R =>
    if coreNonnegative (List.range n) R && coresShare (List.range n) R && noisePoints (List.range n) R
        && (if star then ignoredBorderPoints (List.range n) R else borderPoints (List.range n) R) then clustersUnique n R fuel
    else some false

/-! ### The distributed version -/

/-- The points of a process. -/
def localPoints (size : ℕ → ℕ) (r : ℕ) : List (ℕ × ℕ) := (List.range (size r)).map fun i => (r, i)

/-- What process `r` finds (lines 448-539): `rows1` and `rows2` are the results of the two queries (lines 487-488 and 504-507).  The labels and flags are those of the owner of each point. -/
def localSuccess (size : ℕ → ℕ) (minPts : ℕ) (rows1 rows2 : ℕ × ℕ → List (ℕ × ℕ)) (lab : ℕ × ℕ → ℤ) (r : ℕ) : Option Bool :=
  if minPts < 2 then none
  else (allRows (localPoints size r) fun i => selfFirst i (entries minPts (fun j => (rows1 j).length) lab (rows2 i))).map fun R =>
    coreNonnegative (localPoints size r) R && coresShare (localPoints size r) R && noisePoints (localPoints size r) R && borderPoints (localPoints size r) R

/-- `verifyDBSCAN` for `ranks` processes: `MPI_Allreduce` with `MPI_MIN` (lines 541-544). -/
def verifyDistributed (ranks : ℕ) (size : ℕ → ℕ) (minPts : ℕ) (rows1 rows2 : ℕ × ℕ → List (ℕ × ℕ)) (lab : ℕ × ℕ → ℤ) : Option Bool :=
  ((List.range ranks).mapM (localSuccess size minPts rows1 rows2 lab)).map fun l => l.all id

end ArborX.Verify
