import Verif.Distributed.Query
import Verif.Nearest.Model
import Verif.StdAlg.Model

/-!
# Model of the distributed tree: nearest queries

Models `src/distributed/detail/ArborX_DistributedTreeNearest.hpp`, `filterResults` of `ArborX_DistributedTreeUtils.hpp` and
`ArborX_DistributedTreeNearestHelpers.hpp`. Conventions as in `Query.lean`.
-/

namespace ArborX.Distributed

open BVH Traversal

variable {T X α V K : Type} {w : ℕ}

/-! ## Helpers -/

/-- The entries `[a, b)` of an array. -/
def slice (l : List X) (a b : ℕ) : List X := (l.drop a).take (b - a)

/-- A loop that writes `row` to `[a, a + row.length)`. -/
def writeRow (a : ℕ) (row : List X) (buf : ℕ → Option X) : ℕ → Option X := fun i =>
  if a ≤ i ∧ i < a + row.length then row[i - a]? else buf i

/-- A `parallel_for` in which each iteration writes one row (`ArborX_DistributedTreeNearest.hpp` 91-96, `ArborX_DistributedTreeUtils.hpp`
317-339). The views are zero-initialised; the model is stricter and wants every entry to be written. -/
def writeRows (order : List ℕ) (offset : List ℕ) (row : ℕ → List X) : Option (List X) :=
  initialised ((List.range (offset.getLast?.getD 0)).map
    (order.foldl (fun buf q => writeRow (offset.getD q 0) (row q) buf) (fun _ => none)))

/-! ## Queries -/

/-- A nearest predicate: what the local queries use, and `within R v`, the answer of the predicate
`intersects(approx_expand_by_radius(geometry, R))` for the volume `v` (`ArborX_DistributedTreeNearestHelpers.hpp` 84-155, 170-176). -/
structure NPred (α V K : Type) where
  q : Nearest.Query α V K
  within : K → V → Bool

/-- What differs between executions of a nearest query. `garbage` is the content of the uninitialised `farthest_distances`
(`ArborX_DistributedTreeNearest.hpp` 199-202). -/
structure NEnv (K : Type) where
  one : QEnv
  two : QEnv
  top1 : ℕ → LEnv
  bottom1 : ℕ → LEnv
  top2 : ℕ → LEnv
  bottom2 : ℕ → LEnv
  order : ℕ → ℕ → List ℕ
  garbage : ℕ → ℕ → K

structure NEnv.Valid (E : NEnv K) (P : ℕ) : Prop where
  one : E.one.Valid
  two : E.two.Valid
  top1 : ∀ r < P, (E.top1 r).Valid
  bottom1 : ∀ r < P, (E.bottom1 r).Valid
  top2 : ∀ r < P, (E.top2 r).Valid
  bottom2 : ∀ r < P, (E.bottom2 r).Valid
  order : ∀ r n, (E.order r n).Perm (List.range n)

variable [SemilatticeSup V] [OrderBot V] [LinearOrder K]

/-- The nearest predicate on the top tree of process `r`, whose values are the ranks. -/
def DTree.topQuery (D : DTree α V w) (r : ℕ) (q : NPred α V K) : Nearest.Query ℕ V K where
  k := q.q.k
  dl := fun i => q.q.dv ((D.top r).vol i)
  dv := q.q.dv
  zero := q.q.zero
  inf := q.q.inf
  cap := q.q.cap

/-- The loop that counts the ranks to ask (72-83): `ranks` the nearest ones, `count` the values counted so far. -/
def ranksNeeded (sizes : ℕ → ℕ) (k : ℕ) : List ℤ → ℕ → ℕ
  | [], _ => 0
  | t :: ts, count => if sizes t.toNat = 0 ∨ k ≤ count then 0 else ranksNeeded sizes k ts (count + sizes t.toNat) + 1

/-- The loop for query `i` (72-82), `row i` its nearest ranks. -/
def needOf (sizes : ℕ → ℕ) (queries : List (NPred α V K)) (row : ℕ → List ℤ) (i : ℕ) : ℕ :=
  match queries[i]? with
  | some q => ranksNeeded sizes q.q.k (row i) 0
  | none => 0

/-- The truncation on one process (65-99): new offsets and ranks. -/
def truncate (order : List ℕ) (sizes : ℕ → ℕ) (queries : List (NPred α V K)) (offset : List ℕ) (ranks : List ℤ) :
    Option (List ℕ × List ℤ) :=
  let n := queries.length
  let count := needOf sizes queries (fun i => slice ranks (offset.getD i 0) (offset.getD (i + 1) 0))
  let newOffset := Crs.toList (Crs.scan count) (n + 1)
  (writeRows order newOffset (fun i => slice ranks (offset.getD i 0) (offset.getD i 0 + count i))).map (fun l => (newOffset, l))

/-- The farthest distance (117-124): `row` are the distances found for a query. Results for `k = 0` would make the code read
before the row. -/
def farthestOf (k : ℕ) (row : List K) (garbage : K) : Option K :=
  if row.length = 0 then some garbage
  else if k = 0 then none
  else (StdAlg.nthElement (fun a b => decide (a < b)) (row.length + 1) row 0 (min k row.length - 1) row.length).bind
    (fun r => r[min k row.length - 1]?)

/-- All farthest distances on one process. -/
def farthest (queries : List (NPred α V K)) (offset : List ℕ) (distances : List K) (garbage : ℕ → K) : Option (List K) :=
  initialised ((List.range queries.length).map (fun i => (queries[i]?).bind (fun q =>
    farthestOf q.q.k (slice distances (offset.getD i 0) (offset.getD (i + 1) 0)) (garbage i))))

/-- `phaseI` (41-126): the farthest distances on each process. -/
def DTree.phaseI (D : DTree α V w) (E : NEnv K) (fuel : ℕ) (queries : ℕ → List (NPred α V K)) : Option (ℕ → List K) :=
  (collect D.P (fun r => crsQuery .nearest (fun q : NPred α V K => q.q.k) (E.top1 r)
    (fun q : NPred α V K => Nearest.nearestQuery ((D.top r).build (D.tsched r)) (D.topQuery r q) fuel)
    (fun _ i => [(i : ℤ)]) [] (queries r))).bind fun t =>
  (collect D.P (fun r => truncate (E.order r (queries r).length) (fun t => (D.bottom t).n) (queries r) (t r).1 (t r).2)).bind fun t' =>
  (forwardAndCommunicate E.one D.P (fun r qs => crsQuery .nearest (fun q : NPred α V K => q.q.k) (E.bottom1 r)
    (fun q : NPred α V K => Nearest.nearestQuery ((D.bottom r).build (D.bsched r)) q.q fuel)
    (fun q a => [q.q.dl a]) [] qs) queries (fun r => (t' r).2) (fun r => (t' r).1)).bind fun d =>
  collect D.P (fun r => farthest (queries r) (d r).1 (d r).2 (E.garbage r))

/-- `CompareDistance` of `filterResults` (`ArborX_DistributedTreeUtils.hpp` 297-305). -/
def compareDistance (x y : T × K) : Bool := decide (x.2 > y.2)

/-- `queue.emplace` for all results of a query (329-330). -/
def fillQueue (cap : ℕ) : List (T × K) → List (T × K) → Option (List (T × K))
  | [], c => some c
  | x :: xs, c => (Heap.push compareDistance cap c x).bind (fillQueue cap xs)

/-- The loop that takes results out of the queue (332-338), at most `k`. -/
def takeQueue : ℕ → List (T × K) → Option (List T)
  | 0, _ => some []
  | k + 1, c =>
    if c.isEmpty then some []
    else (Heap.top c).bind fun t => (Heap.pop compareDistance c).bind fun c' => (takeQueue k c').map (t.1 :: ·)

/-- One query in `filterResults` (320-338). -/
def filterRow (k : ℕ) (row : List (T × K)) : Option (List T) :=
  if row.isEmpty then some [] else (fillQueue row.length row []).bind (takeQueue k)

/-- The number of results query `i` keeps (283-288). -/
def keepOf (queries : List (NPred α V K)) (offset : List ℕ) (i : ℕ) : ℕ :=
  match queries[i]? with
  | some q => min (offset.getD (i + 1) 0 - offset.getD i 0) q.q.k
  | none => 0

/-- `filterResults` (265-342). -/
def filterResults (order : List ℕ) (queries : List (NPred α V K)) (offset : List ℕ) (results : List (T × K)) :
    Option (List ℕ × List T) :=
  let n := queries.length
  let row := fun i => slice results (offset.getD i 0) (offset.getD (i + 1) 0)
  let newOffset := Crs.toList (Crs.scan (keepOf queries offset)) (n + 1)
  (initialised ((List.range n).map (fun i => (queries[i]?).bind (fun q => filterRow q.q.k (row i))))).bind fun rows =>
  (writeRows order newOffset (fun i => rows.getD i [])).map (fun l => (newOffset, l))

/-- `phaseII` (128-177). `cb` is the callback, which outputs one value for each match. -/
def DTree.phaseII (D : DTree α V w) (E : NEnv K) (fuel : ℕ) (cb : NPred α V K → α → T) (queries : ℕ → List (NPred α V K))
    (far : ℕ → List K) : Option (ℕ → List ℕ × List T) :=
  (collect D.P (fun r => crsQuery .spatial (fun _ => 0) (E.top2 r)
    (fun q : NPred α V K × K => spatialQuery ((D.top r).build (D.tsched r)) (fun i => q.1.within q.2 ((D.top r).vol i)) (q.1.within q.2)
      (fun _ => false) fuel)
    (fun _ i => [(i : ℤ)]) [] ((queries r).zip (far r)))).bind fun t =>
  (forwardAndCommunicate E.two D.P (fun r qs => crsQuery .nearest (fun q : NPred α V K => q.q.k) (E.bottom2 r)
    (fun q : NPred α V K => Nearest.nearestQuery ((D.bottom r).build (D.bsched r)) q.q fuel)
    (fun q a => [(cb q a, q.q.dl a)]) [] qs) queries (fun r => (t r).2) (fun r => (t r).1)).bind fun d =>
  collect D.P (fun r => filterResults (E.order r (queries r).length) (queries r) (d r).1 (d r).2)

/-- `queryDispatch` for nearest predicates (179-269): offsets and values on each process. `withCallback`: the overload with a
callback, which treats empty trees separately; `asserts`: `KOKKOS_ASSERT` is enabled (line 191). -/
def DTree.nearest (D : DTree α V w) (withCallback asserts : Bool) (E : NEnv K) (fuel : ℕ) (cb : NPred α V K → α → T)
    (queries : ℕ → List (NPred α V K)) : Option (ℕ → List ℕ × List T) :=
  if !D.built then none
  else if D.size = 0 ∧ withCallback then some (fun r => (List.replicate ((queries r).length + 1) 0, []))
  else if D.size = 0 ∧ asserts then none
  else (D.phaseI E fuel queries).bind (D.phaseII E fuel cb queries)

end ArborX.Distributed
