import Verif.Distributed.Distributor
import Verif.BVH.Build
import Verif.Traversal.Model
import Verif.Perm.Model
import Verif.Crs.Model

/-!
# Model of the distributed tree: spatial queries

Models `src/distributed/ArborX_DistributedTree.hpp`, `src/distributed/detail/ArborX_DistributedTreeUtils.hpp` and
`src/distributed/detail/ArborX_DistributedTreeSpatial.hpp`. All processes run the same functions on their own
arguments; a function of the model takes the arguments of all processes (functions of the process) and gives the results of
all processes. `none`: some process reads uninitialised memory, fails, or waits for ever.
-/

namespace ArborX.Distributed

open BVH Traversal

/-! ## Collective calls -/

/-- All processes have to succeed. -/
def collect {β : Type} [Inhabited β] (P : ℕ) (f : ℕ → Option β) : Option (ℕ → β) :=
  if (List.range P).all (fun r => (f r).isSome) then some (fun r => (f r).getD default) else none

instance : Inhabited Plan := ⟨⟨⟨[], [], [0]⟩, [], [0]⟩⟩

/-- Reading a whole array: every entry has to be initialised. -/
def initialised {X : Type} : List (Option X) → Option (List X)
  | [] => some []
  | some x :: l => (initialised l).map (x :: ·)
  | none :: _ => none

/-- `doPostsAndWaits` on all processes, with the imports of size `n_imports`; the result is read. -/
def communicate {X : Type} (E : Env) (P : ℕ) (plan : ℕ → Plan) (exports : ℕ → List X) : Option (ℕ → List X) :=
  collect P (fun r => (exchange E P plan exports r (plan r).imports).bind initialised)

/-- `for (int i = offset(q); i < offset(q + 1); ++i) buffer(i) = x;` (`ArborX_DistributedTreeUtils.hpp` 81-82, 108-109, 143-144, 200-203). -/
def fillRow {X : Type} (a b : ℕ) (x : Option X) (buf : ℕ → Option X) : ℕ → Option X := fun i =>
  if a ≤ i ∧ i < b then x else buf i

/-- The loops that fill the buffers (78-83, 105-110, 140-145, 197-204): `n` queries, `x q` is what query `q` writes, the queries in the
order `order`. -/
def exportRows {X : Type} (order : List ℕ) (offset : List ℕ) (x : ℕ → Option X) : Option (List X) :=
  initialised ((List.range (offset.getLast?.getD 0)).map
    (order.foldl (fun buf q => fillRow (offset.getD q 0) (offset.getD (q + 1) 0) (x q) buf) (fun _ => none)))

variable {Q : Type}

/-- `forwardQueries` (49-115): `fwd_queries`, `fwd_ids` and `fwd_ranks`. `Es` are the executions of the four parts. -/
def forwardQueries (Es : ℕ → Env) (P : ℕ) (queries : ℕ → List Q) (ranksTo : ℕ → List ℤ) (offset : ℕ → List ℕ) :
    Option ((ℕ → List Q) × (ℕ → List ℕ) × (ℕ → List ℤ)) :=
  (collect P (createFromSends (Es 0) P ranksTo)).bind fun plan =>
  (collect P (fun r => exportRows ((Es 1).order r (queries r).length) (offset r) (fun q => (queries r)[q]?))).bind fun exportQueries =>
  (communicate (Es 1) P plan exportQueries).bind fun fwdQueries =>
  (communicate (Es 2) P plan (fun r => List.replicate ((offset r).getLast?.getD 0) (r : ℤ))).bind fun fwdRanks =>
  (collect P (fun r => exportRows ((Es 3).order r (queries r).length) (offset r) (fun q => some q))).bind fun exportIds =>
  (communicate (Es 3) P plan exportIds).bind fun fwdIds =>
  some (fwdQueries, fwdIds, fwdRanks)

/-- `forwardQueries` without ids and ranks (117-149). -/
def forwardQueriesOnly (Es : ℕ → Env) (P : ℕ) (queries : ℕ → List Q) (ranksTo : ℕ → List ℤ) (offset : ℕ → List ℕ) :
    Option (ℕ → List Q) :=
  (collect P (createFromSends (Es 0) P ranksTo)).bind fun plan =>
  (collect P (fun r => exportRows ((Es 1).order r (queries r).length) (offset r) (fun q => (queries r)[q]?))).bind fun exportQueries =>
  communicate (Es 1) P plan exportQueries

variable {T : Type}

/-- `communicateResultsBack` (151-224): the received ids and values (the received ranks are not used by any caller). -/
def communicateResultsBack (Es : ℕ → Env) (P : ℕ) (out : ℕ → List T) (offset : ℕ → List ℕ) (ranks : ℕ → List ℤ)
    (ids : ℕ → List ℕ) : Option ((ℕ → List ℕ) × (ℕ → List T)) :=
  (collect P (createFromBatches (Es 0) P ranks offset)).bind fun plan =>
  (communicate (Es 1) P plan (fun r => List.replicate ((offset r).getLast?.getD 0) (r : ℤ))).bind fun _ =>
  (collect P (fun r => exportRows ((Es 2).order r ((offset r).length - 1)) (offset r) (fun q => (ids r)[q]?))).bind fun exportIds =>
  (communicate (Es 2) P plan exportIds).bind fun importIds =>
  (communicate (Es 3) P plan out).bind fun importOut =>
  some (importIds, importOut)

/-- `countResults` (33-47): the atomic increments in the order `order`, then the exclusive scan. `none` for an id out of
range. -/
def countResults (order : List ℕ) (n : ℕ) (ids : List ℕ) : Option (List ℕ) :=
  if ids.all (fun i => decide (i ≤ n)) then
    let counts := order.foldl (fun c i => Function.update c (ids.getD i 0) (c (ids.getD i 0) + 1)) (fun _ => 0)
    some (Crs.toList (Crs.scan counts) (n + 1))
  else none

/-- "Merge results" in `forwardQueriesAndCommunicateResults` (257-260): the offsets and the sorted values. `σ` is the
permutation of the library sort. -/
def mergeResults (order : List ℕ) (σ : ℕ → ℕ) (n : ℕ) (ids : List ℕ) (values : List T) : Option (List ℕ × List T) :=
  (countResults order n ids).bind fun offset =>
  (initialised ((List.range values.length).map (Perm.sortByKey ids.length (fun i => ids.getD i 0) (fun i => values[i]?) σ).2)).map
    fun v => (offset, v)

/-- What differs between executions of a query on all processes: the two communications, and on each process the
order of the increments and the library sort. -/
structure QEnv where
  fwd : ℕ → Env
  back : ℕ → Env
  order : ℕ → List ℕ → List ℕ
  sort : ℕ → List ℕ → ℕ → ℕ

structure QEnv.Valid (E : QEnv) : Prop where
  fwd : ∀ i, (E.fwd i).Valid
  back : ∀ i, (E.back i).Valid
  order : ∀ r ids, (E.order r ids).Perm (List.range ids.length)
  sort : ∀ r ids, Perm.IsSort ids.length (fun i => ids.getD i 0) (E.sort r ids)

/-- `forwardQueriesAndCommunicateResults` (226-263): offsets and values on each process. `bottom r` is the query of the
bottom tree of process `r`, giving offsets and values. -/
def forwardAndCommunicate (E : QEnv) (P : ℕ) (bottom : ℕ → List Q → Option (List ℕ × List T)) (queries : ℕ → List Q)
    (ranksTo : ℕ → List ℤ) (offset : ℕ → List ℕ) : Option (ℕ → List ℕ × List T) :=
  (forwardQueries E.fwd P queries ranksTo offset).bind fun f =>
  (collect P (fun r => bottom r (f.1 r))).bind fun b =>
  (communicateResultsBack E.back P (fun r => (b r).2) (fun r => (b r).1) f.2.2 f.2.1).bind fun c =>
  collect P (fun r => mergeResults (E.order r (c.1 r)) (E.sort r (c.1 r)) (queries r).length (c.1 r) (c.2 r))

/-! ## Local queries -/

/-- What differs between executions of a local query: the permutation that sorts the `n` queries, and the schedules of
the two passes, given the number of insertions of each thread. -/
structure LEnv where
  permute : ℕ → ℕ → ℕ
  sched1 : ℕ → (ℕ → ℕ) → List ℕ
  sched2 : ℕ → (ℕ → ℕ) → List ℕ

/-- The permutation is one, and no thread is stopped before it has finished. -/
structure LEnv.Valid (L : LEnv) : Prop where
  permute : ∀ n, ((List.range n).map (L.permute n)).Perm (List.range n)
  sched1 : ∀ n len, ∀ t < n, 2 * len t ≤ (L.sched1 n len).count t
  sched2 : ∀ n len, ∀ t < n, 2 * len t ≤ (L.sched2 n len).count t

/-- What the callback outputs for query `j`. -/
def resultsOf {α : Type} (trav : Q → Res (List α)) (cb : Q → α → List T) (queries : List Q) (j : ℕ) : List T :=
  match queries[j]? with
  | some q => (match trav q with | .done calls => calls.flatMap (cb q) | _ => [])
  | none => []

/-- `tree.query(space, queries, callback, values, offset)` for a tree of one process, see `Verif/Crs/Model.lean`.
`trav q` are the values the traversal for `q` calls the callback on, `cb q a` what the callback outputs,
`user` the previous content of `values`. -/
def crsQuery {α : Type} (kind : Crs.Kind) (k : Q → ℕ) (L : LEnv) (trav : Q → Res (List α)) (cb : Q → α → List T) (user : List T)
    (queries : List Q) : Option (List ℕ × List T) :=
  let n := queries.length
  if queries.all (fun q => match trav q with | .done _ => true | _ => false) then
    let prog := fun i => (resultsOf trav cb queries (L.permute n i)).map (fun v => (i, v))
    match Crs.query kind 0 (fun j => ((queries[j]?).map k).getD 0) user.length (fun i => user[i]?) n prog n (L.permute n)
      (L.sched1 n (fun i => (prog i).length)) (L.sched2 n (fun i => (prog i).length)) with
    | .done offset out => (initialised out).map (fun v => (offset, v))
    | _ => none
  else none

/-! ## The tree -/

variable {α V : Type} {w : ℕ} [SemilatticeSup V] [OrderBot V]

/-- `bounds()` of a tree: the default volume for an empty tree (`ArborX_LinearBVH.hpp` 203-206), the expanded default volume
for a single value (`initializeSingleLeafTree`, `ArborX_TreeConstruction.hpp` 41-69), else the volume of the root (101-111). -/
def bounds (I : Input α V w) (sched : List ℕ) : Option V :=
  if I.n = 0 then some ⊥
  else if I.n = 1 then ((I.build sched).leaf 0).map (fun l => ⊥ ⊔ I.vol l.value)
  else ((I.build sched).internal 0).map (·.vol)

/-- A distributed tree over `P` processes: the inputs of the bottom trees, the codes and permutations of the copies of the top
tree, and the schedules of the constructions. -/
structure DTree (α V : Type) (w : ℕ) where
  P : ℕ
  bottom : ℕ → Input α V w
  bsched : ℕ → List ℕ
  topCode : ℕ → ℕ → BitVec w
  topPerm : ℕ → ℕ → ℕ
  tsched : ℕ → List ℕ

/-- The top tree of process `r` (`ArborX_DistributedTree.hpp` 195-227): its values are the ranks, with the volumes of the bottom trees
gathered from all processes. -/
def DTree.top (D : DTree α V w) (r : ℕ) : Input ℕ V w where
  n := D.P
  values := fun i => i
  vol := fun i => (bounds (D.bottom i) (D.bsched i)).getD ⊥
  code := D.topCode r
  perm := D.topPerm r

/-- The bounds of all bottom trees are available. -/
def DTree.built (D : DTree α V w) : Bool := (List.range D.P).all (fun r => (bounds (D.bottom r) (D.bsched r)).isSome)

/-- The constructions have finished, and the sorting primitive did its job. -/
structure DTree.Valid (D : DTree α V w) : Prop where
  bottom : ∀ r < D.P, (D.bottom r).Valid ∧ (D.bottom r).Finished (D.bsched r)
  top : ∀ r < D.P, (D.top r).Valid ∧ (D.top r).Finished (D.tsched r)

/-- `size()` (64, 236-248): the total number of values. -/
def DTree.size (D : DTree α V w) : ℕ := ((List.range D.P).map (fun r => (D.bottom r).n)).sum

/-- A spatial predicate: its answers for values and for volumes. -/
structure Pred (α V : Type) where
  pl : α → Bool
  pv : V → Bool

/-- `queryDispatch` for spatial predicates with output (`ArborX_DistributedTreeSpatial.hpp` 27-60): offsets and values on each
process. `cb` is the callback, `user r` the previous content of `values`. -/
def DTree.spatial (D : DTree α V w) (E : QEnv) (Lt Lb : ℕ → LEnv) (fuel : ℕ) (cb : Pred α V → α → List T) (user : ℕ → List T)
    (queries : ℕ → List (Pred α V)) : Option (ℕ → List ℕ × List T) :=
  if !D.built then none
  else if D.size = 0 then some (fun r => (List.replicate ((queries r).length + 1) 0, []))
  else
    (collect D.P (fun r => crsQuery .spatial (fun _ => 0) (Lt r)
      (fun q : Pred α V => spatialQuery ((D.top r).build (D.tsched r)) (fun i => q.pv ((D.top r).vol i)) q.pv (fun _ => false) fuel)
      (fun _ i => [(i : ℤ)]) [] (queries r))).bind fun t =>
    forwardAndCommunicate E D.P (fun r qs => crsQuery .spatial (fun _ => 0) (Lb r)
      (fun q : Pred α V => spatialQuery ((D.bottom r).build (D.bsched r)) q.pl q.pv (fun _ => false) fuel) cb (user r) qs)
      queries (fun r => (t r).2) (fun r => (t r).1)

/-- `queryDispatch` for spatial predicates with a pure callback (62-96): for each process and each query it has received, the
query and the values the callback is called on. -/
def DTree.spatialPure (D : DTree α V w) (Es : ℕ → Env) (Lt : ℕ → LEnv) (fuel : ℕ) (queries : ℕ → List (Pred α V)) :
    Option (ℕ → List (Pred α V × Res (List α))) :=
  if !D.built then none
  else if D.size = 0 then some (fun _ => [])
  else
    (collect D.P (fun r => crsQuery .spatial (fun _ => 0) (Lt r)
      (fun q : Pred α V => spatialQuery ((D.top r).build (D.tsched r)) (fun i => q.pv ((D.top r).vol i)) q.pv (fun _ => false) fuel)
      (fun _ i => [(i : ℤ)]) [] (queries r))).bind fun t =>
    (forwardQueriesOnly Es D.P queries (fun r => (t r).2) (fun r => (t r).1)).map fun f r =>
      (f r).map (fun q => (q, spatialQuery ((D.bottom r).build (D.bsched r)) q.pl q.pv (fun _ => false) fuel))

end ArborX.Distributed
