import Verif.Mpi.Model
import Verif.Distributed.NearestModel
import Verif.DistDbscan.Model

/-!
# The program of one process

The distributed functions of the library as programs of one process, which know only the data of this process and what they receive. `k` is what the process does next. What a process computes between two communications is the model of `Verif/Distributed` and
`Verif/DistDbscan`.

Contributions to a collective operation are given to all processes; the code takes what it needs. `MPI_Comm_free` is an operation on another communicator; since all processes call it after the same operation, the model
keeps one sequence of operations.
-/

namespace ArborX.Mpi

open Distributed DistDbscan BVH Traversal

/-- The collective operations, each with the place that calls it. -/
inductive Kind where
  | dup
  | volumes
  | sizes
  | graph
  | free
  | alltoall
  | boxes
  | counts
  | pairCounts
  | pairs
  deriving DecidableEq

/-- Contributions. -/
inductive Contrib (V : Type) where
  | empty
  | volume (v : V)
  | size (n : ℕ)
  | layout (L : Distributed.Layout)
  | pairs (l : List Pair)

/-- Contents of messages: queries or points, ranks or labels, ids, values. -/
inductive Datum (Q T : Type) where
  | query (q : Q)
  | int (z : ℤ)
  | nat (n : ℕ)
  | value (t : T)

/-- The bytes of a type; `dec` fails on bytes of another one. -/
structure Code (X D : Type) where
  enc : X → D
  dec : D → Option X
  dec_enc : ∀ x, dec (enc x) = some x

variable {Q T V : Type}

/-- The types of the messages of a query. -/
structure Codes (Q T D : Type) where
  query : Code Q D
  int : Code ℤ D
  nat : Code ℕ D
  value : Code T D

/-- Each type of its own. -/
def Codes.std : Codes Q T (Datum Q T) :=
  ⟨⟨.query, fun | .query q => some q | _ => none, fun _ => rfl⟩, ⟨.int, fun | .int z => some z | _ => none, fun _ => rfl⟩,
    ⟨.nat, fun | .nat n => some n | _ => none, fun _ => rfl⟩, ⟨.value, fun | .value t => some t | _ => none, fun _ => rfl⟩⟩

/-- Values of two types: of the first one. -/
def Codes.left {T' : Type} : Codes Q T (Datum Q (T ⊕ T')) :=
  ⟨Codes.std.query, Codes.std.int, Codes.std.nat, ⟨fun t => .value (.inl t), fun | .value (.inl t) => some t | _ => none, fun _ => rfl⟩⟩

/-- Of the second one. -/
def Codes.right {T' : Type} : Codes Q T' (Datum Q (T ⊕ T')) :=
  ⟨Codes.std.query, Codes.std.int, Codes.std.nat, ⟨fun t => .value (.inr t), fun | .value (.inr t) => some t | _ => none, fun _ => rfl⟩⟩

/-- Points, labels and ids are all integers: a message can be read as one of another type. -/
def Codes.raw : Codes ℤ ℤ ℤ :=
  ⟨⟨id, some, fun _ => rfl⟩, ⟨id, some, fun _ => rfl⟩, ⟨fun n => n, fun z => if 0 ≤ z then some z.toNat else none, fun n => by simp⟩, ⟨id, some, fun _ => rfl⟩⟩

/-- Programs of the library: messages are arrays whose entries may be uninitialised, the result is `none` if the process fails. -/
abbrev LProg (V D O : Type) := Prog Kind (Contrib V) (List (Option D)) (Option O)

variable {D O β X : Type}

/-- A local computation, which may fail. -/
def localP (o : Option β) (k : β → LProg V D O) : LProg V D O :=
  match o with
  | some b => k b
  | none => .done none

/-- The layout contributed by process `s`. -/
def layouts (xs : List (Contrib V)) (s : ℕ) : Distributed.Layout :=
  match xs[s]? with
  | some (.layout L) => L
  | _ => ⟨[], [], [0]⟩

/-- `createFromSends` (`src/distributed/detail/ArborX_Distributor.hpp` 210-273) with `preparePointToPointCommunication` (445-532): `lay` is the layout this process has computed. -/
def createP (E : Env) (P r : ℕ) (lay : Option Distributed.Layout) (k : Plan → LProg V D O) : LProg V D O :=
  localP lay fun L =>
    if L.destinations.all (fun d => decide (0 ≤ d ∧ d < P)) then
      if E.openMpi then .enter .alltoall (.layout L) fun xs => localP (prepare E P (layouts xs) r) k
      else .enter .graph (.layout L) fun xs => .enter .free .empty fun _ => localP (prepare E P (layouts xs) r) k
    else .done none

/-- The messages of `doPostsAndWaits` (397-406), with their destinations. -/
def sendList (c : Code X D) (E : Env) (r : ℕ) (p : Plan) (permuted : ℕ → Option X) : List (ℕ × List (Option D)) :=
  let sd := if (r : ℤ) ∈ p.layout.destinations then some (p.layout.destinations.idxOf (r : ℤ)) else none
  let comm := exportsComm E p sd permuted
  (List.range p.layout.destinations.length).filterMap fun i =>
    match p.layout.destinations[i]? with
    | some d =>
      if d ≠ (r : ℤ) then
        some (d.toNat, ((List.range (p.layout.destOffsets.getD (i + 1) 0 - p.layout.destOffsets.getD i 0)).map fun j => comm (p.layout.destOffsets.getD i 0 + j)).map (Option.map c.enc))
      else none
    | none => none

/-- What a process reads in a received message. -/
def decode (c : Code X D) (m : List (Option D)) : List (Option X) := m.map fun o => o.bind c.dec

/-- `doPostsAndWaits` (275-440): the imports. -/
def exchangeP (c : Code X D) (E : Env) (r : ℕ) (plan : Plan) (exports : List X) (k : List X → LProg V D O) : LProg V D O :=
  localP (permutedExports E r plan exports) fun permuted =>
    exchange ((plan.sources.filter fun s => decide (s ≠ (r : ℤ))).map Int.toNat) (sendList c E r plan permuted) fun got =>
      localP ((E.arrive r plan.sources.length).foldl (receiveStep r plan (fun s => some ((got s).map (decode c)))) (some (fun _ => none))) fun importsComm =>
        localP ((finish E r plan.imports plan permuted importsComm).bind initialised) k

/-- `forwardQueries` (`src/distributed/detail/ArborX_DistributedTreeUtils.hpp` 49-115). -/
def forwardQueriesP (c : Codes Q T D) (Es : ℕ → Env) (P r : ℕ) (queries : List Q) (ranksTo : List ℤ) (offset : List ℕ) (k : List Q → List ℕ → List ℤ → LProg V D O) : LProg V D O :=
  createP (Es 0) P r (layoutFromRanks (Es 0) ranksTo) fun plan =>
  localP (exportRows ((Es 1).order r queries.length) offset (fun q => queries[q]?)) fun exportQueries =>
  exchangeP c.query (Es 1) r plan exportQueries fun fwdQueries =>
  exchangeP c.int (Es 2) r plan (List.replicate (offset.getLast?.getD 0) (r : ℤ)) fun fwdRanks =>
  localP (exportRows ((Es 3).order r queries.length) offset (fun q => some q)) fun exportIds =>
  exchangeP c.nat (Es 3) r plan exportIds fun fwdIds =>
  k fwdQueries fwdIds fwdRanks

/-- `forwardQueries` without ids and ranks (117-149). -/
def forwardQueriesOnlyP (c : Codes Q T D) (Es : ℕ → Env) (P r : ℕ) (queries : List Q) (ranksTo : List ℤ) (offset : List ℕ) (k : List Q → LProg V D O) : LProg V D O :=
  createP (Es 0) P r (layoutFromRanks (Es 0) ranksTo) fun plan =>
  localP (exportRows ((Es 1).order r queries.length) offset (fun q => queries[q]?)) fun exportQueries =>
  exchangeP c.query (Es 1) r plan exportQueries k

/-- `communicateResultsBack` (151-224). -/
def communicateResultsBackP (c : Codes Q T D) (Es : ℕ → Env) (P r : ℕ) (out : List T) (offset : List ℕ) (ranks : List ℤ) (ids : List ℕ) (k : List ℕ → List T → LProg V D O) : LProg V D O :=
  createP (Es 0) P r (layoutFromBatches ranks offset) fun plan =>
  exchangeP c.int (Es 1) r plan (List.replicate (offset.getLast?.getD 0) (r : ℤ)) fun _ =>
  localP (exportRows ((Es 2).order r (offset.length - 1)) offset (fun q => ids[q]?)) fun exportIds =>
  exchangeP c.nat (Es 2) r plan exportIds fun importIds =>
  exchangeP c.value (Es 3) r plan out fun importOut =>
  k importIds importOut

/-- `forwardQueriesAndCommunicateResults` (226-263). -/
def forwardAndCommunicateP (c : Codes Q T D) (E : QEnv) (P r : ℕ) (bottom : List Q → Option (List ℕ × List T)) (queries : List Q) (ranksTo : List ℤ) (offset : List ℕ)
    (k : List ℕ × List T → LProg V D O) : LProg V D O :=
  forwardQueriesP c E.fwd P r queries ranksTo offset fun fwdQueries fwdIds fwdRanks =>
  localP (bottom fwdQueries) fun b =>
  communicateResultsBackP c E.back P r b.2 b.1 fwdRanks fwdIds fun ids out =>
  localP (mergeResults (E.order r ids) (E.sort r ids) queries.length ids out) k

/-! ## The distributed tree -/

variable {α : Type} {w : ℕ} [SemilatticeSup V] [OrderBot V]

/-- What process `r` has: its values (the bottom tree) and the codes, permutation and schedule of its copy of the top tree. -/
structure Local (α V : Type) (w : ℕ) where
  bottom : Input α V w
  bsched : List ℕ
  topCode : ℕ → BitVec w
  topPerm : ℕ → ℕ
  tsched : List ℕ

/-- The volume contributed by process `s`. -/
def volumeOf (xs : List (Contrib V)) (s : ℕ) : V :=
  match xs[s]? with
  | some (.volume v) => v
  | _ => ⊥

/-- The size contributed by process `s`. -/
def sizeOf' (xs : List (Contrib V)) (s : ℕ) : ℕ :=
  match xs[s]? with
  | some (.size n) => n
  | _ => 0

/-- The top tree over the volumes `vols`. -/
def Local.top (L : Local α V w) (P : ℕ) (vols : ℕ → V) : Input ℕ V w := ⟨P, fun i => i, vols, L.topCode, L.topPerm⟩

/-- The constructor (`src/distributed/ArborX_DistributedTree.hpp` 160-250): continue with the volumes and sizes of the bottom trees of all processes. -/
def constructP (L : Local α V w) (k : (ℕ → V) → (ℕ → ℕ) → LProg V D O) : LProg V D O :=
  .enter .dup .empty fun _ =>
  localP (bounds L.bottom L.bsched) fun v =>
  .enter .volumes (.volume v) fun vs =>
  .enter .sizes (.size L.bottom.n) fun ns =>
  k (volumeOf vs) (sizeOf' ns)

/-- `queryDispatch` for spatial predicates with output (`src/distributed/detail/ArborX_DistributedTreeSpatial.hpp` 27-60). -/
def spatialP (L : Local α V w) (P r : ℕ) (E : QEnv) (Lt Lb : LEnv) (fuel : ℕ) (cb : Pred α V → α → List T) (user : List T) (queries : List (Pred α V))
    (vols : ℕ → V) (sizes : ℕ → ℕ) : LProg V (Datum (Pred α V) T) (List ℕ × List T) :=
  if ((List.range P).map sizes).sum = 0 then .done (some (List.replicate (queries.length + 1) 0, []))
  else
    localP (crsQuery .spatial (fun _ => 0) Lt
      (fun q : Pred α V => spatialQuery ((L.top P vols).build L.tsched) (fun i => q.pv (vols i)) q.pv (fun _ => false) fuel)
      (fun _ i => [(i : ℤ)]) [] queries) fun t =>
    forwardAndCommunicateP .std E P r (fun qs => crsQuery .spatial (fun _ => 0) Lb
      (fun q : Pred α V => spatialQuery (L.bottom.build L.bsched) q.pl q.pv (fun _ => false) fuel) cb user qs)
      queries t.2 t.1 fun res => .done (some res)

/-- `queryDispatch` for spatial predicates with a pure callback (62-96): the queries that arrive and the values the callback is called on. -/
def spatialPureP (L : Local α V w) (P r : ℕ) (Es : ℕ → Env) (Lt : LEnv) (fuel : ℕ) (queries : List (Pred α V))
    (vols : ℕ → V) (sizes : ℕ → ℕ) : LProg V (Datum (Pred α V) T) (List (Pred α V × Res (List α))) :=
  if ((List.range P).map sizes).sum = 0 then .done (some [])
  else
    localP (crsQuery .spatial (fun _ => 0) Lt
      (fun q : Pred α V => spatialQuery ((L.top P vols).build L.tsched) (fun i => q.pv (vols i)) q.pv (fun _ => false) fuel)
      (fun _ i => [(i : ℤ)]) [] queries) fun t =>
    forwardQueriesOnlyP (T := T) .std Es P r queries t.2 t.1 fun f =>
    .done (some (f.map (fun q => (q, spatialQuery (L.bottom.build L.bsched) q.pl q.pv (fun _ => false) fuel))))

variable {K : Type} [LinearOrder K]

/-- The nearest predicate on the top tree with volumes `vols`. -/
def topQueryP (vols : ℕ → V) (q : NPred α V K) : Nearest.Query ℕ V K := ⟨q.q.k, fun i => q.q.dv (vols i), q.q.dv, q.q.zero, q.q.inf, q.q.cap⟩

/-- `phaseI` (`src/distributed/detail/ArborX_DistributedTreeNearest.hpp` 41-126). -/
def phaseIP (c : Codes (NPred α V K) K D) (L : Local α V w) (P r : ℕ) (E : NEnv K) (fuel : ℕ) (queries : List (NPred α V K)) (vols : ℕ → V) (sizes : ℕ → ℕ) (k : List K → LProg V D O) : LProg V D O :=
  localP (crsQuery .nearest (fun q : NPred α V K => q.q.k) (E.top1 r)
    (fun q : NPred α V K => Nearest.nearestQuery ((L.top P vols).build L.tsched) (topQueryP vols q) fuel)
    (fun _ i => [(i : ℤ)]) [] queries) fun t =>
  localP (truncate (E.order r queries.length) sizes queries t.1 t.2) fun t' =>
  forwardAndCommunicateP c E.one P r (fun qs => crsQuery .nearest (fun q : NPred α V K => q.q.k) (E.bottom1 r)
    (fun q : NPred α V K => Nearest.nearestQuery (L.bottom.build L.bsched) q.q fuel)
    (fun q a => [q.q.dl a]) [] qs) queries t'.2 t'.1 fun d =>
  localP (farthest queries d.1 d.2 (E.garbage r)) k

/-- `phaseII` (128-177). -/
def phaseIIP (c : Codes (NPred α V K) (T × K) D) (L : Local α V w) (P r : ℕ) (E : NEnv K) (fuel : ℕ) (cb : NPred α V K → α → T) (queries : List (NPred α V K)) (far : List K) (vols : ℕ → V)
    (k : List ℕ × List T → LProg V D O) : LProg V D O :=
  localP (crsQuery .spatial (fun _ => 0) (E.top2 r)
    (fun q : NPred α V K × K => spatialQuery ((L.top P vols).build L.tsched) (fun i => q.1.within q.2 (vols i)) (q.1.within q.2) (fun _ => false) fuel)
    (fun _ i => [(i : ℤ)]) [] (queries.zip far)) fun t =>
  forwardAndCommunicateP c E.two P r (fun qs => crsQuery .nearest (fun q : NPred α V K => q.q.k) (E.bottom2 r)
    (fun q : NPred α V K => Nearest.nearestQuery (L.bottom.build L.bsched) q.q fuel)
    (fun q a => [(cb q a, q.q.dl a)]) [] qs) queries t.2 t.1 fun d =>
  localP (filterResults (E.order r queries.length) queries d.1 d.2) k

/-- `queryDispatch` for nearest predicates (179-269). The values of the first phase are distances, those of the second one pairs of outputs and distances. -/
def nearestP (L : Local α V w) (P r : ℕ) (withCallback asserts : Bool) (E : NEnv K) (fuel : ℕ) (cb : NPred α V K → α → T) (queries : List (NPred α V K))
    (vols : ℕ → V) (sizes : ℕ → ℕ) : LProg V (Datum (NPred α V K) (K ⊕ (T × K))) (List ℕ × List T) :=
  if ((List.range P).map sizes).sum = 0 ∧ withCallback then .done (some (List.replicate (queries.length + 1) 0, []))
  else if ((List.range P).map sizes).sum = 0 ∧ asserts then .done none
  else phaseIP .left L P r E fuel queries vols sizes fun far => phaseIIP .right L P r E fuel cb queries far vols fun res => .done (some res)

/-! ## Distributed DBSCAN -/

variable {X : Type}

/-- `computeRanksTo` (`src/cluster/detail/ArborX_DistributedDBSCANHelpers.hpp` 233-281) with the boxes of all processes. `G` are the arguments of the process, which has the points `G.points r`. -/
def ranksToP (G : In X V) (box : ℕ → V) (E : XEnv X w) (fuel r : ℕ) : Option (List ℕ × List ℤ) :=
  (scanWrites (E.scan r G.P) G.P G.P (fun i => if i = r ∨ G.close (box i) (box r) = false then [] else [i])).bind fun prims =>
  crsQuery .spatial (fun _ => 0) (E.query r)
    (fun p : X => spatialQuery ((⟨prims.length, fun i => prims.getD i 0, box, E.code r, E.perm r⟩ : Input ℕ V w).build (E.tsched r)) (fun i => G.hit p (box i)) (G.hit p) (fun _ => false) fuel)
    (fun _ i => [(i : ℤ)]) [] (G.points r)

/-- `forwardNeighbors` (283-355): the ghost points, ids and ranks. -/
def forwardNeighborsP (c : Codes X T D) (G : In X V) (E : XEnv X w) (fuel r : ℕ) (k : List X → List ℕ → List ℤ → LProg V D O) : LProg V D O :=
  .enter .boxes (.volume (G.box r)) fun bs =>
  localP (ranksToP G (volumeOf bs) E fuel r) fun t =>
  createP (E.fwd 0) G.P r (layoutFromRanks (E.fwd 0) t.2) fun plan =>
  localP (exportRows ((E.fwd 1).order r (G.points r).length) t.1 (fun q => (G.points r)[q]?)) fun exportPoints =>
  exchangeP c.query (E.fwd 1) r plan exportPoints fun points =>
  localP (exportRows ((E.fwd 2).order r (G.points r).length) t.1 (fun q => some q)) fun exportIds =>
  exchangeP c.nat (E.fwd 2) r plan exportIds fun ids =>
  exchangeP c.int (E.fwd 3) r plan (List.replicate t.2.length (r : ℤ)) fun ranks =>
  k points ids ranks

/-- `convertLocalToGlobal` for one label (166-179), `count` the numbers of points of all processes. -/
def globalLabelP (count : ℕ → ℕ) (r n : ℕ) (ids : List ℕ) (ranks : List ℤ) (label : ℤ) : Option ℤ :=
  if label = -1 then some (-1)
  else if label < n then some (Crs.scan count r + label)
  else (ranks[(label - n).toNat]?).bind fun rk => (ids[(label - n).toNat]?).map fun id => ((Crs.scan count rk.toNat + id : ℕ) : ℤ)

/-- `communicateNeighborDataBack` (357-389). -/
def communicateBackP (c : Codes X T D) (E : XEnv X w) (P r : ℕ) (entries : List (ℤ × ℕ × ℤ)) (k : List ℕ → List ℤ → LProg V D O) : LProg V D O :=
  createP (E.back 0) P r (layoutFromRanks (E.back 0) (entries.map (·.1))) fun plan =>
  exchangeP c.nat (E.back 1) r plan (entries.map (·.2.1)) fun ids =>
  exchangeP c.int (E.back 2) r plan (entries.map (·.2.2)) fun labels =>
  k ids labels

/-- The merge pairs contributed by process `s`. -/
def pairsFrom (xs : List (Contrib V)) (s : ℕ) : List Pair :=
  match xs[s]? with
  | some (.pairs l) => l
  | _ => []

/-- `communicateMergePairs` (562-613). -/
def communicateMergePairsP (P : ℕ) (pairs : List Pair) (k : List Pair → LProg V D O) : LProg V D O :=
  .enter .pairCounts (.size pairs.length) fun _ =>
  .enter .pairs (.pairs pairs) fun ps =>
  k ((List.range P).flatMap (pairsFrom ps))

/-- `dbscan` (`src/cluster/ArborX_DistributedDBSCAN.hpp` 29-196) on process `r`: the labels of its points. -/
def dbscanP (c : Codes X T D) (G : In X V) (E : XEnv X w) (queryFuel fuel r : ℕ) : LProg V D (List ℤ) :=
  if G.minPts < 2 then .done none
  else
    forwardNeighborsP c G E queryFuel r fun ghosts ids ranks =>
    localP (E.dbscan r (G.points r ++ ghosts)) fun l =>
    .enter .counts (.size (G.points r).length) fun ns =>
    localP (initialised (l.map (globalLabelP (sizeOf' ns) r (G.points r).length ids ranks))) fun labels =>
    localP (compressGhosts E r ids ranks (labels.drop (G.points r).length)) fun entries =>
    communicateBackP c E G.P r entries fun ids' labels' =>
    localP (G.resolve E r ghosts (labels.take (G.points r).length) ids' labels') fun res =>
    localP (sortAndFilter (E.merge.localOrder r res.1.length) res.1) fun filtered =>
    communicateMergePairsP G.P filtered fun all =>
    localP (sortAndFilter (E.merge.globalOrder r all.length) all) fun pairs =>
    localP (initialised (res.2.map (relabelLoop pairs fuel))) fun out =>
    .done (some out)

end ArborX.Mpi
