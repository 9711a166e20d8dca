import Verif.Async.Model

/-!
# The functions of the library as asynchronous programs

Queue 0 is that of the execution space of the caller; every request of MPI has a queue of its own. What the kernels compute is arbitrary: `E n` is the effect of the operation numbered `n`. Arrays of the device and of the host are locations.
-/

namespace ArborX.Async

variable {L V : Type}

/-- `space.fence()`; also the end of a reduction or scan with a result on the host. -/
def fence (k : Prog L V) : Prog L V := .wait (fun s => s == 0) k

/-- `MPI_Waitall`: the end of all requests. -/
def waitall (k : Prog L V) : Prog L V := .wait (fun s => s != 0) k

/-- Kernels launched before. -/
def launchAll : List (Op L V) → Prog L V → Prog L V
  | [], k => k
  | o :: l, k => .launch 0 o (launchAll l k)

/-- `KokkosExt::lastElement` (`src/kokkos_ext/ArborX_KokkosExtViewHelpers.hpp` 30-43): copy to a variable of the host, fence, return the variable. -/
def lastElement (copy : Op L V) (host : L) (k : List V → Prog L V) : Prog L V := .launch 0 copy (fence (.test [host] k))

/-- `parallel_reduce` and `parallel_scan` with a result on the host, followed by code that depends on it. -/
def reduce (o : Op L V) (host : L) (k : List V → Prog L V) : Prog L V := .launch 0 o (fence (.test [host] k))

/-! ## Queries with results in the CSR format -/

inductive CrsLoc | tree | predicates | permute | offset | counts | out | newOut | oldOffset | overflow | results | last
  deriving DecidableEq

open CrsLoc in
/-- `CrsGraphWrapperImpl::queryImpl` (`src/spatial/detail/ArborX_CrsGraphWrapperImpl.hpp` 143-322). `pre`: a buffer was allocated in advance; `isOver`, `isUnder`, `isZero`: the tests of the numbers read by the host. -/
def crsQuery (E : ℕ → List V → CrsLoc → V) (pre : Bool) (isOver isUnder isZero : List V → Bool) : Prog CrsLoc V :=
  .launch 0 ⟨[], [counts], E 0⟩ <|
  if pre then
    .launch 0 ⟨[tree, predicates, permute, offset, counts, out], [counts, out], E 1⟩ <|
    reduce ⟨[counts, offset, permute], [overflow], E 2⟩ overflow fun o =>
    if isOver o then post true false
    else reduce ⟨[counts], [results], E 3⟩ results fun r =>
      if isUnder r then .launch 0 ⟨[offset], [oldOffset], E 4⟩ (post false true) else post false false
  else
    .launch 0 ⟨[tree, predicates, permute, counts], [counts], E 5⟩ (post true false)
where
  /-- Lines 226-321. -/
  post (over under : Bool) : Prog CrsLoc V :=
    .launch 0 ⟨[counts, permute, offset], [offset], E 6⟩ <|
    .launch 0 ⟨[offset], [offset], E 7⟩ <|
    lastElement ⟨[offset], [last], E 8⟩ last fun n =>
    if isZero n then .done
    else if over then
      .launch 0 ⟨[offset, permute], [counts], E 9⟩ <|
      .launch 0 ⟨[tree, predicates, permute, counts], [counts, newOut], E 10⟩ .done
    else if under then .launch 0 ⟨[offset, oldOffset, out], [newOut], E 11⟩ .done
    else .done

/-! ## Distributor -/

inductive LayoutLoc | ranks | offsets | compactRanks | compactOffsets | numUnique | last | ranksHost | offsetsHost | layout
  deriving DecidableEq

open LayoutLoc in
/-- `determineBufferLayout` (`src/distributed/detail/ArborX_Distributor.hpp` 39-126). -/
def determineBufferLayout (E : ℕ → List V → LayoutLoc → V) (isZero : List V → Bool) : Prog LayoutLoc V :=
  lastElement ⟨[offsets], [last], E 0⟩ last fun n =>
  if isZero n then .done
  else
    reduce ⟨[ranks, offsets], [compactRanks, compactOffsets, numUnique], E 1⟩ numUnique fun _ =>
    .launch 0 ⟨[compactRanks], [ranksHost], E 2⟩ <|
    .launch 0 ⟨[compactOffsets], [offsetsHost], E 3⟩ <|
    fence <|
    .host ⟨[ranksHost, offsetsHost], [layout], E 4⟩ .done

inductive SortLoc | ranks | duplicate | largest | result | indices | layout
  deriving DecidableEq

open SortLoc in
/-- The loop of `sortAndDetermineBufferLayout` (131-197). `isLast`: the largest rank is -1. The loop ends after `n` rounds at the latest, since each removes a rank. -/
def sortLoop (E : ℕ → List V → SortLoc → V) (isLast : List V → Bool) : ℕ → Prog SortLoc V
  | 0 => .done
  | n + 1 =>
    reduce ⟨[duplicate], [largest], E 1⟩ largest fun r =>
    if isLast r then .done
    else
      reduce ⟨[duplicate, largest, layout], [indices, duplicate, result], E 2⟩ result fun _ =>
      .host ⟨[largest, result, layout], [layout], E 3⟩ (sortLoop E isLast n)

/-- `sortAndDetermineBufferLayout`, up to the copy of the indices. -/
def sortAndDetermineBufferLayout (E : ℕ → List V → SortLoc → V) (isLast : List V → Bool) (n : ℕ) : Prog SortLoc V :=
  .launch 0 ⟨[.ranks], [.duplicate], E 0⟩ (sortLoop E isLast n)

inductive MsgLoc | exports | permute | permuted | exportsComm | importsComm (i : ℕ) | imports (i : ℕ) | wire (i : ℕ)
  deriving DecidableEq

/-- What `doPostsAndWaits` computes with: the permuted data, the data sent to destination `i`, the part kept on the process, and the message received from source `i`. -/
structure Messages (V : Type) where
  apply : V → V → V
  sent : ℕ → V → V
  kept : V → V
  received : ℕ → V

section
variable [Inhabited V]

/-- An operation that applies `f` to one location. -/
def unary (f : V → V) (r w : L) : Op L V := ⟨[r], [w], fun v _ => f (v.getD 0 default)⟩

/-- `Kokkos::deep_copy(space, w, r)`. -/
def copy (r w : L) : Op L V := unary id r w

open MsgLoc

/-- `MPI_Irecv` from the sources in a list (379-391). -/
def receives (C : Messages V) (into : ℕ → MsgLoc) : List ℕ → Prog MsgLoc V → Prog MsgLoc V
  | [], k => k
  | i :: l, k => .launch (1 + 2 * i) ⟨[], [into i], fun _ _ => C.received i⟩ (receives C into l k)

/-- `MPI_Isend` to the destinations in a list (397-406); `wire i` is what is sent. -/
def sends (C : Messages V) (data : MsgLoc) : List ℕ → Prog MsgLoc V → Prog MsgLoc V
  | [], k => k
  | i :: l, k => .launch (2 + 2 * i) (unary (C.sent i) data (wire i)) (sends C data l k)

/-- The copies of the received messages to the device (431-437). -/
def copyImports : List ℕ → Prog MsgLoc V → Prog MsgLoc V
  | [], k => k
  | i :: l, k => .launch 0 (copy (importsComm i) (imports i)) (copyImports l k)

/-- The copy of the part of the data that stays on the process (411-424). -/
def keep (C : Messages V) (data : MsgLoc) : Option ℕ → List (Op MsgLoc V)
  | some i => [unary C.kept data (imports i)]
  | none => []

/-- `MPI_Waitall` and the copies after it (407-438). -/
def finishExchange (C : Messages V) (mirror : Bool) (data : MsgLoc) (src : List ℕ) (self : Option ℕ) : Prog MsgLoc V :=
  waitall <|
  launchAll (keep C data self) <|
  if mirror then copyImports src .done else .done

/-- `doPostsAndWaits` (292-440). `mirror`: buffers on the host are used for the communication (not `ARBORX_ENABLE_GPU_AWARE_MPI`, and the data is not on the host); `permutation`: a permutation is necessary; `src`, `dst`: the other processes
messages are received from and sent to; `self`: the position of the process itself among the sources. Simplification: the part of the data that stays is copied to the host buffer as well. -/
def doPostsAndWaits (C : Messages V) (mirror permutation : Bool) (src dst : List ℕ) (self : Option ℕ) : Prog MsgLoc V :=
  let data := if permutation then permuted else exports
  let sendBuffer := if mirror then exportsComm else data
  let receiveBuffer := if mirror then importsComm else imports
  launchAll (if permutation then [⟨[permute, exports], [permuted], fun v _ => C.apply (v.getD 0 default) (v.getD 1 default)⟩] else []) <|
  launchAll (if mirror then [copy data exportsComm] else []) <|
  receives C receiveBuffer src <|
  fence <|
  sends C sendBuffer dst <|
  finishExchange C mirror data src self

/-! ## Construction of trees -/

inductive TreeLoc | values | scene | codes | nodes | temporary | bounds | answer | volumesHost | gathered | volumes | topTree
  deriving DecidableEq

/-- What the construction computes with: the volume of the scene, the codes, the nodes, the volume of the root, the volumes gathered from all processes (given that of this process), and the top tree. -/
structure Building (V : Type) where
  scene : V → V
  codes : V → V → V
  nodes : V → V → V
  root : V → V
  gather : V → V
  top : V → V

open TreeLoc

/-- The constructor of `BoundingVolumeHierarchy` for two or more values (`src/spatial/ArborX_LinearBVH.hpp` 196-254): the scene is computed by a reduction with a result on the host (`calculateBoundingBoxOfTheScene`, `src/spatial/detail/ArborX_TreeConstruction.hpp` 24-38),
then the codes and the hierarchy are computed and the volume of the root is copied to the member `_bounds` of the object (101-113), here location `obj`. There is no fence after the last copy. -/
def construct (B : Building V) (obj : TreeLoc) (k : Prog TreeLoc V) : Prog TreeLoc V :=
  .launch 0 (unary B.scene values scene) <|
  fence <|
  .launch 0 ⟨[scene, values], [codes], fun v _ => B.codes (v.getD 0 default) (v.getD 1 default)⟩ <|
  .launch 0 ⟨[codes, values], [nodes], fun v _ => B.nodes (v.getD 0 default) (v.getD 1 default)⟩ <|
  .launch 0 (unary B.root nodes obj) k

/-- `bounds()` (`src/spatial/ArborX_LinearBVH.hpp` 82): the host reads the member. -/
def readBounds (k : Prog TreeLoc V) : Prog TreeLoc V := .host (copy bounds answer) k

/-- A tree is constructed and `bounds()` is called; `fenced`: the user calls `space.fence()` in between. -/
def constructThenBounds (B : Building V) (fenced : Bool) : Prog TreeLoc V :=
  construct B bounds (if fenced then fence (readBounds .done) else readBounds .done)

/-- The constructor of `DistributedTree` (`src/distributed/ArborX_DistributedTree.hpp` 183-227), without GPU-aware MPI: a temporary tree is constructed and moved to `_bottom_tree`, its volume is written to the host array, gathered from all processes, copied to the device,
and the top tree is built. `f` and `g` are places where the fences missing in the code could be: before and after the move. -/
def distributedTree (B : Building V) (f g : Prog TreeLoc V → Prog TreeLoc V) : Prog TreeLoc V :=
  construct B temporary <|
  f <|
  .host (copy temporary bounds) <|
  g <|
  .host (copy bounds volumesHost) <|
  .host (unary B.gather volumesHost gathered) <|
  .launch 0 (copy gathered volumes) <|
  .launch 0 (unary B.top volumes topTree) .done

/-- The same with GPU-aware MPI (205-213). -/
def distributedTreeAware (B : Building V) (f g : Prog TreeLoc V → Prog TreeLoc V) : Prog TreeLoc V :=
  construct B temporary <|
  f <|
  .host (copy temporary bounds) <|
  g <|
  .launch 0 (copy bounds gathered) <|
  fence <|
  .host (unary B.gather gathered volumes) <|
  .launch 0 (unary B.top volumes topTree) .done

/-! ## Distributed DBSCAN -/

inductive LabelLoc | counts | offsets | rankOffsets | localLabels | labels
  deriving DecidableEq

open LabelLoc in
/-- `convertLocalToGlobal` (`src/cluster/detail/ArborX_DistributedDBSCANHelpers.hpp` 133-180): the offsets are computed on the host in a `std::vector`, copied to the device, used by a kernel, and the vector is destroyed when the function returns: its memory may then have any content (`garbage`).
`f` is the place where the fence missing in the code could be. -/
def convertLocalToGlobal (offs : V → V) (convert : V → V → V) (garbage : V) (f : Prog LabelLoc V → Prog LabelLoc V) : Prog LabelLoc V :=
  .host (unary offs counts offsets) <|
  .launch 0 (copy offsets rankOffsets) <|
  .launch 0 ⟨[rankOffsets, localLabels], [labels], fun v _ => convert (v.getD 0 default) (v.getD 1 default)⟩ <|
  f <|
  .host ⟨[], [offsets], fun _ _ => garbage⟩ .done

end

inductive GatherLoc | points | localData | host | device
  deriving DecidableEq

open GatherLoc in
/-- `gatherGlobalBoxes` (182-231), with (`aware`) and without GPU-aware MPI; `MPI_Allgather` is executed by the host. -/
def gatherGlobalBoxes (E : ℕ → List V → GatherLoc → V) (aware : Bool) : Prog GatherLoc V :=
  .launch 0 ⟨[points], [localData], E 0⟩ <|
  fence <|
  if aware then
    .launch 0 ⟨[localData], [device], E 1⟩ <| fence <| .host ⟨[device], [device], E 2⟩ .done
  else
    .host ⟨[localData], [host], E 3⟩ <| .host ⟨[host], [host], E 4⟩ <| .launch 0 ⟨[host], [device], E 5⟩ .done

open GatherLoc in
/-- `communicateMergePairs` (562-613): here the local data is on the device. -/
def communicateMergePairs (E : ℕ → List V → GatherLoc → V) (aware : Bool) : Prog GatherLoc V :=
  if aware then
    .launch 0 ⟨[localData], [device], E 1⟩ <| fence <| .host ⟨[device], [device], E 2⟩ .done
  else
    .launch 0 ⟨[localData], [host], E 3⟩ <| fence <| .host ⟨[host], [host], E 4⟩ <| .launch 0 ⟨[host], [device], E 5⟩ .done

/-! ## Minimum spanning tree and dendrogram -/

inductive MstLoc | labels | weights | radii | outEdges | lowerBounds | edges | mapping | numEdges | numEdgesHost | offsetsHost | sided | parents | offsetsDevice | chains | numChains | numLevels
  deriving DecidableEq

open MstLoc in
/-- The loop of `doBoruvka` (`src/cluster/ArborX_MinimumSpanningTree.hpp` 192-269). `hdbscan`: the dendrogram is built as well; `more`: there is more than one component. The loop ends after `n` rounds, since each joins components. `fin` is the code after the loop. -/
def boruvkaLoop (E : ℕ → List V → MstLoc → V) (hdbscan : Bool) (more : List V → Bool) (fin : Prog MstLoc V) : ℕ → Prog MstLoc V
  | 0 => fin
  | n + 1 =>
    .launch 0 ⟨[labels], [labels], E 0⟩ <|
    .launch 0 ⟨[], [outEdges, weights, radii], E 1⟩ <|
    .launch 0 ⟨[labels, radii], [radii], E 2⟩ <|
    .launch 0 ⟨[labels, weights, outEdges, radii, lowerBounds], [weights, outEdges, radii, lowerBounds], E 3⟩ <|
    .launch 0 ⟨[labels, outEdges, edges, numEdges], [edges, mapping, numEdges], E 4⟩ <|
    .launch 0 ⟨[numEdges], [numEdgesHost], E 5⟩ <|
    fence <|
    .host ⟨[numEdgesHost, offsetsHost], [offsetsHost], E 6⟩ <|
    launchAll (if hdbscan then [⟨[labels, outEdges, mapping], [mapping], E 7⟩, ⟨[labels, edges, mapping, outEdges], [sided, parents], E 8⟩] else []) <|
    .launch 0 ⟨[labels, outEdges], [labels], E 9⟩ <|
    .test [numEdgesHost] fun v => if more v then boruvkaLoop E hdbscan more fin n else fin

open MstLoc in
/-- The code after the loop in the mode with a dendrogram (281-312): the offsets of the rounds, in a `std::vector`, are copied to the device; `computeParentsAndReorderEdges` (`src/cluster/detail/ArborX_BoruvkaHelpers.hpp` 590-735) waits for the results of two scans, and only then
the vector is destroyed. -/
def boruvkaDendrogram (E : ℕ → List V → MstLoc → V) : Prog MstLoc V :=
  .launch 0 ⟨[sided], [sided], E 10⟩ <|
  .launch 0 ⟨[offsetsHost], [offsetsDevice], E 11⟩ <|
  reduce ⟨[sided, edges, parents, offsetsDevice], [parents, edges, chains, numChains], E 12⟩ numChains fun _ =>
  reduce ⟨[chains, offsetsDevice], [chains, numLevels], E 13⟩ numLevels fun _ =>
  .launch 0 ⟨[edges], [weights], E 14⟩ <|
  .host ⟨[], [offsetsHost], E 15⟩ .done

/-- `doBoruvka`. -/
def boruvka (E : ℕ → List V → MstLoc → V) (hdbscan : Bool) (more : List V → Bool) (n : ℕ) : Prog MstLoc V :=
  boruvkaLoop E hdbscan more (if hdbscan then boruvkaDendrogram E else .done) n

inductive DendLoc | edges | edgesHost | labelsHost | setEdgesHost | parentsHost | parents
  deriving DecidableEq

open DendLoc in
/-- `dendrogramUnionFind` (`src/cluster/detail/ArborX_DendrogramHelpers.hpp` 29-117). Queue 1 is that of the default execution space of the host. `mirror`: the data is not on the host; `create_mirror_view_and_copy` waits for all queues and for its copy. -/
def dendrogramUnionFind (E : ℕ → List V → DendLoc → V) (mirror : Bool) : Prog DendLoc V :=
  let edgesAt := if mirror then edgesHost else edges
  let parentsAt := if mirror then parentsHost else parents
  (fun k => if mirror then .wait (fun _ => true) (.host ⟨[edges], [edgesHost], E 0⟩ k) else k) <|
  .launch 1 ⟨[], [labelsHost], E 1⟩ <|
  .launch 1 ⟨[], [setEdgesHost], E 2⟩ <|
  .wait (fun _ => true) <|
  .host ⟨[edgesAt, labelsHost, setEdgesHost], [labelsHost, setEdgesHost, parentsAt], E 3⟩ <|
  if mirror then .launch 0 ⟨[parentsHost], [parents], E 4⟩ .done else .done

end ArborX.Async
