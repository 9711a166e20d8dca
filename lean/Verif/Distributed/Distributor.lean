import Verif.Perm.Model
import Verif.Crs.Model
import Mathlib.Data.List.Sort
import Mathlib.Algebra.BigOperators.Group.List.Basic

/-!
# Model of the `Distributor`

Models `src/distributed/detail/ArborX_Distributor.hpp`. There are `P` processes; `dest s` and
`exports s` are the arguments of process `s`. The collective calls of MPI are given by their
specification as functions of the arguments of all processes; what MPI and the threads of the
processes may do in different ways is collected in `Env`. Buffers are functions to `Option`, `none` being
uninitialised memory. A result `none` is a failed assertion, an invalid MPI call, or a process that waits for ever.

Simplification: the messages of one exchange do not mix with the messages of another one. MPI guarantees
this because messages between two processes do not overtake each other and each process takes part in
the same exchanges in the same order.
-/

namespace ArborX.Distributed

/-- What differs between executions. `nbr r l` is the order in which `MPI_Dist_graph_neighbors` returns the
sources `l` of process `r`; `arrive r m` is the order in which the `m` messages to process `r` arrive; `order r n`
is the order of the iterations of a loop of `n` iterations on process `r`; `garbage n` is the content of an
uninitialised array. `openMpi` is the
preprocessor condition at 450-452; `direct` says that the communication uses the given buffers, with GPU-aware MPI or because
`create_mirror_view` returns a view that is already on the host. -/
structure Env where
  openMpi : Bool
  direct : Bool
  nbr : ℕ → List (ℤ × ℕ) → List (ℤ × ℕ)
  arrive : ℕ → ℕ → List ℕ
  order : ℕ → ℕ → List ℕ
  garbage : ℕ → List ℕ

/-- What MPI and Kokkos guarantee. -/
structure Env.Valid (E : Env) : Prop where
  nbr : ∀ r l, (E.nbr r l).Perm l
  arrive : ∀ r m, (E.arrive r m).Perm (List.range m)
  order : ∀ r n, (E.order r n).Perm (List.range n)
  garbage : ∀ n, (E.garbage n).length = n

/-- `_permute`, `_destinations` and `_dest_offsets`. -/
structure Layout where
  permute : List ℕ
  destinations : List ℤ
  destOffsets : List ℕ

/-- `max_reduce`. -/
def maxReduce (l : List ℤ) : ℤ := l.foldr max (-2 ^ 31)

/-- `minmax_reduce`, the minimum. -/
def minReduce (l : List ℤ) : ℤ := l.foldr min (2 ^ 31 - 1)

/-- The `parallel_scan` at lines 175-191, `u` the value of `update` before the first item of the lists:
the new `device_ranks_duplicate`, the new `device_permutation_indices` and the total. -/
def scanItems (largest : ℤ) (offset : ℕ) : ℕ → List ℤ → List ℕ → List ℤ × List ℕ × ℕ
  | u, r :: rs, p :: ps =>
    if r = largest then
      let t := scanItems largest offset (u + 1) rs ps
      (-1 :: t.1, (u + offset) :: t.2.1, t.2.2)
    else
      let t := scanItems largest offset u rs ps
      (r :: t.1, p :: t.2.1, t.2.2)
  | u, rs, ps => (rs, ps, u)

/-- The loop of `sortAndDetermineBufferLayout` (132-197). -/
def sortLoop : ℕ → List ℤ → List ℕ → ℕ → List ℤ → List ℕ → Option Layout
  | 0, _, _, _, _, _ => none
  | fuel + 1, dup, perm, offset, unique, offsets =>
    let largest := maxReduce dup
    if largest = -1 then
      if offsets.getLast? = some dup.length then some ⟨perm, unique, offsets⟩ else none
    else
      let t := scanItems largest offset 0 dup perm
      sortLoop fuel t.1 t.2.1 (offset + t.2.2) (unique ++ [largest]) (offsets ++ [offset + t.2.2])

/-- `createFromSends(space, destination_ranks)` (233-273) up to the communication. -/
def layoutFromRanks (E : Env) (dest : List ℤ) : Option Layout :=
  let n := dest.length
  if n = 0 then some ⟨[], [], [0]⟩
  else
    let smallest := minReduce dest
    let largest := maxReduce dest
    if smallest = largest then some ⟨[], [smallest], [0, n]⟩
    else sortLoop (n + 1) dest (E.garbage n) 0 [] [0]

/-- The `parallel_scan` of `determineBufferLayout` (80-95): pairs of `compact_ranks` and `compact_offsets`,
from the batched ranks and `batched_offsets(i + 1)`. -/
def compact : List ℤ → List ℕ → List (ℤ × ℕ)
  | [r], o :: _ => [(r, o)]
  | r :: r' :: rs, o :: os => if r' ≠ r then (r, o) :: compact (r' :: rs) os else compact (r' :: rs) os
  | _, _ => []

/-- The loop at 116-125, `prev` the previous offset. -/
def dropEmpty : ℕ → List (ℤ × ℕ) → List (ℤ × ℕ)
  | _, [] => []
  | prev, (r, o) :: l => if o - prev > 0 then (r, o) :: dropEmpty o l else dropEmpty o l

/-- `createFromSends(space, batched_destination_ranks, batch_offsets)` with `determineBufferLayout`
(38-126, 210-231) up to the communication. -/
def layoutFromBatches (ranks : List ℤ) (offsets : List ℕ) : Option Layout :=
  if ranks.length + 1 ≠ offsets.length then none
  else if ranks.length = 0 ∨ offsets.getLast? = some 0 then some ⟨[], [], [0]⟩
  else
    let l := dropEmpty 0 (compact ranks offsets.tail)
    some ⟨[], l.map (·.1), 0 :: l.map (·.2)⟩

/-- `_dest_offsets[i + 1] - _dest_offsets[i]` for all `i` (464-465, 483-485). -/
def Layout.weights (L : Layout) : List ℕ :=
  (List.range L.destinations.length).map (fun i => L.destOffsets.getD (i + 1) 0 - L.destOffsets.getD i 0)

/-- `src_counts_dense` before the exchange (460-466). -/
def denseCounts (P : ℕ) (L : Layout) : List ℕ :=
  (L.destinations.zip L.weights).foldl (fun c e => c.set e.1.toNat e.2) (List.replicate P 0)

/-- Partial sums, starting with `o`. -/
def offsetsFrom (o : ℕ) : List ℕ → List ℕ
  | [] => [o]
  | w :: ws => o :: offsetsFrom (o + w) ws

/-- `_sources` with their weights on process `r` (`preparePointToPointCommunication`, 445-532). Old OpenMPI: `MPI_Alltoall`
and the loop at 471-476. Otherwise: the edges of the graph that end in `r`, in the order of MPI, then sorted. -/
def sourcesOf (E : Env) (P : ℕ) (L : ℕ → Layout) (r : ℕ) : List (ℤ × ℕ) :=
  if E.openMpi then
    (List.range P).filterMap (fun s =>
      let c := (denseCounts P (L s)).getD r 0
      if c > 0 then some ((s : ℤ), c) else none)
  else
    (E.nbr r ((List.range P).flatMap (fun s =>
      (((L s).destinations.zip (L s).weights).filter (fun e => decide (e.1 = (r : ℤ)))).map (fun e => ((s : ℤ), e.2))))).insertionSort
      (fun a b => a.1 ≤ b.1)

/-- A `Distributor` after `createFromSends`. -/
structure Plan where
  layout : Layout
  sources : List ℤ
  srcOffsets : List ℕ

/-- `preparePointToPointCommunication`: the distributors of all processes. `none` for a rank out of range. -/
def prepare (E : Env) (P : ℕ) (L : ℕ → Layout) (r : ℕ) : Option Plan :=
  if (List.range P).all (fun s => (L s).destinations.all (fun d => decide (0 ≤ d ∧ d < P))) then
    let src := sourcesOf E P L r
    some ⟨L r, src.map (·.1), offsetsFrom 0 (src.map (·.2))⟩
  else none

/-- `createFromSends(space, destination_ranks)` (233-273): the distributor of process `r`, `dest` the arguments of all
processes. `none` if a process fails. -/
def createFromSends (E : Env) (P : ℕ) (dest : ℕ → List ℤ) (r : ℕ) : Option Plan :=
  if (List.range P).all (fun s => (layoutFromRanks E (dest s)).isSome) then
    prepare E P (fun s => (layoutFromRanks E (dest s)).getD ⟨[], [], [0]⟩) r
  else none

/-- `createFromSends(space, batched_destination_ranks, batch_offsets)` (210-231). -/
def createFromBatches (E : Env) (P : ℕ) (ranks : ℕ → List ℤ) (offsets : ℕ → List ℕ) (r : ℕ) : Option Plan :=
  if (List.range P).all (fun s => (layoutFromBatches (ranks s) (offsets s)).isSome) then
    prepare E P (fun s => (layoutFromBatches (ranks s) (offsets s)).getD ⟨[], [], [0]⟩) r
  else none

/-- `getTotalReceiveLength`, also returned by `createFromSends`. -/
def Plan.imports (p : Plan) : ℕ := p.srcOffsets.getLast?.getD 0

variable {T : Type}

/-- `deep_copy` of the interval `[a, b)`. -/
def copyRange (a b : ℕ) (src dst : ℕ → Option T) : ℕ → Option T := fun i => if a ≤ i ∧ i < b then src i else dst i

/-- `permuted_exports` (307-330) with the assertions. -/
def permutedExports (E : Env) (r : ℕ) (p : Plan) (exports : List T) : Option (ℕ → Option T) :=
  let necessary := !p.layout.permute.isEmpty
  if (necessary && decide (exports.length ≠ p.layout.permute.length)) ||
      decide (p.layout.destOffsets.getLast? ≠ some exports.length) then none
  else if necessary then
    Perm.applyInversePermutation p.layout.permute.length (fun i => p.layout.permute.getD i 0) exports.length
      (fun i => exports[i]?) exports.length (fun _ => none) (E.order r exports.length)
  else some (fun i => exports[i]?)

/-- `exports_comm` (353-374); `sd` is `same_rank_destination`. -/
def exportsComm (E : Env) (p : Plan) (sd : Option ℕ) (permuted : ℕ → Option T) : ℕ → Option T :=
  if E.direct then permuted
  else match sd with
    | some j =>
      copyRange (p.layout.destOffsets.getD (j + 1) 0) (p.layout.destOffsets.getLast?.getD 0) permuted
        (copyRange 0 (p.layout.destOffsets.getD j 0) permuted (fun _ => none))
    | none => copyRange 0 (p.layout.destOffsets.getLast?.getD 0) permuted (fun _ => none)

/-- The messages process `s` sends to process `r` (397-406). -/
def messages (E : Env) (s r : ℕ) (p : Plan) (exports : List T) : Option (List (List (Option T))) :=
  (permutedExports E s p exports).map (fun permuted =>
    let sd := if (s : ℤ) ∈ p.layout.destinations then some (p.layout.destinations.idxOf (s : ℤ)) else none
    let comm := exportsComm E p sd permuted
    (List.range p.layout.destinations.length).filterMap (fun i =>
      if p.layout.destinations[i]? = some (r : ℤ) ∧ r ≠ s then
        some ((List.range (p.layout.destOffsets.getD (i + 1) 0 - p.layout.destOffsets.getD i 0)).map
          (fun k => comm (p.layout.destOffsets.getD i 0 + k)))
      else none))

/-- A received message is stored at `o`. -/
def store (o : ℕ) (m : List (Option T)) (buf : ℕ → Option T) : ℕ → Option T := fun i =>
  if o ≤ i ∧ i < o + m.length then m.getD (i - o) none else buf i

/-- Completion of the receive posted for source `i` (380-391), `msgs` the messages that source sends to
this process. A message longer than the buffer is an error. Two messages from the same source in one
exchange are not modelled (an error). -/
def receive (p : Plan) (i : ℕ) (msgs : Option (List (List (Option T)))) (buf : ℕ → Option T) : Option (ℕ → Option T) :=
  match msgs with
  | some [m] =>
    if m.length ≤ p.srcOffsets.getD (i + 1) 0 - p.srcOffsets.getD i 0 then
      some (store (p.srcOffsets.getD i 0) m buf)
    else none
  | _ => none

/-- Process `s` sends something to process `r`, which does not expect it: the send need not complete. -/
def unexpected (r : ℕ) (p : Plan) (s : ℕ) (msgs : Option (List (List (Option T)))) : Bool :=
  (msgs.isNone || msgs.any (fun l => !l.isEmpty)) && decide (s ≠ r) && !decide ((s : ℤ) ∈ p.sources)

/-- One receive, posted for source `i` if it is not the process itself. `msgs s` are the messages from `s`. -/
def receiveStep (r : ℕ) (p : Plan) (msgs : ℕ → Option (List (List (Option T)))) (b : Option (ℕ → Option T)) (i : ℕ) :
    Option (ℕ → Option T) :=
  match b, p.sources[i]? with
  | some buf, some s => if s = (r : ℤ) then some buf else receive p i (msgs s.toNat) buf
  | _, _ => none

/-- The end of `doPostsAndWaits` (410-439): the data process `r` sends to itself, and the copy from `imports_comm` to
`imports`, of size `n`. -/
def finish (E : Env) (r n : ℕ) (p : Plan) (permuted importsComm : ℕ → Option T) : Option (List (Option T)) :=
  if (r : ℤ) ∈ p.layout.destinations then
    if (r : ℤ) ∈ p.sources then
      let sd := p.layout.destinations.idxOf (r : ℤ)
      let ss := p.sources.idxOf (r : ℤ)
      let a := p.srcOffsets.getD ss 0
      let b := p.srcOffsets.getD (ss + 1) 0
      let c := p.layout.destOffsets.getD sd 0
      let d := p.layout.destOffsets.getD (sd + 1) 0
      if b - a ≠ d - c then none
      else
        let imports0 : ℕ → Option T := if E.direct then importsComm else fun _ => none
        let imports1 : ℕ → Option T := fun i => if a ≤ i ∧ i < b then permuted (c + (i - a)) else imports0 i
        let imports2 := if E.direct then imports1
          else copyRange b n importsComm (copyRange 0 a importsComm imports1)
        some ((List.range n).map imports2)
    else none
  else some ((List.range n).map importsComm)

/-- `doPostsAndWaits` (275-440) on process `r`: the content of `imports`, of size `n`. -/
def exchange (E : Env) (P : ℕ) (plan : ℕ → Plan) (exports : ℕ → List T) (r n : ℕ) : Option (List (Option T)) :=
  let msgs := fun s => messages E s r (plan s) (exports s)
  if n ≠ (plan r).imports then none
  else if (List.range P).any (fun s => unexpected r (plan r) s (msgs s)) then none
  else
    match permutedExports E r (plan r) (exports r) with
    | none => none
    | some permuted =>
      match (E.arrive r (plan r).sources.length).foldl (receiveStep r (plan r) msgs) (some (fun _ => none)) with
      | none => none
      | some importsComm => finish E r n (plan r) permuted importsComm

end ArborX.Distributed
