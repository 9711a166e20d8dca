import Verif.DistDbscan.Merge
import Verif.Dbscan.Spec

/-!
# Model of the distributed DBSCAN

Models `src/cluster/ArborX_DistributedDBSCAN.hpp` and `src/cluster/detail/ArborX_DistributedDBSCANHelpers.hpp`. As in
`Verif/Distributed/Query.lean`, the functions take the arguments of all processes and give the results of all
processes; `none`: some process fails. The local clustering (step 2) is a black box here, as in the code; see
`Verif/Dbscan` and `Verif/DenseBox` for it.
-/

namespace ArborX.DistDbscan

open Distributed BVH Traversal

variable {X V : Type} {w : ℕ}

/-! ## Compressing the ghosts -/

/-- The state of the final pass of the `parallel_scan` "compress" (`ArborX_DistributedDBSCAN.hpp` 107-121): the arrays (ghost rank, id and
label together), and for each thread the next iteration and its `update`. -/
structure CState (Y : Type) where
  arr : ℕ → Y
  thr : ℕ → ℕ × ℕ

/-- One iteration of thread `t`, whose last iteration is before `stop t`. The model takes a whole iteration as one step; the arrays are read and written in
place. -/
def cstep {Y : Type} (valid : Y → Bool) (stop : ℕ → ℕ) (s : CState Y) (t : ℕ) : CState Y :=
  if (s.thr t).1 < stop t then
    if valid (s.arr (s.thr t).1) then
      ⟨Function.update s.arr (s.thr t).2 (s.arr (s.thr t).1), Function.update s.thr t ((s.thr t).1 + 1, (s.thr t).2 + 1)⟩
    else ⟨s.arr, Function.update s.thr t ((s.thr t).1 + 1, (s.thr t).2)⟩
  else s

/-- The whole `parallel_scan`: thread `t` of `nt` runs the iterations `[cut t, cut (t + 1))`; its `update` starts with the number of
valid entries before `cut t`, found in a first pass over the unchanged arrays. `none`: some thread has not finished. -/
def compress {Y : Type} (valid : Y → Bool) (n nt : ℕ) (cut : ℕ → ℕ) (sched : List ℕ) (arr : ℕ → Y) : Option (List Y) :=
  let s := sched.foldl (cstep valid (fun t => cut (t + 1)))
    ⟨arr, fun t => (cut t, Perm.prefixCount (fun i => valid (arr i)) (cut t))⟩
  if (List.range nt).all (fun t => decide (cut (t + 1) ≤ (s.thr t).1)) then
    some ((List.range (Perm.prefixCount (fun i => valid (arr i)) n)).map s.arr)
  else none

/-! ## Input -/

/-- The arguments of `dbscan` on all processes. `near` is `distance <= eps`, `hit p b`: point `p` is within the forwarding radius (`eps`, or
`2 eps` if `core_min_size > 2`) of box `b`; `close`: so are two boxes; `boxOf p`: the box of a point. -/
structure In (X V : Type) where
  P : ℕ
  points : ℕ → List X
  near : X → X → Bool
  hit : X → V → Bool
  close : V → V → Bool
  boxOf : X → V
  minPts : ℕ

/-- What differs between executions. `code`, `perm` and `tsched` belong to the tree over the boxes, `dbscan` is the local
clustering on each process. -/
structure XEnv (X : Type) (w : ℕ) where
  scan : ℕ → ℕ → List ℕ
  code : ℕ → ℕ → BitVec w
  perm : ℕ → ℕ → ℕ
  tsched : ℕ → List ℕ
  query : ℕ → LEnv
  fwd : ℕ → Env
  dbscan : ℕ → List X → Option (List ℤ)
  threads : ℕ → ℕ → ℕ
  cut : ℕ → ℕ → ℕ → ℕ
  csched : ℕ → ℕ → List ℕ
  back : ℕ → Env
  sort : ℕ → List ℕ → ℕ → ℕ
  garbage : ℕ → ℕ → ℕ
  offsetOrder : ℕ → ℕ → List ℕ
  mergeOrder : ℕ → ℕ → List ℕ
  merge : MEnv

variable [SemilatticeSup V] [OrderBot V]

/-! ## Step 1: ghosts -/

/-- `calculateBoundingBoxOfTheScene` in `gatherGlobalBoxes` (182-231); the boxes of all processes are gathered. -/
def In.box (D : In X V) (r : ℕ) : V := (D.points r).foldl (fun b x => b ⊔ D.boxOf x) ⊥

/-- The primitives of `computeRanksTo` (257-275): the ranks of the boxes close to the own one. -/
def In.prims (D : In X V) (E : XEnv X w) (r : ℕ) : Option (List ℕ) :=
  scanWrites (E.scan r D.P) D.P D.P (fun i => if i = r ∨ D.close (D.box i) (D.box r) = false then [] else [i])

/-- The tree over these boxes (278). -/
def In.tree (D : In X V) (E : XEnv X w) (prims : List ℕ) (r : ℕ) : Input ℕ V w where
  n := prims.length
  values := fun i => prims.getD i 0
  vol := D.box
  code := E.code r
  perm := E.perm r

/-- `computeRanksTo` (233-281): offsets and ranks. -/
def In.ranksTo (D : In X V) (E : XEnv X w) (fuel r : ℕ) : Option (List ℕ × List ℤ) :=
  (D.prims E r).bind fun prims =>
  crsQuery .spatial (fun _ => 0) (E.query r)
    (fun p : X => spatialQuery ((D.tree E prims r).build (E.tsched r)) (fun i => D.hit p (D.box i)) (D.hit p) (fun _ => false) fuel)
    (fun _ i => [(i : ℤ)]) [] (D.points r)

/-- `forwardNeighbors` (283-355): the ghost points, ids and ranks. -/
def In.ghosts (D : In X V) (E : XEnv X w) (fuel : ℕ) : Option ((ℕ → List X) × (ℕ → List ℕ) × (ℕ → List ℤ)) :=
  (collect D.P (D.ranksTo E fuel)).bind fun t =>
  (collect D.P (createFromSends (E.fwd 0) D.P (fun r => (t r).2))).bind fun plan =>
  (collect D.P (fun r => exportRows ((E.fwd 1).order r (D.points r).length) (t r).1 (fun q => (D.points r)[q]?))).bind fun exportPoints =>
  (communicate (E.fwd 1) D.P plan exportPoints).bind fun points =>
  (collect D.P (fun r => exportRows ((E.fwd 2).order r (D.points r).length) (t r).1 (fun q => some q))).bind fun exportIds =>
  (communicate (E.fwd 2) D.P plan exportIds).bind fun ids =>
  (communicate (E.fwd 3) D.P plan (fun r => List.replicate (t r).2.length (r : ℤ))).bind fun ranks =>
  some (points, ids, ranks)

/-! ## Steps 2 to 4: labels of the ghosts -/

/-- `rank_offsets` (`computeCountsAndOffsets`, 110-131). -/
def In.rankOffset (D : In X V) (r : ℕ) : ℕ := Crs.scan (fun s => (D.points s).length) r

/-- `convertLocalToGlobal` for one label (166-179) on process `r`. -/
def In.globalLabel (D : In X V) (r : ℕ) (ids : List ℕ) (ranks : List ℤ) (label : ℤ) : Option ℤ :=
  if label = -1 then some (-1)
  else if label < (D.points r).length then some (D.rankOffset r + label)
  else (ranks[(label - (D.points r).length).toNat]?).bind fun rk =>
    (ids[(label - (D.points r).length).toNat]?).map fun id => ((D.rankOffset rk.toNat + id : ℕ) : ℤ)

/-- Steps 2 and 3: the global labels of the points and ghosts of process `r`. -/
def In.labels (D : In X V) (E : XEnv X w) (r : ℕ) (ghosts : List X) (ids : List ℕ) (ranks : List ℤ) : Option (List ℤ) :=
  (E.dbscan r (D.points r ++ ghosts)).bind fun l => initialised (l.map (D.globalLabel r ids ranks))

/-- The noise ghosts are dropped (105-124 of `ArborX_DistributedDBSCAN.hpp`); an entry is rank, id and label of a ghost. -/
def compressGhosts (E : XEnv X w) (r : ℕ) (ids : List ℕ) (ranks : List ℤ) (labels : List ℤ) : Option (List (ℤ × ℕ × ℤ)) :=
  let n := labels.length
  compress (fun e => decide (e.2.2 ≠ -1)) n (E.threads r n) (E.cut r n) (E.csched r n)
    (fun i => (ranks.getD i 0, ids.getD i 0, labels.getD i 0))

/-- `communicateNeighborDataBack` (357-389): received ids and labels. -/
def communicateBack (E : XEnv X w) (P : ℕ) (entries : ℕ → List (ℤ × ℕ × ℤ)) : Option ((ℕ → List ℕ) × (ℕ → List ℤ)) :=
  (collect P (createFromSends (E.back 0) P (fun r => (entries r).map (·.1)))).bind fun plan =>
  (communicate (E.back 1) P plan (fun r => (entries r).map (·.2.1))).bind fun ids =>
  (communicate (E.back 2) P plan (fun r => (entries r).map (·.2.2))).bind fun labels =>
  some (ids, labels)

/-- `sortByKey` of ids and labels (127 of `ArborX_DistributedDBSCAN.hpp`). -/
def sortGhosts (E : XEnv X w) (r : ℕ) (ids : List ℕ) (labels : List ℤ) : Option (List ℕ × List ℤ) :=
  let s := Perm.sortByKey ids.length (fun i => ids.getD i 0) (fun i => labels[i]?) (E.sort r ids)
  (initialised ((List.range ids.length).map s.2)).map fun l => ((List.range ids.length).map s.1, l)

/-! ## Step 5: merge pairs -/

/-- `is_core` (`CCSCorePoints`: all points; `DBSCANCorePoints`: the number of neighbours among points and ghosts, which the code finds by a
query that stops at `core_min_size`; here by specification). -/
def In.isCore (D : In X V) (r : ℕ) (ghosts : List X) (id : ℕ) : Bool :=
  decide (D.minPts = 2) ||
    match (D.points r)[id]? with
    | some p => decide (D.minPts ≤ ((D.points r ++ ghosts).filter (D.near p)).length)
    | none => false

/-- `LLONG_MAX` -/
def llongMax : ℤ := 9223372036854775807

/-- The merge pairs of one point with local label `own` and ghost labels `ghost` (442-493). -/
def pairsOf (core : Bool) (own : ℤ) (ghost : List ℤ) : List Pair :=
  if ghost.length + (if own ≠ -1 then 1 else 0) < 2 then []
  else if !core then []
  else
    let m := ghost.foldl (fun m l => min l m) (if own ≠ -1 then own else llongMax)
    (if own ≠ -1 ∧ own ≠ m then [(own, m)] else []) ++ (ghost.filter (fun l => decide (l ≠ m))).map (fun l => (l, m))

/-- The new local label of the point (455-459, 474-482). -/
def ownLabel (core : Bool) (own : ℤ) (ghost : List ℤ) : ℤ :=
  if ghost.length + (if own ≠ -1 then 1 else 0) < 2 then own
  else if !core then (if own = -1 then ghost.headD (-1) else own)
  else
    let m := ghost.foldl (fun m l => min l m) (if own ≠ -1 then own else llongMax)
    if own ≠ -1 ∧ own ≠ m then m else own

/-- The id of group `i` and its ghost labels. -/
def groupId (offsets ids : List ℕ) (i : ℕ) : ℕ := ids.getD (offsets.getD i 0) 0

def groupLabels (offsets : List ℕ) (labels : List ℤ) (i : ℕ) : List ℤ := slice labels (offsets.getD i 0) (offsets.getD (i + 1) 0)

/-- `computeMergePairs` (419-497): merge pairs and new labels of process `r`. Iteration `i` reads and writes only the label of its id, and the ids of the
groups differ, so it does not matter that the model reads all labels first. `none` for an id out of range. -/
def mergePairs (E : XEnv X w) (r : ℕ) (core : ℕ → Bool) (own : List ℤ) (offsets ids : List ℕ) (labels : List ℤ) :
    Option (List Pair × List ℤ) :=
  let n := offsets.length - 1
  if ids.all (fun i => decide (i < own.length)) then
    (scanWrites (E.mergeOrder r n) n labels.length (fun i =>
      pairsOf (core (groupId offsets ids i)) (own.getD (groupId offsets ids i) 0) (groupLabels offsets labels i))).map fun pairs =>
    (pairs, (E.mergeOrder r n).foldl (fun l i => l.set (groupId offsets ids i)
      (ownLabel (core (groupId offsets ids i)) (own.getD (groupId offsets ids i) 0) (groupLabels offsets labels i))) own)
  else none

/-- Steps 4 (after the communication) and 5 on process `r` (127-177 of `ArborX_DistributedDBSCAN.hpp`). -/
def In.resolve (D : In X V) (E : XEnv X w) (r : ℕ) (ghosts : List X) (own : List ℤ) (ids : List ℕ) (labels : List ℤ) :
    Option (List Pair × List ℤ) :=
  (sortGhosts E r ids labels).bind fun s =>
  let offsets := Perm.computeOffsets s.1.length (fun i => s.1.getD i 0) (E.garbage r) (E.offsetOrder r (s.1.length + 1))
  if offsets.length > 1 then mergePairs E r (D.isCore r ghosts) own offsets s.1 s.2 else some ([], own)

/-! ## The whole function -/

/-- What happens after the ghosts have arrived (steps 2 to 7): the labels of the points of all processes. -/
def In.cluster (D : In X V) (E : XEnv X w) (fuel : ℕ) (ghosts : ℕ → List X) (ids : ℕ → List ℕ) (ranks : ℕ → List ℤ) :
    Option (ℕ → List ℤ) :=
  (collect D.P (fun r => D.labels E r (ghosts r) (ids r) (ranks r))).bind fun labels =>
  (collect D.P (fun r => compressGhosts E r (ids r) (ranks r) ((labels r).drop (D.points r).length))).bind fun entries =>
  (communicateBack E D.P entries).bind fun back =>
  (collect D.P (fun r => D.resolve E r (ghosts r) ((labels r).take (D.points r).length) (back.1 r) (back.2 r))).bind fun resolved =>
  collect D.P (fun r => initialised ((resolved r).2.map (merge E.merge D.P (fun s => (resolved s).1) fuel r)))

/-- `dbscan` on all processes (29-196): the labels of the points of all processes. The bounds are for the traversals in `computeRanksTo` and for the
loop of `relabel`. -/
def In.dbscan (D : In X V) (E : XEnv X w) (queryFuel fuel : ℕ) : Option (ℕ → List ℤ) :=
  if D.minPts < 2 then none
  else (D.ghosts E queryFuel).bind fun g => D.cluster E fuel g.1 g.2.1 g.2.2

end ArborX.DistDbscan
