import Verif.Mst.Edge
import Verif.Labels.Model
import Verif.Nearest.Model
import Verif.BVH.Build
import Mathlib.Order.BoundedOrder.Basic

/-!
# Model of `MinimumSpanningTree`

Models `src/cluster/ArborX_MinimumSpanningTree.hpp` (mode `MST`) with the kernels of
`src/cluster/detail/ArborX_BoruvkaHelpers.hpp`, on top of the models of the tree, of
`findParents`, `reduceLabels` and `DirectedEdge`.

Weights are elements of a bounded linear order `W`: `⊥` is `0.f`, `⊤` is infinity. Every kernel
that communicates through shared memory runs under an arbitrary interleaving.
-/

namespace ArborX.Boruvka

open Function (update)
open Mst (DirectedEdge WeightedEdge)
open BVH (Input)

/-- What the algorithm knows about the points, by their original indices: `dp p q` is
`distance(point p, point q)`, `dv p v` is `distance(point p, box v)`, `metric` is the functor
`Euclidean` or `MutualReachability`. `cap` is the size of the array `stack` (64,
`ArborX_BoruvkaHelpers.hpp` line 189); `shared` is `use_shared_radii` and `use_lower_bounds`,
true exactly for the execution space `Serial` (`ArborX_MinimumSpanningTree.hpp` 143-161). -/
structure Points (V W : Type) where
  dp : ℕ → ℕ → W
  dv : ℕ → V → W
  metric : ℕ → ℕ → W → W
  cap : ℕ
  shared : Bool

variable {V W : Type} [LinearOrder W] [BoundedOrder W]

/-- Result of a kernel: finished, an exception, an out-of-bounds access, or a schedule (or fuel)
that ends too early. -/
inductive Outcome (β : Type) where
  | ok (x : β)
  | throw
  | fault
  | running
  deriving DecidableEq

/-- Sequencing of kernels. -/
def Outcome.bind {β γ : Type} (o : Outcome β) (f : β → Outcome γ) : Outcome γ :=
  match o with
  | .ok x => f x
  | .throw => .throw
  | .fault => .fault
  | .running => .running

/-! ## The search of one leaf -/

/-- The lambda `distance2node` (`ArborX_BoruvkaHelpers.hpp` 166-175); `p` is the index of the
point of the leaf. -/
def nodeDist (P : Points V W) (mem : Mem ℕ V) (p j : ℕ) : Option W :=
  if j < mem.size then (mem.leaf j).map (fun x => P.dp p x.value)
  else (mem.internal (j - mem.size)).map (fun x => P.dv p x.vol)

/-- What is done with a child at distance `d` (lines 235-256 and 259-280): new best edge, new
radius, and whether it is to be traversed. `i` is the leaf, `c` its label. -/
def offer (P : Points V W) (mem : Mem ℕ V) (lab : ℕ → ℤ) (i p : ℕ) (c : ℤ) (child : ℕ) (d : W)
    (best : DirectedEdge W) (radius : W) : Option (DirectedEdge W × W × Bool) :=
  if c ≠ lab child ∧ d ≤ radius then
    if child < mem.size then
      match mem.leaf child with
      | none => none
      | some lf =>
        let cand := DirectedEdge.mk' i child (P.metric p lf.value d)
        if cand.lt best then
          some (cand, if P.shared then min radius cand.weight else cand.weight, false)
        else some (best, radius, false)
    else some (best, radius, true)
  else some (best, radius, false)

/-- The `do` loop (lines 207-312). `stack` holds the entries above the sentinel with their
distances; a push beyond `cap` entries (sentinel included) is a fault. -/
def loop (P : Points V W) (mem : Mem ℕ V) (lab : ℕ → ℤ) (i p : ℕ) (c : ℤ) :
    ℕ → ℕ → W → List (ℕ × W) → DirectedEdge W → W → Res (DirectedEdge W × W)
  | 0, _, _, _, _, _ => .timeout
  | fuel + 1, node, dnode, stack, best, radius =>
    if dnode ≤ radius then
      match Nearest.children mem node with
      | none => .fault
      | some (l, r) =>
        match nodeDist P mem p l, nodeDist P mem p r with
        | some dl, some dr =>
          match offer P mem lab i p c l dl best radius with
          | none => .fault
          | some (best1, radius1, tl) =>
            match offer P mem lab i p c r dr best1 radius1 with
            | none => .fault
            | some (best2, radius2, tr) =>
              if !tl && !tr then
                match stack with
                | [] => .done (best2, radius2)
                | (n, d) :: st => loop P mem lab i p c fuel n d st best2 radius2
              else if tl && (decide (dl ≤ dr) || !tr) then
                if tr then
                  if stack.length + 1 < P.cap then
                    loop P mem lab i p c fuel l dl ((r, dr) :: stack) best2 radius2
                  else .fault
                else loop P mem lab i p c fuel l dl stack best2 radius2
              else
                if tl then
                  if stack.length + 1 < P.cap then
                    loop P mem lab i p c fuel r dr ((l, dl) :: stack) best2 radius2
                  else .fault
                else loop P mem lab i p c fuel r dr stack best2 radius2
        | _, _ => .fault
    else
      match stack with
      | [] => .done (best, radius)
      | (n, d) :: st => loop P mem lab i p c fuel n d st best radius

/-- The search of leaf `i` (lines 162-312) from the root: the best edge and the final radius. -/
def search (P : Points V W) (mem : Mem ℕ V) (lab : ℕ → ℤ) (fuel i : ℕ) (radius : W) :
    Res (DirectedEdge W × W) :=
  match mem.leaf i with
  | none => .fault
  | some lf => loop P mem lab i lf.value (lab i) fuel mem.size ⊥ [] (DirectedEdge.default ⊤) radius

/-- The component of leaf `i`, used as an index. -/
def comp (lab : ℕ → ℤ) (i : ℕ) : ℕ := (lab i).toNat

/-! ## `resetSharedRadii` -/

/-- Atomic operation number `k` (lines 762-775): iteration `k / 2`, first or second
`atomic_min`. -/
def radiusOp (P : Points V W) (mem : Mem ℕ V) (lab : ℕ → ℤ) (radii : ℕ → W) (k : ℕ) : Option (ℕ → W) :=
  let i := k / 2
  if lab i = lab (i + 1) then some radii
  else match mem.leaf i, mem.leaf (i + 1) with
    | some a, some b =>
      let r := P.metric a.value b.value (P.dp a.value b.value)
      let c := comp lab (if k % 2 = 0 then i else i + 1)
      some (update radii c (min (radii c) r))
    | _, _ => none

/-- `resetSharedRadii` (lines 737-777) after the fill with infinity
(`ArborX_MinimumSpanningTree.hpp` line 202): the atomic operations happen in the order `ord`. -/
def resetRadii (P : Points V W) (mem : Mem ℕ V) (lab : ℕ → ℤ) (ord : List ℕ) : Option (ℕ → W) :=
  ord.foldl (fun o k => o.bind (fun radii => radiusOp P mem lab radii k)) (some (fun _ => ⊤))

/-! ## `FindComponentNearestNeighbors` -/

/-- The searches with private radii (lines 144-148, 160-312): every leaf starts from the radius of
its component. -/
def searchPar (P : Points V W) (mem : Mem ℕ V) (lab : ℕ → ℤ) (fuel : ℕ) (radii : ℕ → W) :
    Option (ℕ → Option (DirectedEdge W)) :=
  if (List.range mem.size).all (fun i =>
      match search P mem lab fuel i (radii (comp lab i)) with | .done _ => true | _ => false) then
    some (fun i => match search P mem lab fuel i (radii (comp lab i)) with
      | .done r => some r.1
      | _ => none)
  else none

/-- One iteration with shared radii and lower bounds (lines 151-158): `none` in the second
component for a leaf that is skipped. -/
def serialStep (P : Points V W) (mem : Mem ℕ V) (lab : ℕ → ℤ) (lower : ℕ → W) (fuel : ℕ)
    (s : (ℕ → W) × (ℕ → Option (DirectedEdge W))) (i : ℕ) :
    Option ((ℕ → W) × (ℕ → Option (DirectedEdge W))) :=
  let c := comp lab i
  if lower i ≤ s.1 c then
    match search P mem lab fuel i (s.1 c) with
    | .done (e, r) => some (update s.1 c r, update s.2 i (some e))
    | _ => none
  else some s

/-- The loop of the execution space `Serial` (lines 133-141). -/
def searchSerial (P : Points V W) (mem : Mem ℕ V) (lab : ℕ → ℤ) (lower : ℕ → W) (fuel : ℕ) (radii : ℕ → W) :
    Option (ℕ → Option (DirectedEdge W)) :=
  ((List.range mem.size).foldl (fun o i => o.bind (fun s => serialStep P mem lab lower fuel s i))
    (some (radii, fun _ => none))).map (·.2)

/-- A load that races with stores to the location: the memory may return any value the location
has held since the kernel was launched. `past`: the earlier values; choice `k` takes one of them, or the
current value `cur` if there is no such entry. -/
def seen {α : Type} (cur : α) (past : List α) (k : ℕ) : α := past[k]?.getD cur

/-- The end of the operator (lines 314-326): check against the weight of the component; the
atomic minimum together with the store into the thread's own entry of `_edges`. -/
inductive TT where
  | check
  | swap
  | done
  deriving DecidableEq

structure Tail (W : Type) where
  weights : ℕ → W
  past : ℕ → List W
  out : ℕ → DirectedEdge W
  thr : ℕ → TT

/-- One step of thread `x.1`. The searches neither read nor write `_weights` and `_edges`, so they
are performed before. The check is a plain load (line 321): it returns any value the weight has
held, chosen by `x.2`. -/
def tailStep (n : ℕ) (lab : ℕ → ℤ) (best : ℕ → Option (DirectedEdge W)) (s : Tail W) (x : ℕ × ℕ) : Tail W :=
  let t := x.1
  if n ≤ t then s
  else match s.thr t, best t with
  | .check, none => { s with thr := update s.thr t .done }
  | .check, some e =>
    if e.weight < ⊤ ∧ e.weight ≤ seen (s.weights (comp lab t)) (s.past (comp lab t)) x.2 then
      { s with thr := update s.thr t .swap }
    else { s with thr := update s.thr t .done }
  | .swap, some e =>
    let m := min (s.weights (comp lab t)) e.weight
    { weights := update s.weights (comp lab t) m
      past := update s.past (comp lab t) (s.weights (comp lab t) :: s.past (comp lab t))
      out := if m = e.weight then update s.out t e else s.out
      thr := update s.thr t .done }
  | .swap, none => s
  | .done, _ => s

/-- The kernel on the freshly filled views (`ArborX_MinimumSpanningTree.hpp` 200-201). -/
def tail (n : ℕ) (lab : ℕ → ℤ) (best : ℕ → Option (DirectedEdge W)) (sched : List (ℕ × ℕ)) : Tail W :=
  sched.foldl (tailStep n lab best) ⟨fun _ => ⊤, fun _ => [], fun _ => DirectedEdge.default ⊤, fun _ => .check⟩

/-! ## `retrieveEdges` -/

/-- First kernel (lines 367-382). -/
def resetEdges (lab : ℕ → ℤ) (weights : ℕ → W) (out : ℕ → DirectedEdge W) (i : ℕ) : DirectedEdge W :=
  if (i : ℤ) ≠ lab i then out i
  else if (out i).weight ≠ weights i then ⟨BitVec.allOnes 64, weights i⟩
  else out i

/-- Second kernel (lines 383-395): read the own edge, then the atomic minimum on the key. -/
inductive TR where
  | read
  | amin (key : BitVec 64)
  | done
  deriving DecidableEq

structure Retr (W : Type) where
  out : ℕ → DirectedEdge W
  past : ℕ → List (BitVec 64)
  thr : ℕ → TR

/-- One step of thread `x.1`. The own edge is read by plain loads; its weight does not change in
this kernel, its key is any of those it has held, chosen by `x.2`. -/
def retrStep (n : ℕ) (lab : ℕ → ℤ) (weights : ℕ → W) (s : Retr W) (x : ℕ × ℕ) : Retr W :=
  let t := x.1
  if n ≤ t then s
  else match s.thr t with
  | .read =>
    if (s.out t).weight = weights (comp lab t) then
      { s with thr := update s.thr t (.amin (seen (s.out t).key (s.past t) x.2)) }
    else { s with thr := update s.thr t .done }
  | .amin k =>
    let c := comp lab t
    { out := update s.out c ⟨if k < (s.out c).key then k else (s.out c).key, (s.out c).weight⟩
      past := update s.past c ((s.out c).key :: s.past c)
      thr := update s.thr t .done }
  | .done => s

def retrieve (n : ℕ) (lab : ℕ → ℤ) (weights : ℕ → W) (out : ℕ → DirectedEdge W) (sched : List (ℕ × ℕ)) : Retr W :=
  sched.foldl (retrStep n lab weights) ⟨resetEdges lab weights out, fun _ => [], fun _ => .read⟩

/-! ## `UpdateComponentsAndEdges` -/

/-- `computeNextComponent` (lines 415-428) once both labels are read: `nx` is the component of
the target of the edge of `c`, `nn` the component of the target of the edge of `nx`. -/
def resolve (c nx nn : ℕ) : ℕ := if nn ≠ c then nx else min c nx

/-- `computeNextComponent` on labels that do not change. -/
def nextComp (n : ℕ) (lab : ℕ → ℤ) (out : ℕ → DirectedEdge W) (c : ℕ) : Option ℕ :=
  let t1 := (out c).target
  if n ≤ t1 then none
  else
    let nx := comp lab t1
    let t2 := (out nx).target
    if n ≤ t2 then none
    else some (resolve c nx (comp lab t2))

/-- One iteration of the kernel `UnidirectionalEdgesTag` (lines 448-463). The atomic increment and
the store into the reserved entry are one step, no other iteration accesses that entry. The view
`edges` has `n - 1` entries. -/
def appendStep (n : ℕ) (lab : ℕ → ℤ) (out : ℕ → DirectedEdge W) (edges : List (WeightedEdge W)) (i : ℕ) :
    Option (List (WeightedEdge W)) :=
  if (i : ℤ) ≠ lab i then some edges
  else match nextComp n lab out i with
    | none => none
    | some c =>
      if c = i then some edges
      else if edges.length < n - 1 then
        some (edges ++ [⟨(out i).source, (out i).target, (out i).weight⟩])
      else none

/-- The kernel; the atomic increments happen in the order `ord`. -/
def append (n : ℕ) (lab : ℕ → ℤ) (out : ℕ → DirectedEdge W) (edges : List (WeightedEdge W)) (ord : List ℕ) :
    Option (List (WeightedEdge W)) :=
  ord.foldl (fun o i => o.bind (fun es => appendStep n lab out es i)) (some edges)

/-- Kernel `LabelsTag` (lines 430-446): labels are read while other threads replace them. About to
read the own label; the label of the target of the edge of `c`; the label of the target of the
edge of `nx`; about to write. -/
inductive TU where
  | start
  | first (c : ℕ)
  | second (c nx : ℕ)
  | write (r : ℕ)
  | done
  | fault
  deriving DecidableEq

structure Upd where
  lab : ℕ → ℤ
  past : ℕ → List ℤ
  thr : ℕ → TU

/-- A plain load of the label of `i`: any of those it has held, chosen by `k`. -/
def Upd.load (s : Upd) (i k : ℕ) : ℕ := (seen (s.lab i) (s.past i) k).toNat

/-- One step of thread `x.1`. -/
def updStep (n : ℕ) (out : ℕ → DirectedEdge W) (s : Upd) (x : ℕ × ℕ) : Upd :=
  let t := x.1
  if n ≤ t then s
  else match s.thr t with
  | .start => { s with thr := update s.thr t (.first (s.load t x.2)) }
  | .first c =>
    if n ≤ (out c).target then { s with thr := update s.thr t .fault }
    else { s with thr := update s.thr t (.second c (s.load (out c).target x.2)) }
  | .second c nx =>
    if n ≤ (out nx).target then { s with thr := update s.thr t .fault }
    else
      let next := resolve c nx (s.load (out nx).target x.2)
      { s with thr := update s.thr t (if next ≠ c then .first next else .write next) }
  | .write r =>
    { lab := update s.lab t r, past := update s.past t (s.lab t :: s.past t), thr := update s.thr t .done }
  | .done => s
  | .fault => s

def updateLabels (n : ℕ) (lab : ℕ → ℤ) (out : ℕ → DirectedEdge W) (sched : List (ℕ × ℕ)) : Upd :=
  sched.foldl (updStep n out) ⟨lab, fun _ => [], fun _ => .start⟩

/-! ## One iteration and the loop -/

/-- The schedules of the kernels of one iteration: interleavings (`reduce`, `tail`, `retr`, `upd`;
with the choice the memory makes for a racing load) and orders of atomic operations (`radii`, `uni`). -/
structure Sched where
  reduce : List (ℕ × ℕ)
  radii : List ℕ
  tail : List (ℕ × ℕ)
  retr : List (ℕ × ℕ)
  uni : List ℕ
  upd : List (ℕ × ℕ)

/-- Variables of `doBoruvka` that live across iterations: `labels`, `lower_bounds` and the edges
written so far (`edges`, `num_edges`). -/
structure State (W : Type) where
  lab : ℕ → ℤ
  lower : ℕ → W
  edges : List (WeightedEdge W)

/-- `updateLowerBounds` (`ArborX_BoruvkaHelpers.hpp` 345-360). -/
def raise (lab : ℕ → ℤ) (out : ℕ → DirectedEdge W) (lower : ℕ → W) (i : ℕ) : W :=
  max (lower i) (out (comp lab i)).weight

/-- What the kernels that find the edges leave behind: the labels of all nodes, the edges of the
components, the lower bounds. -/
structure Chosen (W : Type) where
  lab : ℕ → ℤ
  out : ℕ → DirectedEdge W
  lower : ℕ → W

/-- The first part of an iteration (`ArborX_MinimumSpanningTree.hpp` 195-212): the shortest edge
that leaves each component. -/
def choose (P : Points V W) (mem : Mem ℕ V) (par : ℕ → Option ℕ) (fuel : ℕ) (sc : Sched) (s : State W) :
    Outcome (Chosen W) :=
  let n := mem.size
  let red := Labels.wrun n par s.lab sc.reduce                                  -- line 195
  if (List.range n).any (fun t => decide (red.thr t = .fault)) then .fault
  else if !(List.range n).all (fun t => decide (red.thr t = .done)) then .running
  else match resetRadii P mem red.lab sc.radii with                            -- lines 202-203
  | none => .fault
  | some radii =>
    match (if P.shared then searchSerial P mem red.lab s.lower fuel radii      -- lines 205-207
           else searchPar P mem red.lab fuel radii) with
    | none => .fault
    | some best =>
      let tl := tail n red.lab best sc.tail
      if !(List.range n).all (fun t => decide (tl.thr t = .done)) then .running
      else
        let rt := retrieve n red.lab tl.weights tl.out sc.retr                 -- line 208
        if !(List.range n).all (fun t => decide (rt.thr t = .done)) then .running
        else .ok ⟨red.lab, rt.out, if P.shared then raise red.lab rt.out s.lower else s.lower⟩  -- lines 209-212

/-- The last part of an iteration (lines 255-258): merging of the components. -/
def merge (n : ℕ) (sc : Sched) (r : Chosen W) (edges : List (WeightedEdge W)) : Outcome (State W) :=
  let up := updateLabels n r.lab r.out sc.upd
  if (List.range n).any (fun t => decide (up.thr t = .fault)) then .fault
  else if !(List.range n).all (fun t => decide (up.thr t = .done)) then .running
  else .ok ⟨up.lab, r.lower, edges⟩

/-- One Borůvka iteration (`ArborX_MinimumSpanningTree.hpp` 188-268). -/
def iteration (P : Points V W) (mem : Mem ℕ V) (par : ℕ → Option ℕ) (fuel : ℕ) (sc : Sched) (s : State W) :
    Outcome (State W) :=
  (choose P mem par fuel sc s).bind (fun r =>
    match append mem.size r.lab r.out s.edges sc.uni with                      -- lines 221-225
    | none => .fault
    | some edges => merge mem.size sc r edges)

/-- The `do` loop (lines 188-268). -/
def iterate (P : Points V W) (mem : Mem ℕ V) (par : ℕ → Option ℕ) (fuel : ℕ) (sc : ℕ → Sched) :
    ℕ → ℕ → State W → Outcome (List (WeightedEdge W))
  | 0, _, _ => .running
  | k + 1, it, s =>
    (iteration P mem par fuel (sc it) s).bind (fun s' =>
      if (mem.size : ℤ) - s'.edges.length > 1 then iterate P mem par fuel sc k (it + 1) s'
      else .ok s'.edges)

/-- `finalizeEdges` (`ArborX_BoruvkaHelpers.hpp` 477-491). -/
def finalizeEdges (mem : Mem ℕ V) : List (WeightedEdge W) → Option (List (WeightedEdge W))
  | [] => some []
  | e :: es =>
    match mem.leaf e.source, mem.leaf e.target, finalizeEdges mem es with
    | some a, some b, some es' => some (⟨a.value, b.value, e.weight⟩ :: es')
    | _, _, _ => none

variable [SemilatticeSup V] [OrderBot V] {w : ℕ}

/-- The constructor of `MinimumSpanningTree` (`ArborX_MinimumSpanningTree.hpp` 45-96, `doBoruvka`
104-315) on the tree input `I`. Fewer than two points: `findParents` asserts, or the size of
`edges` underflows. `ordP` is the order of the assignments of `findParents`. -/
def mst (P : Points V W) (I : Input ℕ V w) (schedB ordP : List ℕ) (sc : ℕ → Sched) (fuel iters : ℕ) :
    Outcome (List (WeightedEdge W)) :=
  if I.n < 2 then .throw
  else
    let mem := I.build schedB
    match Labels.findParents mem ordP with
    | none => .fault
    | some par =>
      (iterate P mem par fuel sc iters 0 ⟨fun i => (i : ℤ), fun _ => ⊥, []⟩).bind (fun es =>
        match finalizeEdges mem es with
        | none => .fault
        | some es' => .ok es')

end ArborX.Boruvka
