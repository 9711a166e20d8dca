import Verif.Boruvka.Core
import Verif.Perm.Model
import Verif.Dendrogram.Model

/-!
# Model of HDBSCAN

Models `hdbscan` (`src/cluster/ArborX_HDBSCAN.hpp` 22-58) with both implementations: the
dendrogram built together with the minimum spanning tree (`MinimumSpanningTree` in mode `HDBSCAN`,
`src/cluster/ArborX_MinimumSpanningTree.hpp` and the kernels of
`src/cluster/detail/ArborX_BoruvkaHelpers.hpp` that exist only in this mode), and the dendrogram
built by union-find from the minimum spanning tree. The kernels shared with mode `MST` are those
of `Verif.Boruvka.Model`.

Not modelled: `_chain_offsets` and `_chain_levels`, which the code computes
(`ArborX_BoruvkaHelpers.hpp` 673, 679-680, 687-688, 701-706, 710-731) and nothing reads.
-/

namespace ArborX.Hdbscan

open Function (update)
open Boruvka
open Mst (DirectedEdge WeightedEdge)
open BVH (Input)

variable {V W : Type} [LinearOrder W] [BoundedOrder W]

/-! ## The mapping from components to edges -/

/-- One iteration of the kernel `UnidirectionalEdgesTag` in mode `HDBSCAN`
(`ArborX_BoruvkaHelpers.hpp` 448-463), on the edges written so far and `_edge_mapping`
(`none`: never written). -/
def mapStep (n : ℕ) (lab : ℕ → ℤ) (out : ℕ → DirectedEdge W) (s : List (WeightedEdge W) × (ℕ → Option ℕ)) (i : ℕ) :
    Option (List (WeightedEdge W) × (ℕ → Option ℕ)) :=
  if (i : ℤ) ≠ lab i then some s
  else match nextComp n lab out i with
    | none => none
    | some c =>
      if c = i then some s
      else if s.1.length < n - 1 then
        some (s.1 ++ [⟨(out i).source, (out i).target, (out i).weight⟩], update s.2 i (some s.1.length))
      else none

/-- The kernel; the atomic increments happen in the order `ord`. -/
def mapEdges (n : ℕ) (lab : ℕ → ℤ) (out : ℕ → DirectedEdge W) (edges : List (WeightedEdge W)) (map : ℕ → Option ℕ)
    (ord : List ℕ) : Option (List (WeightedEdge W) × (ℕ → Option ℕ)) :=
  ord.foldl (fun o i => o.bind (fun s => mapStep n lab out s i)) (some (edges, map))

/-- One iteration of the kernel `BidirectionalEdgesTag` (lines 465-473). An entry that was never
written is a fault. -/
def biStep (n : ℕ) (lab : ℕ → ℤ) (out : ℕ → DirectedEdge W) (map : ℕ → Option ℕ) (i : ℕ) : Option (ℕ → Option ℕ) :=
  if (i : ℤ) ≠ lab i then some map
  else match nextComp n lab out i with
    | none => none
    | some c =>
      if c ≠ i then some map
      else match map (comp lab (out i).target) with
        | none => none
        | some a => some (update map i (some a))

/-- The kernel, its iterations in the order `ord`. -/
def biEdges (n : ℕ) (lab : ℕ → ℤ) (out : ℕ → DirectedEdge W) (map : ℕ → Option ℕ) (ord : List ℕ) :
    Option (ℕ → Option ℕ) :=
  ord.foldl (fun o i => o.bind (fun map => biStep n lab out map i)) (some map)

/-! ## `updateSidedParents` and `assignVertexParents` -/

/-- One iteration of `updateSidedParents` (lines 503-526): the value stored for edge `e`. Edges
that are not yet written, mappings never written, and an overflow of the `int` are faults.
`FOLLOW_CHAIN_VALUE` is `-3` (line 35). -/
def sidedParent (n : ℕ) (lab : ℕ → ℤ) (edges : List (WeightedEdge W)) (map : ℕ → Option ℕ) (e : ℕ) : Option ℤ :=
  match edges[e]? with
  | none => none
  | some edge =>
    if n ≤ edge.source then none
    else match map (comp lab edge.source) with
      | none => none
      | some a =>
        match edges[a]? with
        | none => none
        | some alpha =>
          if edge.lt alpha then
            let side := if comp lab alpha.source = comp lab edge.source then 1 else 0
            if 2 * a + side < 2 ^ 31 then some ((2 * a + side : ℕ) : ℤ) else none
          else some (-3 - (a : ℤ))

/-- `updateSidedParents` (lines 493-527). Every iteration writes its own entry only. -/
def updateSided (n : ℕ) (lab : ℕ → ℤ) (edges : List (WeightedEdge W)) (map : ℕ → Option ℕ) (sided : ℕ → Option ℤ)
    (start stop : ℕ) : Option (ℕ → Option ℤ) :=
  if (List.range' start (stop - start)).all (fun e => (sidedParent n lab edges map e).isSome) then
    some (fun e => if start ≤ e ∧ e < stop then sidedParent n lab edges map e else sided e)
  else none

/-- One iteration of `assignVertexParents` (lines 539-547); `parents` has `2 n - 1` entries. -/
def vertStep (mem : Mem ℕ V) (lab : ℕ → ℤ) (out : ℕ → DirectedEdge W) (map : ℕ → Option ℕ) (par : ℕ → Option ℤ)
    (e : ℕ) : Option (ℕ → Option ℤ) :=
  if mem.size ≤ (out e).source then none
  else
    let i := comp lab (out e).source
    match mem.leaf i, map i with
    | some lf, some a =>
      if lf.value + (mem.size - 1) < 2 * mem.size - 1 then some (update par (lf.value + (mem.size - 1)) (some (a : ℤ)))
      else none
    | _, _ => none

/-- `assignVertexParents` (lines 529-548), its iterations in the order `ord`. -/
def vertParents (mem : Mem ℕ V) (lab : ℕ → ℤ) (out : ℕ → DirectedEdge W) (map : ℕ → Option ℕ) (par : ℕ → Option ℤ)
    (ord : List ℕ) : Option (ℕ → Option ℤ) :=
  ord.foldl (fun o e => o.bind (fun par => vertStep mem lab out map par e)) (some par)

/-! ## The loop -/

/-- Schedules of one iteration in mode `HDBSCAN`: in addition the orders of the kernels
`update_bidirectional_edges` and `compute_vertex_parents`. -/
structure HSched extends Sched where
  bi : List ℕ
  vert : List ℕ

/-- Variables of `doBoruvka` in mode `HDBSCAN` that live across iterations (lines 167-191 of
`ArborX_MinimumSpanningTree.hpp`): in addition `edges_mapping`, `sided_parents`,
`dendrogram_parents` (`none`: never written), `edges_start` and `edges_end`. -/
structure HState (W : Type) where
  base : State W
  map : ℕ → Option ℕ
  sided : ℕ → Option ℤ
  par : ℕ → Option ℤ
  start : ℕ
  stop : ℕ

/-- The choice by the number of the iteration (`ArborX_MinimumSpanningTree.hpp` 244-253); `it`
counts from 0, `iterations` from 1. -/
def linkStep (mem : Mem ℕ V) (r : Chosen W) (edges : List (WeightedEdge W)) (map : ℕ → Option ℕ) (vert : List ℕ)
    (it : ℕ) (s : HState W) : Option ((ℕ → Option ℤ) × (ℕ → Option ℤ)) :=
  if it + 1 > 1 then (updateSided mem.size r.lab edges map s.sided s.start s.stop).map (fun sided => (sided, s.par))
  else (vertParents mem r.lab r.out map s.par vert).map (fun par => (s.sided, par))

/-- One iteration (lines 193-268). -/
def hIteration (P : Points V W) (mem : Mem ℕ V) (par : ℕ → Option ℕ) (fuel : ℕ) (sc : HSched) (it : ℕ) (s : HState W) :
    Outcome (HState W) :=
  (choose P mem par fuel sc.toSched s.base).bind (fun r =>
    match mapEdges mem.size r.lab r.out s.base.edges s.map sc.uni with           -- lines 224-228
    | none => .fault
    | some (edges, map) =>
      match biEdges mem.size r.lab r.out map sc.bi with                          -- lines 238-242
      | none => .fault
      | some map' =>
        match linkStep mem r edges map' sc.vert it s with                        -- lines 244-253
        | none => .fault
        | some (sided, dpar) =>
          (merge mem.size sc.toSched r edges).bind (fun b =>                     -- lines 258-261
            .ok ⟨b, map', sided, dpar, s.stop, edges.length⟩))                   -- lines 265-266

/-- The `do` loop (lines 192-269). -/
def hIterate (P : Points V W) (mem : Mem ℕ V) (par : ℕ → Option ℕ) (fuel : ℕ) (sc : ℕ → HSched) :
    ℕ → ℕ → HState W → Outcome (HState W)
  | 0, _, _ => .running
  | k + 1, it, s =>
    (hIteration P mem par fuel (sc it) it s).bind (fun s' =>
      if (mem.size : ℤ) - s'.base.edges.length > 1 then hIterate P mem par fuel sc k (it + 1) s'
      else .ok s')

/-! ## `computeParentsAndReorderEdges` -/

/-- The `do` loop that looks for the chain of an edge (`ArborX_BoruvkaHelpers.hpp` 587-602), for
the edge `edge`, from `next`. `ROOT_CHAIN_VALUE` is `-2`. Any other negative value above
`FOLLOW_CHAIN_VALUE` makes the loop spin. -/
def follow (edges : List (WeightedEdge W)) (sided : ℕ → Option ℤ) (edge : WeightedEdge W) : ℕ → ℕ → Outcome ℤ
  | 0, _ => .running
  | fuel + 1, next =>
    if edges.length ≤ next then .fault
    else match sided next with
      | none => .fault
      | some key =>
        if key ≤ -3 then follow edges sided edge fuel (-3 - key).toNat
        else if 0 ≤ key then
          match edges[(key / 2).toNat]? with
          | none => .fault
          | some nextEdge =>
            if edge.lt nextEdge then .ok key
            else follow edges sided edge fuel (key / 2).toNat
        else if key = -2 then .ok key
        else follow edges sided edge fuel next

/-- The number of the chain of edge `e` (lines 582-604): `INT_MAX` for the root chain. -/
def chainKey (edges : List (WeightedEdge W)) (sided : ℕ → Option ℤ) (fuel e : ℕ) : Outcome ℤ :=
  match edges[e]?, sided e with
  | some edge, some key =>
    (if key ≤ -3 then follow edges sided edge fuel (-3 - key).toNat else .ok key).bind (fun key =>
      .ok (if key = -2 then 2 ^ 31 - 1 else key))
  | _, _ => .fault

/-- The entry of `keys` (line 613); `bits` is `bit_cast<int>` of a weight. -/
def sortKey (bits : W → ℕ) (edges : List (WeightedEdge W)) (sided : ℕ → Option ℤ) (fuel e : ℕ) : Outcome ℤ :=
  (chainKey edges sided fuel e).bind (fun key =>
    match edges[e]? with
    | none => .fault
    | some edge => .ok (key * 2 ^ 32 + bits edge.weight))

/-- A `parallel_for` over `0, …, m - 1` whose iterations write their own entry only. -/
def collect {β : Type} (f : ℕ → Outcome β) (dflt : β) : ℕ → Outcome (ℕ → β)
  | 0 => .ok (fun _ => dflt)
  | e + 1 => (collect f dflt e).bind (fun g => (f e).bind (fun x => .ok (update g e x)))

/-- The inner loop of `fix_same_weight_order` (lines 651-653): from `k` on, with the best place
`m` so far; at most `fuel` further entries. -/
def leastFrom (edges : List (WeightedEdge W)) (keys : ℕ → ℤ) (perm : ℕ → ℕ) (key : ℤ) : ℕ → ℕ → ℕ → Option ℕ
  | 0, _, m => some m
  | fuel + 1, k, m =>
    if keys k = key then
      match edges[perm k]?, edges[perm m]? with
      | some a, some b => leastFrom edges keys perm key fuel (k + 1) (if a.lt b then k else m)
      | _, _ => none
    else some m

/-- One iteration of `fix_same_weight_order` (lines 642-659). -/
def fixStep (edges : List (WeightedEdge W)) (keys : ℕ → ℤ) (perm : ℕ → ℕ) (i : ℕ) : Option (ℕ → ℕ) :=
  if i = 0 ∨ keys (i - 1) / 2 ^ 32 ≠ keys i / 2 ^ 32 then
    match leastFrom edges keys perm (keys i) (edges.length - (i + 1)) (i + 1) i with
    | none => none
    | some m => some (if m ≠ i then update (update perm i (perm m)) m (perm i) else perm)
  else some perm

/-- `fix_same_weight_order` (lines 639-659); iterations that start different chains access
different entries, so each is one step. -/
def fixOrder (edges : List (WeightedEdge W)) (keys : ℕ → ℤ) (perm : ℕ → ℕ) (ord : List ℕ) : Option (ℕ → ℕ) :=
  ord.foldl (fun o i => o.bind (fun perm => fixStep edges keys perm i)) (some perm)

/-- The new entry `i` of `parents`: lines 668-671 for a vertex, lines 683-701 for an edge. -/
def newParent (m : ℕ) (keys : ℕ → ℤ) (rev : ℕ → ℕ) (par : ℕ → Option ℤ) (i : ℕ) : Option ℤ :=
  if i < m then
    if i = m - 1 then some (-1)
    else if keys i / 2 ^ 32 = keys (i + 1) / 2 ^ 32 then some ((i + 1 : ℕ) : ℤ)
    else if (keys i / 2 ^ 32 / 2).toNat < m then some ((rev (keys i / 2 ^ 32 / 2).toNat : ℕ) : ℤ)
    else none
  else match par i with
    | none => none
    | some a => if 0 ≤ a ∧ a.toNat < m then some ((rev a.toNat : ℕ) : ℤ) else none

/-- What the library and the scheduler decide in `computeParentsAndReorderEdges`: the permutation
of the library sort of `m` given keys (of integers, and of weights in `Dendrogram`), the order of the iterations of `fix_same_weight_order`, of
`compute_rev_permute` and of `applyPermutation`. -/
structure Reorder (W : Type) where
  sort : ℕ → (ℕ → ℤ) → ℕ → ℕ
  sortW : ℕ → (ℕ → W) → ℕ → ℕ
  fix : List ℕ
  inv : List ℕ
  perm : List ℕ

/-- `computeParentsAndReorderEdges` (lines 550-708): the edges in their new order and the
parents. -/
def reorder (bits : W → ℕ) (edges : List (WeightedEdge W)) (sided par : ℕ → Option ℤ) (fuel : ℕ) (ro : Reorder W) :
    Outcome (List (WeightedEdge W) × (ℕ → Option ℤ)) :=
  let m := edges.length
  (collect (sortKey bits edges sided fuel) 0 m).bind (fun keys =>
    let s := Perm.sortObjects m keys (ro.sort m keys)                            -- line 616
    match fixOrder edges s.1 s.2 ro.fix with
    | none => .fault
    | some perm =>
      match Perm.applyInversePermutation m perm m (fun i => i) m (fun _ => 0) ro.inv with  -- lines 661-666
      | none => .fault
      | some rev =>
        if (List.range (2 * m + 1)).all (fun i => (newParent m s.1 rev par i).isSome) then
          match Perm.applyPermutationInPlace m perm m (fun i => edges[i]?) ro.perm with    -- line 708
          | none => .fault
          | some es => .ok (((List.range m).map es).filterMap id, newParent m s.1 rev par)
        else .fault)

/-! ## The constructor and `hdbscan` -/

/-- The members of `MinimumSpanningTree` in mode `HDBSCAN`. -/
structure Output (W : Type) where
  edges : List (WeightedEdge W)
  parents : ℕ → Option ℤ
  heights : ℕ → Option W

variable [SemilatticeSup V] [OrderBot V] {w : ℕ}

/-- The constructor of `MinimumSpanningTree` in mode `HDBSCAN` (`ArborX_MinimumSpanningTree.hpp`
45-96, `doBoruvka` 104-316) on the tree input `I`, with the metric given. After the loop the edges
of the last iteration are assigned to the root chain (lines 285-288); the heights are copied
(lines 304-311). -/
def hmst (P : Points V W) (bits : W → ℕ) (I : Input ℕ V w) (schedB ordP : List ℕ) (sc : ℕ → HSched) (ro : Reorder W)
    (fuel iters : ℕ) : Outcome (Output W) :=
  if I.n < 2 then .throw
  else
    let mem := I.build schedB
    match Labels.findParents mem ordP with
    | none => .fault
    | some par =>
      (hIterate P mem par fuel sc iters 0
        ⟨⟨fun i => (i : ℤ), fun _ => ⊥, []⟩, fun _ => none, fun _ => none, fun _ => none, 0, 0⟩).bind (fun s =>
        (reorder bits s.base.edges (fun e => if s.start ≤ e ∧ e < s.stop then some (-2) else s.sided e) s.par fuel ro).bind
          (fun p =>
            match finalizeEdges mem p.1 with
            | none => .fault
            | some es => .ok ⟨es, p.2, fun e => (p.1[e]?).map (·.weight)⟩))

/-- The query of the core distance of `p` ends without fault (lines 72-78). -/
def coreDone (G : Geo V W) (mem : Mem ℕ V) (fuel k p : ℕ) : Bool :=
  match coreDistance G mem fuel k p with
  | .done _ => true
  | _ => false

/-- Its result, the entry `p` of `core_distances` (lines 72-78). -/
def coreValue (G : Geo V W) (mem : Mem ℕ V) (fuel k p : ℕ) : W :=
  match coreDistance G mem fuel k p with
  | .done r => r
  | _ => ⊥

/-- The constructor with the number `k` given by the user (lines 66-94). -/
def hmstK (G : Geo V W) (bits : W → ℕ) (k : ℕ) (I : Input ℕ V w) (schedB ordP : List ℕ) (sc : ℕ → HSched) (ro : Reorder W)
    (fuel iters : ℕ) : Outcome (Output W) :=
  if 1 < k then
    if (List.range I.n).all (coreDone G (I.build schedB) fuel k) then
      hmst (G.points (some (coreValue G (I.build schedB) fuel k))) bits I schedB ordP sc ro fuel iters
    else .fault
  else hmst (G.points none) bits I schedB ordP sc ro fuel iters

/-- The dendrogram of the edges of the minimum spanning tree, given as a list. -/
def unionFindDendrogram (E : List (WeightedEdge W)) (sortW : ℕ → (ℕ → W) → ℕ → ℕ) : Outcome ((ℕ → Option ℤ) × (ℕ → Option W)) :=
  match Dendrogram.dendrogram E.length (fun e => E.getD e ⟨0, 0, ⊥⟩)
      (sortW E.length (fun e => (E.getD e ⟨0, 0, ⊥⟩).weight)) with
  | none => .fault
  | some (par, heights) => .ok (par, fun e => if e < E.length then some (heights e) else none)

/-- `hdbscan` (`ArborX_HDBSCAN.hpp` 22-58): parents and heights of the dendrogram. `boruvka` is
the choice of the implementation (the default is true). -/
def hdbscan (boruvka : Bool) (G : Geo V W) (bits : W → ℕ) (k : ℕ) (I : Input ℕ V w) (schedB ordP : List ℕ)
    (sc : ℕ → HSched) (ro : Reorder W) (fuel iters : ℕ) : Outcome ((ℕ → Option ℤ) × (ℕ → Option W)) :=
  if boruvka then
    (hmstK G bits k I schedB ordP sc ro fuel iters).bind (fun o => .ok (o.parents, o.heights))
  else
    (mstK G k I schedB ordP (fun it => (sc it).toSched) fuel iters).bind (fun E => unionFindDendrogram E ro.sortW)

end ArborX.Hdbscan
