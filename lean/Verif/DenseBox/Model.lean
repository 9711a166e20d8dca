import Verif.DenseBox.Reorder
import Verif.Dbscan.Model
import Mathlib.Data.List.GetD

/-!
# Model of `dbscan`, implementation FDBSCAN-DenseBox

Models `src/cluster/ArborX_DBSCAN.hpp` lines 328-522 (and the primitives of lines 82-175) with
the kernels of `src/cluster/detail/ArborX_FDBSCANDenseBox.hpp`, on top of the models of the
permutation utilities, of the reordering, of the tree, of the traversals and of the
union-find. The grid itself (`ArborX_CartesianGrid.hpp`) is modelled in `Grid.lean`; here it
enters as the cell index of every point and the box of every cell index.
-/

namespace ArborX.DenseBox

open Traversal BVH Dbscan

/-- Inputs.
* `n` points; `near i j`: the distance of the points `i` and `j` is at most `eps` (the test
  `distance(...) <= eps` of the kernels and the predicate of `make_intersects` on the point `j`);
  `pv i v`: the predicate of point `i` on a bounding volume; `pvol i` the volume of point `i`;
* `cell i` the cell index of point `i` (`computeCellIndices`), `box c` the box of a cell index
  (`cellBox`); `nearBox i c`: the predicate of point `i` on the box of cell `c`;
* `σ` the permutation of the library sort of the cell indices;
* `code m prims`, `tperm m prims`: Morton codes and their sort for a tree over `m` primitives;
* `minPts`, `star` as for FDBSCAN; `chunks1 m` distributes the iterations `1 .. m-1` of
  `unionFindWithinEachDenseCell`, `chunks2` the queries `0 .. n-1` over the threads. -/
structure DIn (V : Type) (w : ℕ) where
  n : ℕ
  near : ℕ → ℕ → Bool
  pv : ℕ → V → Bool
  pvol : ℕ → V
  cell : ℕ → ℕ
  box : ℕ → V
  nearBox : ℕ → ℕ → Bool
  σ : ℕ → ℕ
  code : ℕ → (ℕ → V) → ℕ → BitVec w
  tperm : ℕ → (ℕ → V) → ℕ → ℕ
  minPts : ℕ
  star : Bool
  serial : Bool
  chunks1 : ℕ → List (List ℕ)
  chunks2 : List (List ℕ)

/-- What the scheduler and uninitialised memory decide: the orders of the final passes of the
two scans and the previous contents of the offset views, and the schedules of the reordering,
of the tree construction, of the two union-find kernels and of the finalisation. -/
structure DSched where
  ord1 : List ℕ
  ord2 : ℕ → List ℕ
  garbage1 : ℕ → ℕ
  garbage2 : ℕ → ℕ
  reorder : List ℕ
  dense : List ℕ
  tree : List ℕ
  query : List ℕ
  final : List ℕ

/-- The reordered views: `permute`, the sorted cell indices, `num_points_in_dense_cells` and
`dense_cell_offsets`. -/
structure Lay where
  perm : ℕ → ℕ
  scell : ℕ → ℕ
  nd : ℕ
  doffs : List ℕ

namespace Lay

/-- `dense_cell_offsets(k)`. -/
def off (l : Lay) (k : ℕ) : ℕ := l.doffs.getD k 0

/-- `num_dense_cells` (line 372). -/
def m (l : Lay) : ℕ := l.doffs.length - 1

/-- `permute(jj)` for `jj` from `dense_cell_offsets(k)` to `dense_cell_offsets(k + 1) - 1`: the
points that the loops over dense cell `k` visit (`ArborX_FDBSCANDenseBox.hpp` 76-78, 157-159). -/
def block (l : Lay) (k : ℕ) : List ℕ :=
  (List.range (l.off (k + 1) - l.off k)).map (fun x => l.perm (l.off k + x))

/-- The point of the sparse primitive `k` (`ArborX_FDBSCANDenseBox.hpp` 178,
`ArborX_DBSCAN.hpp` 160-162). -/
def sparse (l : Lay) (k : ℕ) : ℕ := l.perm (l.nd + (k - l.m))

/-- Point `i` lies in a dense cell: it is among the points whose `num_neigh` is set to `INT_MAX`
(lines 438-441). -/
def isDense (l : Lay) (i : ℕ) : Bool := (List.range l.nd).any (fun j => decide (l.perm j = i))

/-- Size of `MixedBoxPrimitives` (lines 133-142). -/
def prims (l : Lay) (n : ℕ) : ℕ := l.m + (n - l.nd)

end Lay

variable {V : Type} {w : ℕ}

/-- Cells of the sorted indices: input of `reorderDenseAndSparseCells` (lines 346-361). The
entries are pairs of cell index and permutation index. -/
def DIn.cells (D : DIn V w) (S : DSched) : Cells (ℕ × ℕ) :=
  let s := Perm.sortObjects D.n D.cell D.σ
  let offs := Perm.computeOffsets D.n s.1 S.garbage1 S.ord1
  ⟨offs.length - 1, fun c => offs.getD c 0, fun j => (s.1 j, s.2 j), D.minPts⟩

/-- The layout after lines 344-371; `none` when the reordering faulted or has not finished, or
left an entry unwritten. -/
def DIn.layout (D : DIn V w) (S : DSched) : Option Lay :=
  let I := D.cells S
  let r := reorder I D.n S.reorder
  if r.fault || !(List.range I.m).all (fun c => decide (r.thr c = .done)) ||
      !(List.range D.n).all (fun i => (r.out i).isSome) then none
  else
    let perm := fun i => ((r.out i).getD (0, 0)).2
    let scell := fun i => ((r.out i).getD (0, 0)).1
    some ⟨perm, scell, I.numDense,
      Perm.computeOffsets I.numDense scell S.garbage2 (S.ord2 I.numDense)⟩

/-- The volume of primitive `k` (`AccessTraits<MixedBoxPrimitives>::get`, lines 143-173). -/
def DIn.prim (D : DIn V w) (l : Lay) (k : ℕ) : V :=
  if k < l.m then D.box (l.scell (l.off k)) else D.pvol (l.sparse k)

/-- The predicate of point `i` on primitive `k`. -/
def DIn.hit (D : DIn V w) (l : Lay) (i k : ℕ) : Bool :=
  if k < l.m then D.nearBox i (l.scell (l.off k)) else D.near i (l.sparse k)

/-- The tree over the mixed primitives (lines 399-409). -/
def DIn.tree (D : DIn V w) (l : Lay) : Input ℕ V w :=
  ⟨l.prims D.n, id, D.prim l, D.code (l.prims D.n) (D.prim l), D.tperm (l.prims D.n) (D.prim l)⟩

/-- Program of thread `c` of `unionFindWithinEachDenseCell`
(`ArborX_FDBSCANDenseBox.hpp` 286-307): for at most one point the loop is empty. -/
def DIn.prog1 (D : DIn V w) (l : Lay) (c : ℕ) : UF.Prog :=
  UF.ofMerges (((D.chunks1 l.nd).getD c []).filterMap (fun i =>
    if l.scell i = l.scell (i - 1) then some (l.perm i, l.perm (i - 1)) else none))

/-- The loop of `CountUpToN_DenseBox` over the points of a dense cell (76-84): new count and
whether the callback asked to stop. -/
def countBlock (near : ℕ → Bool) (N : ℕ) : List ℕ → ℕ → ℕ × Bool
  | [], c => (c, false)
  | j :: js, c =>
    if near j then (if c + 1 ≥ N then (c + 1, true) else countBlock near N js (c + 1))
    else countBlock near N js c

/-- `CountUpToN_DenseBox::operator()` (61-93) of point `i` on primitive `k`, for the count `c`. -/
def DIn.countStep (D : DIn V w) (l : Lay) (i c k : ℕ) : ℕ × Bool :=
  if k < l.m then countBlock (D.near i) D.minPts (l.block k) c
  else (c + 1, decide (c + 1 ≥ D.minPts))

/-- The count after the calls `h`. -/
def DIn.countOf (D : DIn V w) (l : Lay) (i : ℕ) (h : List ℕ) : ℕ :=
  h.foldl (fun c k => (D.countStep l i c k).1) 0

/-- The return value of the last of the calls `h`. -/
def DIn.stop (D : DIn V w) (l : Lay) (i : ℕ) (h : List ℕ) : Bool :=
  match h.getLast? with
  | none => false
  | some k => (D.countStep l i (D.countOf l i h.dropLast) k).2

/-- The counting query of point `i` (lines 446-454). -/
def DIn.count (D : DIn V w) (mem : Mem ℕ V) (l : Lay) (fuel i : ℕ) : Res (List ℕ) :=
  spatialQuery mem (D.hit l i) (D.pv i) (D.stop l i) fuel

/-- `CCSCorePoints` in the special case, otherwise `DBSCANCorePoints` on the counts: `INT_MAX` for
the points of the dense cells, the result of the query for the others (lines 431-457). -/
def DIn.isCore (D : DIn V w) (mem : Mem ℕ V) (l : Lay) (fuel i : ℕ) : Bool :=
  if D.minPts = 2 then true
  else if l.isDense i then true
  else match D.count mem l fuel i with
    | .done calls => decide (D.countOf l i calls ≥ D.minPts)
    | _ => false

/-- The loop of `FDBSCANDenseBoxCallback` over the points of a dense cell (157-174), followed by
`k`. -/
def denseLoop (near : ℕ → Bool) (i : ℕ) : List ℕ → UF.Prog → UF.Prog
  | [], k => k
  | j :: js, k =>
    .same i j (fun r => if r then k
      else if near j then .merge i j k else denseLoop near i js k)

/-- `FDBSCANDenseBoxCallback::operator()` (133-197) of a core point `i` on primitive `p`,
followed by `k`. -/
def DIn.callback (D : DIn V w) (l : Lay) (core : ℕ → Bool) (star : Bool) (i p : ℕ) (k : UF.Prog) :
    UF.Prog :=
  if p < l.m then
    .same i (l.perm (l.off p)) (fun r => if r then k else denseLoop (D.near i) i (l.block p) k)
  else
    let j := l.sparse p
    if core j && decide (i > j) then .merge i j k
    else if !star && !core j then .into j i k
    else k

/-- The callbacks of one query. -/
def DIn.callbacks (D : DIn V w) (l : Lay) (core : ℕ → Bool) (star : Bool) (i : ℕ) (k : UF.Prog) :
    List ℕ → UF.Prog
  | [] => k
  | p :: ps => D.callback l core star i p (DIn.callbacks D l core star i k ps)

/-- The main query of point `i`: the primitives on which the callback is called. A point that is
not a core point leaves at the first call (139-141). -/
def DIn.main (D : DIn V w) (mem : Mem ℕ V) (l : Lay) (core : ℕ → Bool) (fuel i : ℕ) : Res (List ℕ) :=
  spatialQuery mem (D.hit l i) (D.pv i) (fun _ => !core i) fuel

/-- The queries of a list of points, in order. -/
def DIn.queries (D : DIn V w) (mem : Mem ℕ V) (l : Lay) (core : ℕ → Bool) (star : Bool) (fuel : ℕ) :
    List ℕ → UF.Prog
  | [] => .ret
  | i :: is =>
    match D.main mem l core fuel i with
    | .done calls =>
      if core i then D.callbacks l core star i (DIn.queries D mem l core star fuel is) calls
      else DIn.queries D mem l core star fuel is
    | _ => .ret

/-- All queries return normally. -/
def DIn.queriesOk (D : DIn V w) (mem : Mem ℕ V) (l : Lay) (fuel : ℕ) : Bool :=
  (List.range D.n).all (fun i =>
    (match D.main mem l (D.isCore mem l fuel) fuel i with | .done _ => true | _ => false) &&
    (decide (D.minPts = 2) || l.isDense i ||
      match D.count mem l fuel i with | .done _ => true | _ => false))

/-- Program of thread `c` of the main query (lines 415-480). In the special case the tag is
`DBSCANTag`. -/
def DIn.prog2 (D : DIn V w) (mem : Mem ℕ V) (l : Lay) (fuel c : ℕ) : UF.Prog :=
  D.queries mem l (D.isCore mem l fuel) (D.star && !decide (D.minPts = 2)) fuel (D.chunks2.getD c [])

variable [SemilatticeSup V] [OrderBot V]

/-- `dbscan` (lines 219-522) with the implementation FDBSCAN-DenseBox. -/
def DIn.dbscan (D : DIn V w) (S : DSched) (fuel : ℕ) : Outcome :=
  if D.minPts < 2 then .throw
  else
    let I := D.cells S
    if !(List.range I.m).all (fun c => decide ((reorder I D.n S.reorder).thr c = .done)) then .running
    else match D.layout S with
    | none => .fault
    | some l =>
      let P1 : UF.Params := ⟨D.n, (D.chunks1 l.nd).length, D.serial⟩
      let u1 := UF.run P1 (D.prog1 l) id S.dense
      if (List.range P1.nt).any (fun t => isFault (u1.thr t)) then .fault
      else if !(List.range P1.nt).all (fun t => isRet (u1.thr t)) then .running
      else
        let mem := (D.tree l).build S.tree
        if !D.queriesOk mem l fuel then .fault
        else
          let P2 : UF.Params := ⟨D.n, D.chunks2.length, D.serial⟩
          let u2 := UF.run P2 (D.prog2 mem l fuel) u1.L S.query
          if (List.range P2.nt).any (fun t => isFault (u2.thr t)) then .fault
          else if !(List.range P2.nt).all (fun t => isRet (u2.thr t)) then .running
          else finish D.n (decide (D.minPts = 2)) (D.isCore mem l fuel) u2.L S.final

end ArborX.DenseBox
