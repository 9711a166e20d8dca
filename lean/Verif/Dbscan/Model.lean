import Verif.Dbscan.Finalize
import Verif.Traversal.Theorems

/-!
# Model of `dbscan`, implementation FDBSCAN

Models `src/cluster/ArborX_DBSCAN.hpp` lines 219-327 and 489-522 with the callbacks of
`src/cluster/detail/ArborX_FDBSCAN.hpp`, on top of the models of the tree, of the traversals
and of the union-find.
-/

namespace ArborX.Dbscan

open Traversal BVH

/-- Inputs.
* `n` points, the values of the tree are their indices (`attach_indices`, line 274);
* `near i j` is the predicate of `WithinRadiusGetter` (lines 55-70), and of `make_intersects`
  (line 299), of point `i` on point `j`; `pv i v` the same on a bounding volume `v`;
  `vol i` the volume of point `i`; `code`, `perm` as in `BVH.Input`;
* `minPts` is `core_min_size`, `star` the choice of the algorithm DBSCAN*;
* `chunks` distributes the iterations of the half traversal over the threads of the execution
  space, each runs its list in order; `serial` is the execution space `Serial`. -/
structure In (V : Type) (w : ℕ) where
  n : ℕ
  near : ℕ → ℕ → Bool
  pv : ℕ → V → Bool
  vol : ℕ → V
  code : ℕ → BitVec w
  perm : ℕ → ℕ
  minPts : ℕ
  star : Bool
  chunks : List (List ℕ)
  serial : Bool

/-- Result: labels, an exception, an out-of-bounds access, or a schedule that ends too early. -/
inductive Outcome where
  | labels (l : List ℤ)
  | throw
  | fault
  | running
  deriving DecidableEq

variable {V : Type} {w : ℕ} [SemilatticeSup V] [OrderBot V]

/-- The tree over the points (lines 273-274). -/
def In.tree (D : In V w) : Input ℕ V w := ⟨D.n, id, D.vol, D.code, D.perm⟩

/-- `CountUpToN` (`ArborX_FDBSCAN.hpp` 30-46) run by the query of point `i`: the number of calls
made is the value of `counts(i)`, no other query touches it. The callback asks to stop when the
count reaches `minPts`. -/
def In.count (D : In V w) (mem : Mem ℕ V) (fuel i : ℕ) : Res (List ℕ) :=
  spatialQuery mem (D.near i) (D.pv i) (fun h => decide (h.length ≥ D.minPts)) fuel

/-- `DBSCANCorePoints` on the counts, or `CCSCorePoints` in the special case
(`ArborX_DBSCAN.hpp` 38-53). -/
def In.isCore (D : In V w) (mem : Mem ℕ V) (fuel i : ℕ) : Bool :=
  if D.minPts = 2 then true
  else match D.count mem fuel i with
    | .done calls => decide (calls.length ≥ D.minPts)
    | _ => false

/-- `FDBSCANCallback::operator()` (`ArborX_FDBSCAN.hpp` 58-109) on the pairs of a list, as
operations on the union-find. Its return value has no effect: `HalfTraversal` ignores it. -/
def callbacks (star : Bool) (core : ℕ → Bool) : List (ℕ × ℕ) → UF.Prog
  | [] => .ret
  | (i, j) :: ps =>
    if star && (!core i || !core j) then callbacks star core ps
    else if !core i then
      if core j then .into i j (callbacks star core ps) else callbacks star core ps
    else
      if core j then .merge i j (callbacks star core ps)
      else .into j i (callbacks star core ps)

/-- The pairs on which iteration `t` of the half traversal calls the callback. -/
def In.pairsOf (D : In V w) (mem : Mem ℕ V) (fuel t : ℕ) : Option (List (ℕ × ℕ)) :=
  match mem.leaf t, halfQuery mem D.near D.pv fuel t with
  | some lf, .done calls => some (calls.map (fun b => (lf.value, b)))
  | _, _ => none

/-- The program of thread `c`: the callbacks of its iterations, in order. In the special case
the tag is `DBSCANTag` whatever the algorithm (lines 289-293). -/
def In.prog (D : In V w) (mem : Mem ℕ V) (fuel c : ℕ) : UF.Prog :=
  callbacks (D.star && !decide (D.minPts = 2)) (D.isCore mem fuel)
    ((D.chunks.getD c []).flatMap (fun t => (D.pairsOf mem fuel t).getD []))

/-- All traversals return normally. -/
def In.traversalsOk (D : In V w) (mem : Mem ℕ V) (fuel : ℕ) : Bool :=
  (List.range D.n).all (fun i => (D.pairsOf mem fuel i).isSome &&
    (decide (D.minPts = 2) || match D.count mem fuel i with | .done _ => true | _ => false))

/-- A thread of the union-find has finished or has failed. -/
def isRet : UF.TS → Bool
  | .idle .ret => true
  | _ => false

def isFault : UF.TS → Bool
  | .fault => true
  | _ => false

/-- The end of `dbscan`, common to both implementations (lines 489-518): finalisation of the
labels under the schedule `schedF` and marking of the noise. -/
def finish (n : ℕ) (special : Bool) (core : ℕ → Bool) (L : ℕ → ℕ) (schedF : List ℕ) : Outcome :=
  let f := finalize n L schedF
  if (List.range n).any (fun i => decide (f.thr i = .fault)) then .fault
  else if !(List.range n).all (fun i => decide (f.thr i = .done)) then .running
  else .labels ((List.range n).map (markNoise special core f.L f.sizes))

/-- `dbscan` (lines 219-522) with the implementation FDBSCAN. `schedB`, `schedU`, `schedF` are
the schedules of the construction of the tree, of the half traversal and of the finalisation.
Labels start as `iota` (line 281). -/
def In.fdbscan (D : In V w) (fuel : ℕ) (schedB schedU schedF : List ℕ) : Outcome :=
  let mem := D.tree.build schedB
  if D.minPts < 2 then .throw                                  -- line 241
  else if !D.traversalsOk mem fuel then .fault
  else
    let P : UF.Params := ⟨D.n, D.chunks.length, D.serial⟩
    let u := UF.run P (D.prog mem fuel) id schedU
    if (List.range P.nt).any (fun t => isFault (u.thr t)) then .fault
    else if !(List.range P.nt).all (fun t => isRet (u.thr t)) then .running
    else finish D.n (decide (D.minPts = 2)) (D.isCore mem fuel) u.L schedF

end ArborX.Dbscan
