import Verif.DenseBox.Model
import Verif.Dbscan.WeakModel

/-!
# FDBSCAN-DenseBox on a machine with weak memory
-/

namespace ArborX.DenseBox

open Traversal BVH Dbscan

/-- Schedules with what the memory does in every step of the kernels with races: the construction
of the tree, the two union-find kernels and the finalisation. The scans and the reordering
(`base`) have no racing plain accesses: a cell is written by the thread which an atomic
increment has given it. -/
structure WSched (V : Type) where
  base : DSched
  dense : List (ℕ × UF.Choice)
  tree : List (ℕ × Option V)
  query : List (ℕ × UF.Choice)
  final : List (ℕ × Bool)

variable {V : Type} {w : ℕ} [SemilatticeSup V] [OrderBot V]

/-- `dbscan` as `DIn.dbscan` (`ArborX_DBSCAN.hpp` 219-522 with the implementation
FDBSCAN-DenseBox), for execution spaces with several threads. The end of a kernel orders its
accesses before the next one: the second union-find kernel sees the newest labels of the first. -/
def DIn.dbscanW (D : DIn V w) (S : WSched V) (fuel : ℕ) : Outcome :=
  if D.minPts < 2 then .throw
  else
    let I := D.cells S.base
    if !(List.range I.m).all (fun c => decide ((reorder I D.n S.base.reorder).thr c = .done)) then .running
    else match D.layout S.base with
    | none => .fault
    | some l =>
      let n1 := (D.chunks1 l.nd).length
      let u1 := UF.runW D.n n1 (D.prog1 l) id S.dense
      if (List.range n1).any (fun t => isFault (u1.thr t)) then .fault
      else if !(List.range n1).all (fun t => isRet (u1.thr t)) then .running
      else
        let mem := buildW ⟨true, true⟩ (D.tree l) S.tree
        if !D.queriesOk mem l fuel then .fault
        else
          let n2 := D.chunks2.length
          let u2 := UF.runW D.n n2 (D.prog2 mem l fuel) u1.mem.L S.query
          if (List.range n2).any (fun t => isFault (u2.thr t)) then .fault
          else if !(List.range n2).all (fun t => isRet (u2.thr t)) then .running
          else finishW D.n (decide (D.minPts = 2)) (D.isCore mem l fuel) u2.mem.L S.final

end ArborX.DenseBox
