import Verif.Dbscan.Model
import Verif.Traversal.Weak
import Verif.UnionFind.WeakModel

/-!
# FDBSCAN on a machine with weak memory
-/

namespace ArborX.Dbscan

open Traversal BVH
open Function (update)

/-- A load of `labels(v)` by the thread of point `i` in the finalisation. `labels(v)` is written
only by the thread of point `v`, once; other threads may see the label from before the kernel. -/
def floadW (L0 : ℕ → ℕ) (i : ℕ) (s : FState) (old : Bool) (v : ℕ) : ℕ :=
  if old = true ∧ v ≠ i then L0 v else s.L v

/-- One step of the thread of point `i` in `finalize_labels` as `fact`
(`ArborX_DBSCAN.hpp` 493-506). -/
def factW (L0 : ℕ → ℕ) (i : ℕ) (s : FState) (c : Bool) : FThr → FState
  | .loop v old =>
    if v > floadW L0 i s c v then { s with thr := update s.thr i (.loop (floadW L0 i s c v) old) }
    else if v ≠ old then { s with thr := update s.thr i (.write v) }
    else { s with thr := update s.thr i .count }
  | x => fact i s x

/-- One step, with the check of the bounds. -/
def fstepW (n : ℕ) (L0 : ℕ → ℕ) (s : FState) (e : ℕ × Bool) : FState :=
  if n ≤ e.1 then s
  else if (faccess e.1 (s.thr e.1)).any (fun x => decide (n ≤ x)) then
    { s with thr := update s.thr e.1 .fault }
  else factW L0 e.1 s e.2 (s.thr e.1)

/-- The kernel `finalize_labels`. -/
def finalizeW (n : ℕ) (L : ℕ → ℕ) (sched : List (ℕ × Bool)) : FState :=
  sched.foldl (fstepW n L) ⟨L, fun _ => 0, fun _ => .start⟩

variable {V : Type} {w : ℕ} [SemilatticeSup V] [OrderBot V]

/-- The end of `dbscan` as `finish` (lines 489-518). -/
def finishW (n : ℕ) (special : Bool) (core : ℕ → Bool) (L : ℕ → ℕ) (schedF : List (ℕ × Bool)) : Outcome :=
  let f := finalizeW n L schedF
  if (List.range n).any (fun i => decide (f.thr i = .fault)) then .fault
  else if !(List.range n).all (fun i => decide (f.thr i = .done)) then .running
  else .labels ((List.range n).map (markNoise special core f.L f.sizes))

/-- `dbscan` with the implementation FDBSCAN as `In.fdbscan` (lines 219-522), for execution spaces with several threads: all kernels
with races run on weak memory, and the end of a kernel orders its accesses before the next one. -/
def In.fdbscanW (D : In V w) (fuel : ℕ) (schedB : List (ℕ × Option V)) (schedU : List (ℕ × UF.Choice))
    (schedF : List (ℕ × Bool)) : Outcome :=
  let mem := buildW ⟨true, true⟩ D.tree schedB
  if D.minPts < 2 then .throw                                  -- line 241
  else if !D.traversalsOk mem fuel then .fault
  else
    let u := UF.runW D.n D.chunks.length (D.prog mem fuel) id schedU
    if (List.range D.chunks.length).any (fun t => isFault (u.thr t)) then .fault
    else if !(List.range D.chunks.length).all (fun t => isRet (u.thr t)) then .running
    else finishW D.n (decide (D.minPts = 2)) (D.isCore mem fuel) u.mem.L schedF

end ArborX.Dbscan
