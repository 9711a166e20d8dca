import Verif.Crs.Model
import Verif.Traversal.Model

/-!
# Model of the neighbour lists

Models `src/spatial/detail/ArborX_NeighborList.hpp` and
`src/spatial/detail/ArborX_ExpandHalfToFull.hpp`, on top of the passes of concurrent
insertions of `Verif/Crs/Model.lean` (an atomic increment, then a write).
The calls of the half traversal callback made by thread `t` are a list `calls t` of
pairs `(value1.index, value2.index)`.
-/

namespace ArborX.Neighbor

open Crs
open Function (update)

/-- A counting pass writes nothing. -/
def noTarget (_q _old : ℕ) : Option ℕ := none

/-- `findHalfNeighborList` (lines 47-107): count (lines 78-88), exclusive scan and allocation
(lines 89-91), fill (lines 96-103). -/
def findHalf (n nt : ℕ) (calls : ℕ → List (ℕ × ℕ)) (sched1 sched2 : List ℕ) : Outcome ℕ :=
  let prog := fun t => (calls t).map (fun p => (p.2, p.1))
  let p1 := runPass nt prog noTarget (fun _ => 0) 0 (fun _ => none) sched1
  if !finished nt p1 then .running
  else
    let offsets := scan p1.counts
    let p2 := runPass nt prog target2 offsets (offsets n) (fun _ => none) sched2
    if !finished nt p2 then .running
    else if p2.fault then .fault
    else .done (toList offsets (n + 1)) (toList p2.out (offsets n))

/-- Thread of the copy kernel of the full list (lines 169-185): it handles entry `loc` of row
`i`; it has not started, has read the entry `k`, has reserved a slot, or has finished. -/
inductive Copy where
  | start (i loc : ℕ)
  | got (i k : ℕ)
  | pend (slot i : ℕ)
  | done
  deriving DecidableEq

/-- State of the copy kernel. -/
structure CopyState where
  counts : ℕ → ℕ
  out : ℕ → Option ℕ
  thr : ℕ → Copy
  fault : Bool

/-- A step of the copy kernel: read `indices(first + j)`, increment the counter of the row
read, write (lines 179-183). Reading an uninitialised entry or writing out of bounds faults. -/
def copyStep (nt len : ℕ) (s : CopyState) (t : ℕ) : CopyState :=
  if nt ≤ t then s else
  match s.thr t with
  | .start i loc =>
    match s.out loc with
    | some k => { s with thr := update s.thr t (.got i k) }
    | none => { s with thr := update s.thr t .done, fault := true }
  | .got i k => { s with
      counts := update s.counts k (s.counts k + 1)
      thr := update s.thr t (.pend (s.counts k) i) }
  | .pend slot i => { s with
      out := update s.out slot (some i)
      fault := s.fault || decide (len ≤ slot)
      thr := update s.thr t .done }
  | .done => s

/-- The items `(i, first + j)` of the copy kernel, `first = offsets(i)`,
`last = counts_copy(i)` (lines 176-179). Every item is its own thread. -/
def copyItems (n : ℕ) (first last : ℕ → ℕ) : List (ℕ × ℕ) :=
  (List.range n).flatMap (fun i => (List.range (last i - first i)).map (fun j => (i, first i + j)))

/-- `findFullNeighborList` (lines 109-188): count both ends of each pair (lines 141-151), scan
and allocate (lines 152-154), fill the first part of the rows (lines 159-166), copy
(lines 169-185). -/
def findFull (n nt : ℕ) (calls : ℕ → List (ℕ × ℕ)) (sched1 sched2 sched3 : List ℕ) : Outcome ℕ :=
  let prog1 := fun t => (calls t).flatMap (fun p => [(p.1, p.2), (p.2, p.1)])
  let p1 := runPass nt prog1 noTarget (fun _ => 0) 0 (fun _ => none) sched1
  if !finished nt p1 then .running
  else
    let offsets := scan p1.counts
    let prog2 := fun t => (calls t).map (fun p => (p.2, p.1))
    let p2 := runPass nt prog2 target2 offsets (offsets n) (fun _ => none) sched2
    if !finished nt p2 then .running
    else if p2.fault then .fault
    else
      let items := copyItems n offsets p2.counts
      let s3 := sched3.foldl (copyStep items.length (offsets n))
        ⟨p2.counts, p2.out, fun t => (items[t]?).elim .done (fun x => .start x.1 x.2), false⟩
      if !((List.range items.length).all (fun t => decide (s3.thr t = .done))) then .running
      else if s3.fault then .fault
      else .done (toList offsets (n + 1)) (toList s3.out (offsets n))

/-- `expandHalfToFull` (`ArborX_ExpandHalfToFull.hpp` lines 23-68) on the arrays `offsets`
and `indices`. Count: one thread per row (lines 36-46); rewrite: one thread per entry
(lines 53-66). -/
def expand (n : ℕ) (offsets indices : ℕ → ℕ) (sched1 sched2 : List ℕ) : Outcome ℕ :=
  let row := fun i => (List.range (offsets (i + 1) - offsets i)).map (fun j => indices (offsets i + j))
  let p1 := runPass n (fun i => (row i).flatMap (fun k => [(i, k), (k, i)])) noTarget (fun _ => 0) 0
    (fun _ => none) sched1
  if !finished n p1 then .running
  else
    let offs := scan p1.counts
    let items := (List.range n).flatMap (fun i => (row i).map (fun k => (i, k)))
    let p2 := runPass items.length
      (fun t => (items[t]?).elim [] (fun x => [(x.1, x.2), (x.2, x.1)])) target2 offs (offs n) (fun _ => none) sched2
    if !finished items.length p2 then .running
    else if p2.fault then .fault
    else .done (toList offs (n + 1)) (toList p2.out (offs n))

end ArborX.Neighbor
