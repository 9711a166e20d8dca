import Verif.Shared.Heap
import Verif.Shared.Buffer
import Verif.Nearest.Model

/-!
# Model of a batch of nearest queries

Models the nearest queries of one call of `query`, which run concurrently and keep their candidates in parts of one
buffer: `src/spatial/detail/ArborX_NearestBufferProvider.hpp` and `TreeTraversal<NearestPredicateTag>`
(`src/spatial/detail/ArborX_TreeTraversal.hpp` 122-335). Each query is a program of single reads and
writes of the buffer (`Verif.Shared.Model`); the rest of its state (node, stack, radius, number of candidates) is private.
-/

namespace ArborX.Nearest

open Shared (Prog offset)

variable {α V D : Type} [LinearOrder D]

/-- What is done with a child at distance `d` (lines 254-269 and 272-287): the new number of candidates, the radius and whether
the child is to be traversed. The queue is in the entries from `o` on. -/
def Batch.offer (mem : Mem α V) (q : Query α V D) (o child : ℕ) (d : D) (size : ℕ) (radius : D) : Prog (ℕ × D) (ℕ × D × Bool) :=
  if d < radius then
    if child < mem.size then
      (if size < q.k then Shared.push cmp o size (child, d) else Shared.popPush cmp o size (child, d)).bind fun size' =>
        if size' = q.k then .read o fun t => .ret (size', t.2, false) else .ret (size', radius, false)
    else .ret (size, radius, true)
  else .ret (size, radius, false)

/-- The `do` loop (lines 240-325). The result is the number of candidates. -/
def Batch.loop (mem : Mem α V) (q : Query α V D) (o : ℕ) : ℕ → ℕ → D → List (ℕ × D) → ℕ → D → Prog (ℕ × D) ℕ
  | 0, _, _, _, _, _ => .fault
  | fuel + 1, node, dnode, stack, size, radius =>
    if dnode < radius then
      match children mem node with
      | none => .fault
      | some (l, r) =>
        match distance mem q l, distance mem q r with
        | some dl, some dr =>
          (Batch.offer mem q o l dl size radius).bind fun x =>
            (Batch.offer mem q o r dr x.1 x.2.1).bind fun y =>
              if !x.2.2 && !y.2.2 then
                match stack with
                | [] => .ret y.1
                | (n, d) :: st => Batch.loop mem q o fuel n d st y.1 y.2.1
              else if x.2.2 && (decide (dl ≤ dr) || !y.2.2) then
                if y.2.2 then
                  if stack.length + 1 < q.cap then Batch.loop mem q o fuel l dl ((r, dr) :: stack) y.1 y.2.1 else .fault
                else Batch.loop mem q o fuel l dl stack y.1 y.2.1
              else
                if x.2.2 then
                  if stack.length + 1 < q.cap then Batch.loop mem q o fuel r dr ((l, dl) :: stack) y.1 y.2.1 else .fault
                else Batch.loop mem q o fuel r dr stack y.1 y.2.1
        | _, _ => .fault
    else
      match stack with
      | [] => .ret size
      | (n, d) :: st => Batch.loop mem q o fuel n d st size radius

/-- The output loop (lines 330-334): `cnt` candidates from the `i`-th on. -/
def Batch.output (mem : Mem α V) (o : ℕ) : ℕ → ℕ → Prog (ℕ × D) (List α)
  | _, 0 => .ret []
  | i, cnt + 1 => .read (o + i) fun x =>
    match mem.leaf x.1 with
    | none => .fault
    | some lf => (Batch.output mem o (i + 1) cnt).bind fun out => .ret (lf.value :: out)

/-- `operator()(int)` (lines 180-335) of a query whose part of the buffer starts at `o`: the values the callback is called on. -/
def Batch.query (mem : Mem α V) (q : Query α V D) (o fuel : ℕ) : Prog (ℕ × D) (List α) :=
  if q.k < 1 then .ret []
  else (Batch.loop mem q o fuel mem.size q.zero [] 0 q.inf).bind fun size =>
    (Shared.sortHeap cmp o size).bind fun _ => Batch.output mem o 0 size

/-- `operator()(OneLeafTree, int)` (lines 168-178). -/
def Batch.oneLeaf (mem : Mem α V) (q : Query α V D) : Prog (ℕ × D) (List α) :=
  if q.k < 1 then .ret []
  else match mem.leaf 0 with
    | none => .fault
    | some lf => .ret [lf.value]

/-- The `i`-th of the queries `q` (lines 136-162); `_buffer(i)` starts at `_offset(i)`, as an `int` that is converted to a
position. An empty tree is not traversed. -/
def Batch.prog (mem : Mem α V) (q : ℕ → Query α V D) (fuel i : ℕ) : Prog (ℕ × D) (List α) :=
  if mem.size = 0 then .ret []
  else if mem.size = 1 then Batch.oneLeaf mem (q i)
  else Batch.query mem (q i) (offset (fun j => (q j).k) i).toNat fuel

/-- The `n` queries of a batch under a schedule of their steps. The buffer has as many entries as the last offset says. -/
def Batch.run (mem : Mem α V) (n : ℕ) (q : ℕ → Query α V D) (fuel : ℕ) (sched : List ℕ) : Shared.State (ℕ × D) (List α) :=
  Shared.run n (offset (fun j => (q j).k) n).toNat (Batch.prog mem q fuel) sched

end ArborX.Nearest
