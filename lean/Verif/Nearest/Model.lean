import Verif.Traversal.Model
import Verif.Heap.Model
import Mathlib.Order.Defs.LinearOrder

/-!
# Model of the nearest traversal

Models `TreeTraversal<NearestPredicateTag>`
(`src/spatial/detail/ArborX_TreeTraversal.hpp` 122-335), the host version (distances
kept on a second stack, lines 221-225, 303-304, 320-323; the `__CUDA_ARCH__` version
recomputes the same values).
-/

namespace ArborX.Nearest

variable {α V D : Type} [LinearOrder D]

/-- Constants of one query.
* `k` is `getK(predicate)`; a negative `k` is outside the model;
* `dl a` is `predicate.distance(indexable of the value a)`, `dv v` is
  `predicate.distance(v)` for a bounding volume;
* `zero`, `inf` are the initial values of `distance_node` and `radius` (lines 231-238);
* `cap` is the size of the array `stack` (64, line 218). -/
structure Query (α V D : Type) where
  k : ℕ
  dl : α → D
  dv : V → D
  zero : D
  inf : D
  cap : ℕ

/-- `CompareDistance` (lines 192-199). -/
def cmp (x y : ℕ × D) : Bool := decide (x.2 < y.2)

/-- The lambda `distance` (lines 210-215). -/
def distance (mem : Mem α V) (q : Query α V D) (j : ℕ) : Option D :=
  if j < mem.size then (mem.leaf j).map (fun x => q.dl x.value)
  else (mem.internal (j - mem.size)).map (fun x => q.dv x.vol)

/-- What is done with a child at distance `d` (lines 254-269 and 272-287): the new
heap and radius, and whether it is to be traversed. The buffer of the queue has `k`
entries (line 204). -/
def offer (mem : Mem α V) (q : Query α V D) (child : ℕ) (d : D) (heap : List (ℕ × D)) (radius : D) :
    Option (List (ℕ × D) × D × Bool) :=
  if d < radius then
    if child < mem.size then
      match (if heap.length < q.k then Heap.push cmp q.k heap (child, d)
             else Heap.popPush cmp heap (child, d)) with
      | none => none
      | some heap' =>
        if heap'.length = q.k then
          match Heap.top heap' with
          | none => none
          | some t => some (heap', t.2, false)
        else some (heap', radius, false)
    else some (heap, radius, true)
  else some (heap, radius, false)

/-- `HappyTreeFriends::getLeftChild` and `getRightChild`
(`src/spatial/detail/ArborX_HappyTreeFriends.hpp` 66-77): the right child is the rope
of the left child. -/
def children (mem : Mem α V) (node : ℕ) : Option (ℕ × ℕ) :=
  if node < mem.size then none
  else match mem.internal (node - mem.size) with
    | none => none
    | some nd => match Traversal.getRope mem nd.left with
      | some (some r) => some (nd.left, r)
      | _ => none

/-- The `do` loop (lines 240-325). `stack` holds the entries above the sentinel, with
their distances; a push beyond `cap` entries (sentinel included) is a fault. The result
is the final heap. -/
def loop (mem : Mem α V) (q : Query α V D) :
    ℕ → ℕ → D → List (ℕ × D) → List (ℕ × D) → D → Res (List (ℕ × D))
  | 0, _, _, _, _, _ => .timeout
  | fuel + 1, node, dnode, stack, heap, radius =>
    if dnode < radius then
      match children mem node with
      | none => .fault
      | some (l, r) =>
        match distance mem q l, distance mem q r with
        | some dl, some dr =>
          match offer mem q l dl heap radius with
          | none => .fault
          | some (heap1, radius1, tl) =>
            match offer mem q r dr heap1 radius1 with
            | none => .fault
            | some (heap2, radius2, tr) =>
              if !tl && !tr then
                match stack with
                | [] => .done heap2
                | (n, d) :: st => loop mem q fuel n d st heap2 radius2
              else if tl && (decide (dl ≤ dr) || !tr) then
                if tr then
                  if stack.length + 1 < q.cap then
                    loop mem q fuel l dl ((r, dr) :: stack) heap2 radius2
                  else .fault
                else loop mem q fuel l dl stack heap2 radius2
              else
                if tl then
                  if stack.length + 1 < q.cap then
                    loop mem q fuel r dr ((l, dl) :: stack) heap2 radius2
                  else .fault
                else loop mem q fuel r dr stack heap2 radius2
        | _, _ => .fault
    else
      match stack with
      | [] => .done heap
      | (n, d) :: st => loop mem q fuel n d st heap radius

/-- The output loop (lines 330-334): values of the leaves of the sorted heap. -/
def output (mem : Mem α V) : List (ℕ × D) → Option (List α)
  | [] => some []
  | (i, _) :: rest =>
    match mem.leaf i, output mem rest with
    | some lf, some out => some (lf.value :: out)
    | _, _ => none

/-- `operator()(int)` (lines 180-335). -/
def fullTree (mem : Mem α V) (q : Query α V D) (fuel : ℕ) : Res (List α) :=
  if q.k < 1 then .done []
  else match loop mem q fuel mem.size q.zero [] [] q.inf with
    | .fault => .fault
    | .timeout => .timeout
    | .done heap =>
      match Heap.sortHeap cmp heap heap.length with
      | none => .fault
      | some sorted => match output mem sorted with
        | none => .fault
        | some out => .done out

/-- `operator()(OneLeafTree, int)` (lines 168-178). -/
def oneLeaf (mem : Mem α V) (q : Query α V D) : Res (List α) :=
  if q.k < 1 then .done []
  else match mem.leaf 0 with
    | none => .fault
    | some lf => .done [lf.value]

/-- One query of a batch: the dispatch on the size of the tree (lines 139-162). The
result is the list of values the callback is called on. -/
def nearestQuery (mem : Mem α V) (q : Query α V D) (fuel : ℕ) : Res (List α) :=
  if mem.size = 0 then .done []
  else if mem.size = 1 then oneLeaf mem q
  else fullTree mem q fuel

end ArborX.Nearest
