import Verif.Nearest.Model

/-!
# Model of the nearest traversal when distances can be NaN

As `Nearest.Model`, with distances of type `Option D`, `none` for NaN. Comparisons with NaN are false, so a NaN is neither inserted into the heap nor put on the stack.
-/

namespace ArborX.Nearest

variable {α V D : Type} [LinearOrder D]

/-- The constants of one query whose distances can be NaN (see `Query`). -/
structure NanQuery (α V D : Type) where
  k : ℕ
  dl : α → Option D
  dv : V → Option D
  zero : D
  inf : D
  cap : ℕ

/-- `x < y` of floating-point numbers. -/
def nanLt : Option D → Option D → Bool
  | some x, some y => decide (x < y)
  | _, _ => false

/-- `x <= y` of floating-point numbers. -/
def nanLe : Option D → Option D → Bool
  | some x, some y => decide (x ≤ y)
  | _, _ => false

/-- The lambda `distance` (`src/spatial/detail/ArborX_TreeTraversal.hpp` 210-215). -/
def nanDistance (mem : Mem α V) (q : NanQuery α V D) (j : ℕ) : Option (Option D) :=
  if j < mem.size then (mem.leaf j).map (fun x => q.dl x.value)
  else (mem.internal (j - mem.size)).map (fun x => q.dv x.vol)

/-- What is done with a child at distance `d` (lines 254-269 and 272-287, see `offer`). The distances in the heap have passed the test `d < radius` and are
numbers. -/
def nanOffer (mem : Mem α V) (k child : ℕ) (d : Option D) (heap : List (ℕ × D)) (radius : D) : Option (List (ℕ × D) × D × Bool) :=
  if nanLt d (some radius) then
    if child < mem.size then
      match d with
      | none => none -- not reached, NaN is not smaller than the radius
      | some d =>
        match (if heap.length < k then Heap.push cmp k heap (child, d) else Heap.popPush cmp heap (child, d)) with
        | none => none
        | some heap' =>
          if heap'.length = k then
            match Heap.top heap' with
            | none => none
            | some t => some (heap', t.2, false)
          else some (heap', radius, false)
    else some (heap, radius, true)
  else some (heap, radius, false)

/-- The `do` loop (lines 240-325, see `loop`). -/
def nanLoop (mem : Mem α V) (q : NanQuery α V D) :
    ℕ → ℕ → Option D → List (ℕ × Option D) → List (ℕ × D) → D → Res (List (ℕ × D))
  | 0, _, _, _, _, _ => .timeout
  | fuel + 1, node, dnode, stack, heap, radius =>
    if nanLt dnode (some radius) then
      match children mem node with
      | none => .fault
      | some (l, r) =>
        match nanDistance mem q l, nanDistance mem q r with
        | some dl, some dr =>
          match nanOffer mem q.k l dl heap radius with
          | none => .fault
          | some (heap1, radius1, tl) =>
            match nanOffer mem q.k r dr heap1 radius1 with
            | none => .fault
            | some (heap2, radius2, tr) =>
              if !tl && !tr then
                match stack with
                | [] => .done heap2
                | (n, d) :: st => nanLoop mem q fuel n d st heap2 radius2
              else if tl && (nanLe dl dr || !tr) then
                if tr then
                  if stack.length + 1 < q.cap then
                    nanLoop mem q fuel l dl ((r, dr) :: stack) heap2 radius2
                  else .fault
                else nanLoop mem q fuel l dl stack heap2 radius2
              else
                if tl then
                  if stack.length + 1 < q.cap then
                    nanLoop mem q fuel r dr ((l, dl) :: stack) heap2 radius2
                  else .fault
                else nanLoop mem q fuel r dr stack heap2 radius2
        | _, _ => .fault
    else
      match stack with
      | [] => .done heap
      | (n, d) :: st => nanLoop mem q fuel n d st heap radius

/-- `operator()(int)` (lines 180-335). -/
def nanFullTree (mem : Mem α V) (q : NanQuery α V D) (fuel : ℕ) : Res (List α) :=
  if q.k < 1 then .done []
  else match nanLoop mem q fuel mem.size (some q.zero) [] [] q.inf with
    | .fault => .fault
    | .timeout => .timeout
    | .done heap =>
      match Heap.sortHeap cmp heap heap.length with
      | none => .fault
      | some sorted => match output mem sorted with
        | none => .fault
        | some out => .done out

/-- `operator()(OneLeafTree, int)` (lines 168-178): no distance is computed. -/
def nanOneLeaf (mem : Mem α V) (k : ℕ) : Res (List α) :=
  if k < 1 then .done []
  else match mem.leaf 0 with
    | none => .fault
    | some lf => .done [lf.value]

/-- One query of a batch (lines 139-162). -/
def nanNearestQuery (mem : Mem α V) (q : NanQuery α V D) (fuel : ℕ) : Res (List α) :=
  if mem.size = 0 then .done []
  else if mem.size = 1 then nanOneLeaf mem q.k
  else nanFullTree mem q fuel

end ArborX.Nearest
