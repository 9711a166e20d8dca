import Verif.Nearest.Model

/-!
# Model of the ordered spatial traversal

Models `TreeTraversal<OrderedSpatialPredicateTag>`
(`src/spatial/detail/ArborX_TreeTraversal.hpp` 337-490).
-/

namespace ArborX.Ordered

variable {α V D : Type} [LinearOrder D]

/-- Constants of one query: distances to values and to bounding volumes, infinity, and
the size of the array `buffer` (64, line 424). -/
structure Query (α V D : Type) where
  dl : α → D
  dv : V → D
  inf : D
  cap : ℕ

/-- `CompareDistance` (lines 414-421): the closest node is on top. -/
def cmp (x y : ℕ × D) : Bool := decide (x.2 > y.2)

/-- The lambda `distance` (lines 434-439). -/
def distance (mem : Mem α V) (q : Query α V D) (j : ℕ) : Option D :=
  if j < mem.size then (mem.leaf j).map (fun x => q.dl x.value)
  else (mem.internal (j - mem.size)).map (fun x => q.dv x.vol)

/-- `if (p.second < inf) heap.push(p)`. -/
def pushFinite (q : Query α V D) (heap : List (ℕ × D)) (p : ℕ × D) : Option (List (ℕ × D)) :=
  if p.2 < q.inf then Heap.push cmp q.cap heap p else some heap

/-- The loop of `operator()(Predicate)` (lines 445-487). The callback is as in
`Traversal.spatialLoop`. -/
def loop (mem : Mem α V) (q : Query α V D) (stop : List α → Bool) :
    ℕ → ℕ → List (ℕ × D) → List α → Res (List α)
  | 0, _, _, _ => .timeout
  | fuel + 1, node, heap, acc =>
    if node < mem.size then
      match mem.leaf node with
      | none => .fault
      | some lf =>
        if stop (acc ++ [lf.value]) then .done (acc ++ [lf.value])
        else match Heap.top heap with
          | none => .done (acc ++ [lf.value])
          | some t => match Heap.pop cmp heap with
            | none => .fault
            | some heap' => loop mem q stop fuel t.1 heap' (acc ++ [lf.value])
    else match Nearest.children mem node with
      | none => .fault
      | some (l, r) => match distance mem q l, distance mem q r with
        | some dl, some dr =>
          let closer := if dl < dr then (l, dl) else (r, dr)
          let further := if dl < dr then (r, dr) else (l, dl)
          match Heap.top heap with
          | some t =>
            if t.2 < closer.2 then
              match Heap.pop cmp heap with
              | none => .fault
              | some h1 => match pushFinite q h1 closer with
                | none => .fault
                | some h2 => match pushFinite q h2 further with
                  | none => .fault
                  | some h3 => loop mem q stop fuel t.1 h3 acc
            else match pushFinite q heap further with
              | none => .fault
              | some h1 => loop mem q stop fuel closer.1 h1 acc
          | none => match pushFinite q heap further with
            | none => .fault
            | some h1 => loop mem q stop fuel closer.1 h1 acc
        | _, _ => .fault

/-- `operator()(OneLeafTree, int)` (lines 386-400). -/
def oneLeaf (mem : Mem α V) (q : Query α V D) : Res (List α) :=
  match mem.leaf 0 with
  | none => .fault
  | some lf => if q.dl lf.value ≠ q.inf then .done [lf.value] else .done []

/-- One query of a batch: the dispatch on the size (lines 351-372). -/
def orderedQuery (mem : Mem α V) (q : Query α V D) (stop : List α → Bool) (fuel : ℕ) :
    Res (List α) :=
  if mem.size = 0 then .done []
  else if mem.size = 1 then oneLeaf mem q
  else loop mem q stop fuel mem.size [] []

end ArborX.Ordered
