import Verif.Layout

/-!
# Model of the spatial and half traversals

Models `src/spatial/detail/ArborX_TreeTraversal.hpp` (spatial, lines 34-120) and
`src/spatial/detail/ArborX_HalfTraversal.hpp` (lines 23-75).
-/

namespace ArborX

/-- Outcome of a piece of device code: it returned, it accessed memory out of
bounds or unwritten memory, or it was still running when the fuel ran out. -/
inductive Res (β : Type) where
  | done (x : β)
  | fault
  | timeout
  deriving DecidableEq, Repr

namespace Traversal

variable {α V : Type}

/-- `HappyTreeFriends::getRope` (`ArborX_HappyTreeFriends.hpp` 79-84); the outer
`none` is a read of unwritten memory. -/
def getRope (mem : Mem α V) (i : ℕ) : Option (Option ℕ) :=
  if i < mem.size then (mem.leaf i).map (·.rope)
  else (mem.internal (i - mem.size)).map (·.rope)

/-- The loop of `TreeTraversal<SpatialPredicateTag>::operator()(Predicate)` (lines
97-119), from node `node` (`none` is `ROPE_SENTINEL`).
* `pl a` is `predicate(indexable of the value a)`, `pv v` is `predicate(v)` for a
  bounding volume;
* `stop h` is whether the callback, having been called on the values `h` in this
  order, answered `early_exit` to the last call (a callback without return value
  never stops); a callback is thus an arbitrary function of its history;
* `acc` is the list of values the callback has been called on. -/
def spatialLoop (mem : Mem α V) (pl : α → Bool) (pv : V → Bool) (stop : List α → Bool) :
    ℕ → Option ℕ → List α → Res (List α)
  | _, none, acc => .done acc
  | 0, some _, _ => .timeout
  | fuel + 1, some node, acc =>
    if node < mem.size then
      match mem.leaf node with
      | none => .fault
      | some lf =>
        if pl lf.value then
          if stop (acc ++ [lf.value]) then .done (acc ++ [lf.value])
          else spatialLoop mem pl pv stop fuel lf.rope (acc ++ [lf.value])
        else spatialLoop mem pl pv stop fuel lf.rope acc
    else
      match mem.internal (node - mem.size) with
      | none => .fault
      | some nd =>
        if pv nd.vol then spatialLoop mem pl pv stop fuel (some nd.left) acc
        else spatialLoop mem pl pv stop fuel nd.rope acc

/-- `operator()(OneLeafTree, int)` (lines 80-90). -/
def spatialOneLeaf (mem : Mem α V) (pl : α → Bool) : Res (List α) :=
  match mem.leaf 0 with
  | none => .fault
  | some lf => if pl lf.value then .done [lf.value] else .done []

/-- One query of the batched spatial search: the dispatch on the size of the tree
(lines 48-66) and `getRoot` (`ArborX_HappyTreeFriends.hpp` 26-30). -/
def spatialQuery (mem : Mem α V) (pl : α → Bool) (pv : V → Bool) (stop : List α → Bool)
    (fuel : ℕ) : Res (List α) :=
  if mem.size = 0 then .done []
  else if mem.size = 1 then spatialOneLeaf mem pl
  else spatialLoop mem pl pv stop fuel (some mem.size) []

/-- The per-thread interface (`src/spatial/ArborX_LinearBVH.hpp` 112-122): no
dispatch on the size. -/
def spatialQueryPerThread (mem : Mem α V) (pl : α → Bool) (pv : V → Bool)
    (stop : List α → Bool) (fuel : ℕ) : Res (List α) :=
  spatialLoop mem pl pv stop fuel (some mem.size) []

/-- `HalfTraversal::operator()(int i)` (`ArborX_HalfTraversal.hpp` 52-74), together
with the dispatch of lines 37-49: the values the callback is called on with the
value of leaf `i`. `pl a b` is `get_predicate(a)(indexable of b)`, `pv a v` is
`get_predicate(a)(v)`. The loop body is the one of the spatial traversal; the
callback cannot stop it. -/
def halfQuery (mem : Mem α V) (pl : α → α → Bool) (pv : α → V → Bool) (fuel : ℕ) (i : ℕ) :
    Res (List α) :=
  if mem.size ≤ 1 then .done []
  else
    match mem.leaf i with
    | none => .fault
    | some lf => spatialLoop mem (pl lf.value) (pv lf.value) (fun _ => false) fuel lf.rope []

end Traversal
end ArborX
