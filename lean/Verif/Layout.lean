import Mathlib.Order.Lattice
import Verif.Tree

/-!
# Memory image of a hierarchy and what it means for it to be well formed
-/

namespace ArborX

/-- `LeafNode` (`src/spatial/detail/ArborX_Node.hpp` 26-33).
The rope `-1` (`ROPE_SENTINEL`, line 24) is `none`. -/
structure LeafNode (α : Type) where
  rope : Option ℕ
  value : α

/-- `InternalNode` (`src/spatial/detail/ArborX_Node.hpp` 35-44). -/
structure InternalNode (V : Type) where
  left : ℕ
  rope : Option ℕ
  vol : V

/-- The node arrays of a `BoundingVolumeHierarchy`
(`src/spatial/ArborX_LinearBVH.hpp`, members `_size`, `_leaf_nodes`,
`_internal_nodes`). An array element that nobody has written is `none`. Node ids
are as in `HappyTreeFriends` (`src/spatial/detail/ArborX_HappyTreeFriends.hpp`):
`i < size` is leaf `i`, any other `i` is internal node `i - size`. -/
structure Mem (α V : Type) where
  size : ℕ
  leaf : ℕ → Option (LeafNode α)
  internal : ℕ → Option (InternalNode V)

variable {α V : Type} [Max V]

/-- Specification. `Layout mem value vol T id rope`: the memory holds the tree `T`
at node `id`; leaf `i` of the tree is leaf node `i` with value `value i`; every
internal node stores the union of the volumes of its leaves; the rope of a left
child is its sibling, the rope of a right child is the rope of its parent; the
rope of the root of `T` is `rope`. -/
def Layout (mem : Mem α V) (value : ℕ → α) (vol : α → V) : BTree → ℕ → Option ℕ → Prop
  | .leaf i, id, rope => id = i ∧ i < mem.size ∧ mem.leaf i = some ⟨rope, value i⟩
  | .node a b, id, rope => ∃ ia ib, mem.size ≤ id ∧
      mem.internal (id - mem.size)
        = some ⟨ia, rope, (BTree.node a b).vol (fun i => vol (value i))⟩ ∧
      Layout mem value vol a ia (some ib) ∧ Layout mem value vol b ib rope

/-- Specification. The memory is a hierarchy over the values `value 0, ...,
value (size-1)`: a binary tree whose leaves are `0, ..., size-1` from left to
right, rooted at internal node 0 (node id `size`). -/
def WellFormed (mem : Mem α V) (value : ℕ → α) (vol : α → V) (T : BTree) : Prop :=
  T.leaves = List.range mem.size ∧ Layout mem value vol T mem.size none

end ArborX
