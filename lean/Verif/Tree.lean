import Mathlib.Order.Lattice

/-!
# Specification: binary trees with numbered leaves

Independent of the code: what "a hierarchy over the leaves" means.
-/

namespace ArborX

/-- A full binary tree with numbered leaves. -/
inductive BTree where
  | leaf (i : ℕ)
  | node (a b : BTree)
  deriving DecidableEq, Repr

namespace BTree

/-- The leaves from left to right. -/
def leaves : BTree → List ℕ
  | leaf i => [i]
  | node a b => a.leaves ++ b.leaves

/-- Number of edges on the longest path from the root to a leaf. -/
def height : BTree → ℕ
  | leaf _ => 0
  | node a b => max a.height b.height + 1

/-- Total number of nodes. -/
def size : BTree → ℕ
  | leaf _ => 1
  | node a b => a.size + b.size + 1

/-- Union of the volumes of the leaves. -/
def vol {V : Type} [Max V] (f : ℕ → V) : BTree → V
  | leaf i => f i
  | node a b => a.vol f ⊔ b.vol f

end BTree
end ArborX
