import Verif.Dendrogram.Theorems
import Mathlib.Logic.Relation

/-!
# What a dendrogram is (specification for C60)

Independent of the code and of its model. `Above par e x` (in `Verif.Dendrogram.Theorems`): node `e`
is reached from node `x` by zero or more steps to the parent.
-/

namespace ArborX.Hdbscan

open Dendrogram (Above)

variable {W : Type} [LinearOrder W]

/-- Points `a` and `b` are in the same single-linkage cluster at height `h`: a sequence of points
leads from `a` to `b` such that the distance between neighbours in it is at most `h`. -/
def Linked (n : ℕ) (dist : ℕ → ℕ → W) (h : W) : ℕ → ℕ → Prop :=
  Relation.EqvGen (fun a b => a < n ∧ b < n ∧ dist a b ≤ h)

/-- The dendrogram of `n` points. Its nodes `0, …, n - 2` are mergers of two clusters, its nodes
`n - 1, …, 2 n - 2` are the points. -/
structure IsDendrogram (n : ℕ) (dist : ℕ → ℕ → W) (parent : ℕ → Option ℤ) (height : ℕ → Option W) : Prop where
  /-- every merger has a height, which is the distance of two of the points -/
  heights : ∀ e < n - 1, ∃ u < n, ∃ v < n, height e = some (dist u v)
  /-- the last merger is the root, marked by the parent `-1` -/
  root : parent (n - 2) = some (-1)
  /-- the parent of every other node is a merger -/
  inner : ∀ x < 2 * n - 1, x ≠ n - 2 → ∃ e < n - 1, parent x = some (e : ℤ)
  /-- all nodes are below the root -/
  rooted : ∀ x < 2 * n - 1, Above parent (n - 2) x
  /-- every merger has exactly two children -/
  binary : ∀ e < n - 1, ∃ a < 2 * n - 1, ∃ b < 2 * n - 1, a ≠ b ∧
    ∀ x < 2 * n - 1, parent x = some (e : ℤ) ↔ x = a ∨ x = b
  /-- no merger is higher than its parent -/
  monotone : ∀ c < n - 1, ∀ e < n - 1, parent c = some (e : ℤ) →
    ∀ a b, height c = some a → height e = some b → a ≤ b
  /-- two different points are in the same cluster at height `h` exactly if some merger of height
  at most `h` is above both -/
  linkage : ∀ u < n, ∀ v < n, u ≠ v → ∀ h, Linked n dist h u v ↔
    ∃ e < n - 1, ∃ a ≤ h, height e = some a ∧ Above parent e (n - 1 + u) ∧ Above parent e (n - 1 + v)

end ArborX.Hdbscan
