import Mathlib.Order.Lattice
import Mathlib.Data.List.Count

/-!
# Specification: core distances and mutual reachability distances

Independent of the code.
-/

namespace ArborX.Mst

variable {W : Type} [LinearOrder W]

/-- Number of the points `0, …, n - 1` within distance `r` of point `p` (itself included). -/
def within (d : ℕ → ℕ → W) (n p : ℕ) (r : W) : ℕ := (List.range n).countP (fun q => d p q ≤ r)

/-- `r` is the core distance of point `p` for `k`: the smallest radius that contains `k` points
(all points, if there are fewer than `k`). -/
structure IsCore (d : ℕ → ℕ → W) (n k p : ℕ) (r : W) : Prop where
  enough : min k n ≤ within d n p r
  least : ∀ r' < r, within d n p r' < min k n

/-- The mutual reachability distance. -/
def mutualReach (d : ℕ → ℕ → W) (core : ℕ → W) (p q : ℕ) : W := max (max (core p) (core q)) (d p q)

end ArborX.Mst
