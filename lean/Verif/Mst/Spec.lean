import Verif.Graph.Basic
import Verif.Mst.Edge
import Mathlib.Algebra.Order.Monoid.Defs
import Mathlib.Algebra.BigOperators.Group.List.Basic

/-!
# Specification: minimum spanning tree

Independent of the code.
-/

namespace ArborX.Mst

open Graph (Connects SpanningTree)

variable {W : Type} [LinearOrder W]

/-- The list `E` of weighted edges is a minimum spanning tree of the complete graph on the vertices
`0, …, n - 1` with the given weights: its edges have the weights of the graph, it is a spanning
tree (`n - 1` edges that join all vertices), and its total weight is at most that of any list of
edges `T` that joins all vertices. Totals are taken in any ordered monoid into which the weights
are mapped monotonically (for weights in an ordered monoid of non-negative elements, by the
identity). -/
structure IsMst (n : ℕ) (weight : ℕ → ℕ → W) (E : List (WeightedEdge W)) : Prop where
  weights : ∀ e ∈ E, e.source ≠ e.target ∧ e.weight = weight e.source e.target
  tree : SpanningTree n (E.map (fun e => (e.source, e.target)))
  minimal : ∀ T : List (ℕ × ℕ), (∀ e ∈ T, e.1 < n ∧ e.2 < n) → Connects n T →
    ∀ (K : Type) [AddCommMonoid K] [PartialOrder K] [IsOrderedAddMonoid K] (val : W → K),
      Monotone val → (∀ x, 0 ≤ val x) →
      (E.map (fun e => val e.weight)).sum ≤ (T.map (fun e => val (weight e.1 e.2))).sum

end ArborX.Mst
