import Mathlib.Logic.Relation
import Mathlib.Order.BoundedOrder.Basic
import Mathlib.Data.List.Basic

/-!
# Specification: points connected by finite distances (C94)
-/

namespace ArborX.Mst

variable {W : Type} [LinearOrder W] [OrderTop W]

/-- One gets from any of the points `0, …, n - 1` to any other in steps of finite length. -/
def FiniteSteps (n : ℕ) (d : ℕ → ℕ → W) : Prop :=
  ∀ p < n, ∀ q < n, Relation.ReflTransGen (fun a b => a < n ∧ b < n ∧ d a b < ⊤) p q

/-- Number of the points `0, …, n - 1` at finite distance from point `p`. -/
def reachable (d : ℕ → ℕ → W) (n p : ℕ) : ℕ := (List.range n).countP (fun q => d p q < ⊤)

end ArborX.Mst
