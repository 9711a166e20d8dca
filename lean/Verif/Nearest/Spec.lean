import Mathlib.Data.List.Basic
import Mathlib.Order.Defs.LinearOrder
import Mathlib.Order.Lattice

/-!
# Specification of a nearest-neighbour result (C05, C12)
-/

namespace ArborX.Nearest

variable {α D : Type} [LinearOrder D]

/-- `calls` is a correct answer to "the `k` nearest of the values `stored`", `d` being the
distance to the query: distinct stored values in non-decreasing distance, at most `k` of
them and all at finite distance, none of the omitted values is closer than a returned
one, and with fewer than `k` results every value at finite distance is returned. -/
def IsKNearest (d : α → D) (inf : D) (k : ℕ) (stored calls : List α) : Prop :=
  ∃ omitted : List α, (calls ++ omitted).Perm stored ∧
    calls.Pairwise (fun a b => d a ≤ d b) ∧ (∀ a ∈ calls, d a < inf) ∧ calls.length ≤ k ∧
    (∀ a ∈ calls, ∀ b ∈ omitted, d a ≤ d b) ∧
    (calls.length < k → ∀ b ∈ omitted, ¬ d b < inf)

/-- The same if a value `b` may be missed unless `up b`, which is not less than its distance, is smaller than the distances of all that is returned. -/
def IsKNearestUpTo (d up : α → D) (inf : D) (k : ℕ) (stored calls : List α) : Prop :=
  ∃ omitted : List α, (calls ++ omitted).Perm stored ∧
    calls.Pairwise (fun a b => d a ≤ d b) ∧ (∀ a ∈ calls, d a < inf) ∧ calls.length ≤ k ∧
    (∀ a ∈ calls, ∀ b ∈ omitted, d a ≤ up b) ∧
    (calls.length < k → ∀ b ∈ omitted, ¬ up b < inf)

/-- The number of results is the smaller of `k` and the number of values at finite
distance. -/
theorem IsKNearest.length {d : α → D} {inf : D} {k : ℕ} {stored calls : List α}
    (h : IsKNearest d inf k stored calls) :
    calls.length = min k (stored.countP (fun a => decide (d a < inf))) := by
  obtain ⟨om, h1, h2, h3, h4, h5, h6⟩ := h
  have e : stored.countP (fun a => decide (d a < inf)) =
      calls.length + om.countP (fun a => decide (d a < inf)) := by
    rw [← h1.countP_eq, List.countP_append]
    congr 1
    rw [List.countP_eq_length]
    intro a ha; simpa using h3 a ha
  rw [e]
  rcases Nat.lt_or_ge calls.length k with hlt | hge
  · have : om.countP (fun a => decide (d a < inf)) = 0 := by
      rw [List.countP_eq_zero]
      intro b hb; simpa using h6 hlt b hb
    omega
  · omega

end ArborX.Nearest
