import Mathlib.Logic.Relation
import Mathlib.Data.Int.Basic

/-!
# What a clustering must be

`n` points; `near i j` says that points `i` and `j` are within the radius. These are the
definitions of the DBSCAN and DBSCAN* papers, not of the code.
-/

namespace ArborX.Dbscan

variable (n : ℕ) (near : ℕ → ℕ → Bool) (minPts : ℕ)

/-- A core point has at least `minPts` points, itself included, in its neighbourhood. -/
def Core (i : ℕ) : Prop := minPts ≤ ((List.range n).filter (near i)).length

instance (i : ℕ) : Decidable (Core n near minPts i) := by unfold Core; infer_instance

/-- Two core points within the radius of each other. -/
def Linked (i j : ℕ) : Prop :=
  i < n ∧ j < n ∧ Core n near minPts i ∧ Core n near minPts j ∧ near i j = true

/-- A chain of core points, each within the radius of the next one. -/
def Chained : ℕ → ℕ → Prop := Relation.ReflTransGen (Linked n near minPts)

/-- `i` is within the radius of some core point. -/
def NearCore (i : ℕ) : Prop := ∃ j < n, Core n near minPts j ∧ near i j = true

/-- DBSCAN: core points have equal labels exactly if a chain of core points joins them; other
points near a core point have the label of such a core point; all other points are noise,
labelled -1, which is no cluster label. -/
structure IsDBSCAN (lab : ℕ → ℤ) : Prop where
  core : ∀ i < n, Core n near minPts i → 0 ≤ lab i
  clusters : ∀ i < n, ∀ j < n, Core n near minPts i → Core n near minPts j →
    (lab i = lab j ↔ Chained n near minPts i j)
  border : ∀ i < n, ¬ Core n near minPts i → NearCore n near minPts i →
    ∃ j < n, Core n near minPts j ∧ near i j = true ∧ lab i = lab j
  noise : ∀ i < n, ¬ Core n near minPts i → ¬ NearCore n near minPts i → lab i = -1

/-- DBSCAN*: as above, and every point that is not a core point is noise. -/
structure IsDBSCANStar (lab : ℕ → ℤ) : Prop where
  core : ∀ i < n, Core n near minPts i → 0 ≤ lab i
  clusters : ∀ i < n, ∀ j < n, Core n near minPts i → Core n near minPts j →
    (lab i = lab j ↔ Chained n near minPts i j)
  noise : ∀ i < n, ¬ Core n near minPts i → lab i = -1

/-- The label of a core point is the smallest index of a core point of its cluster. -/
def Canonical (lab : ℕ → ℤ) : Prop :=
  ∀ i < n, Core n near minPts i → ∃ r : ℕ, lab i = r ∧ r < n ∧ Core n near minPts r ∧
    Chained n near minPts i r ∧ ∀ j < n, Core n near minPts j → Chained n near minPts i j → r ≤ j

end ArborX.Dbscan
