import Verif.Geometry.Distance
import Verif.Geometry.Expand
import Mathlib.Order.WithBot

/-!
# Boxes as bounding volumes

The trees in this model work for any bounding volumes with an order, least upper bounds and a least element. This file shows that the boxes of the
library are such: the order is containment, the least upper bound is what `expand(Box, Box)` computes, and the least element is the empty
(default constructed) box.
-/

namespace ArborX.Geometry

variable {D : ℕ}

/-- Boxes with ordered corners. -/
abbrev VBox (D : ℕ) := {B : Box ℝ D // B.Valid}

instance : PartialOrder (VBox D) where
  le B C := B.1.le C.1
  le_refl B := fun _ => ⟨le_rfl, le_rfl⟩
  le_trans A B C h1 h2 := fun d => ⟨(h2 d).1.trans (h1 d).1, (h1 d).2.trans (h2 d).2⟩
  le_antisymm B C h1 h2 := by
    obtain ⟨⟨l, h⟩, hB⟩ := B
    obtain ⟨⟨l', h'⟩, hC⟩ := C
    have e1 : l = l' := funext fun d => le_antisymm (h2 d).1 (h1 d).1
    have e2 : h = h' := funext fun d => le_antisymm (h1 d).2 (h2 d).2
    subst e1 e2
    rfl

noncomputable instance : SemilatticeSup (VBox D) where
  sup B C := ⟨B.1.expandBox C.1, fun d => (min_le_left _ _).trans ((B.2 d).trans (le_max_left _ _))⟩
  le_sup_left B C := fun d => ⟨min_le_left _ _, le_max_left _ _⟩
  le_sup_right B C := fun d => ⟨min_le_right _ _, le_max_right _ _⟩
  sup_le A B C h1 h2 := fun d => ⟨le_min (h1 d).1 (h2 d).1, max_le (h1 d).2 (h2 d).2⟩

/-- Containment of the sets of points. -/
theorem VBox.le_iff (B C : VBox D) : B ≤ C ↔ B.1.set ⊆ C.1.set := by
  constructor
  · exact fun h => Box.le_set h
  · intro h d
    have h1 := h (show B.1.lo ∈ B.1.set from fun d => ⟨le_rfl, B.2 d⟩) d
    have h2 := h (show B.1.hi ∈ B.1.set from fun d => ⟨B.2 d, le_rfl⟩) d
    exact ⟨h1.1, h2.2⟩

/-- Bounding volumes: a box, or the empty box. -/
abbrev Bound (D : ℕ) := WithBot (VBox D)

/-- The points of a bounding volume. -/
def Bound.set : Bound D → Set (Pt ℝ D) := WithBot.recBotCoe ∅ (fun B => B.1.set)

theorem Bound.set_mono {u v : Bound D} (h : u ≤ v) : u.set ⊆ v.set := by
  induction u using WithBot.recBotCoe with
  | bot => exact Set.empty_subset _
  | coe B =>
    induction v using WithBot.recBotCoe with
    | bot => exact absurd h (by simp)
    | coe C => exact (VBox.le_iff B C).mp (WithBot.coe_le_coe.mp h)

/-- The box of a point (`expand(Box, Point)` on the empty box). -/
def ptBox (p : Pt ℝ D) : VBox D := ⟨⟨p, p⟩, fun _ => le_rfl⟩

theorem mem_of_ptBox_le {p : Pt ℝ D} {v : Bound D} (h : (ptBox p : Bound D) ≤ v) : p ∈ v.set :=
  Bound.set_mono h (show p ∈ (ptBox p).1.set from fun _ => ⟨le_rfl, le_rfl⟩)

/-- The test `intersects(Sphere, Box)`; the empty box is far away from everything. -/
noncomputable def Bound.hits (p : Pt ℝ D) (r : ℝ) : Bound D → Bool :=
  WithBot.recBotCoe false (fun B => intersectsSphereBox ⟨p, r⟩ B.1)

/-- The test `distance(Box, Box) <= r`. -/
noncomputable def Bound.close (r : ℝ) (u v : Bound D) : Bool :=
  WithBot.recBotCoe false (fun B => WithBot.recBotCoe false (fun C => decide (distanceBoxBox B.1 C.1 ≤ r)) v) u

theorem Bound.hits_iff (p : Pt ℝ D) (r : ℝ) (v : Bound D) : v.hits p r = true ↔ ∃ x ∈ v.set, edist p x ≤ r := by
  induction v using WithBot.recBotCoe with
  | bot => simp [Bound.hits, Bound.set]
  | coe B =>
    have hd := distance_point_box p B.1 B.2
    show intersectsSphereBox ⟨p, r⟩ B.1 = true ↔ ∃ x ∈ B.1.set, edist p x ≤ r
    unfold intersectsSphereBox
    rw [decide_eq_true_eq]
    constructor
    · intro h
      obtain ⟨y, hy, x, hx, e⟩ := hd.attained
      rw [Set.mem_singleton_iff] at hy
      subst hy
      exact ⟨x, hx, by rw [e]; exact h⟩
    · rintro ⟨x, hx, h⟩
      exact (hd.minimal p rfl x hx).trans h

theorem Bound.close_iff (r : ℝ) (u v : Bound D) : Bound.close r u v = true ↔ ∃ x ∈ u.set, ∃ y ∈ v.set, edist x y ≤ r := by
  induction u using WithBot.recBotCoe with
  | bot => simp [Bound.close, Bound.set]
  | coe B =>
    induction v using WithBot.recBotCoe with
    | bot => simp [Bound.close, Bound.set]
    | coe C =>
      have hd := distance_box_box B.1 C.1 B.2 C.2
      show decide (distanceBoxBox B.1 C.1 ≤ r) = true ↔ ∃ x ∈ B.1.set, ∃ y ∈ C.1.set, edist x y ≤ r
      rw [decide_eq_true_eq]
      constructor
      · intro h
        obtain ⟨x, hx, y, hy, e⟩ := hd.attained
        exact ⟨x, hx, y, hy, by rw [e]; exact h⟩
      · rintro ⟨x, hx, y, hy, h⟩
        exact (hd.minimal x hx y hy).trans h

end ArborX.Geometry
