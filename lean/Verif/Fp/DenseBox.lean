import Verif.Fp.DenseBoxModel
import Verif.Fp.CloudAccuracy
import Verif.DenseBox.Theorems
import Mathlib.Algebra.Order.Chebyshev

/-!
# FDBSCAN-DenseBox in floating-point arithmetic, points clear of rounding (C77)
-/

namespace ArborX.Fp

open Geometry BVH Euclid

variable {D : ℕ} {F : Format} {u lo hi : ℝ}

/-! ## Rounding errors -/

/-- The error of one rounding, also of results below the range of normal numbers. -/
lemma Format.Accurate.abs_err (h : F.Accurate u lo hi) {x : ℝ} (hx : |x| ≤ hi) : ∃ y : ℝ, F.rnd x = y ∧ |y - x| ≤ u * |x| + 2 * lo := by
  have hl := h.lo0
  rcases le_or_gt lo |x| with h1 | h1
  · obtain ⟨y, e, hy⟩ := h.err x h1 hx
    exact ⟨y, e, by linarith⟩
  · have key : ∀ z : ℝ, 0 ≤ z → z < lo → ∃ y : ℝ, F.rnd z = y ∧ |y - z| ≤ 2 * lo := by
      intro z hz hzl
      obtain ⟨y, ey, -, y2⟩ := h.bounds (z := lo) le_rfl (h.lo1.trans h.hi1)
      have m1 : F.rnd z ≤ (y : EReal) := ey ▸ F.mono hzl.le
      have m0 := F.rnd_nonneg hz
      have : F.rnd z = ((F.rnd z).toReal : EReal) :=
        (EReal.coe_toReal (ne_top_of_le_ne_top (EReal.coe_ne_top y) m1) (Format.ne_bot m0)).symm
      rw [this] at m1 m0
      have m1 := EReal.coe_le_coe_iff.mp m1
      have m0 := EReal.coe_nonneg.mp m0
      refine ⟨_, this, abs_le.mpr ⟨?_, ?_⟩⟩
      · linarith
      · nlinarith [h.u1]
    have hu : 0 ≤ u * |x| := mul_nonneg h.u0 (abs_nonneg _)
    rcases le_total 0 x with hx0 | hx0
    · rw [abs_of_nonneg hx0] at h1 hu ⊢
      obtain ⟨y, e, hy⟩ := key x hx0 h1
      exact ⟨y, e, by linarith⟩
    · rw [abs_of_nonpos hx0] at h1 hu ⊢
      obtain ⟨y, e, hy⟩ := key (-x) (by linarith) h1
      rw [F.neg] at e
      refine ⟨-y, by rw [EReal.coe_neg, ← e, neg_neg], ?_⟩
      rw [show -y - x = -(y - -x) by ring, abs_neg]
      linarith

/-- The quotient that is rounded down, times the cell length, is the distance to the lower bound up to three roundings. -/
lemma quot_err (h : F.Accurate u lo hi) {x y w L : ℝ} (hw : 0 < w) (hxy : y ≤ x) (hL : x - y ≤ L) (hLhi : L ≤ hi)
    (hq : 2 * L + 2 * lo ≤ w * hi) :
    ∃ q : ℝ, F.quot x y w = q ∧ 0 ≤ q ∧ |q * w - (x - y)| ≤ 3 * u * L + 2 * lo * (2 + w) := by
  have hl := h.lo0
  have hu0 := h.u0
  have hu1 := h.u1
  have hd : 0 ≤ x - y := by linarith
  obtain ⟨A, eA, hA⟩ := h.abs_err (x := x - y) (by rw [abs_of_nonneg hd]; linarith)
  rw [abs_of_nonneg hd] at hA
  have hA0 : 0 ≤ A := by
    have := F.rnd_nonneg hd
    rw [eA] at this
    exact EReal.coe_nonneg.mp this
  have hA1 : A ≤ L + u * L + 2 * lo := by
    have := (abs_le.mp hA).2
    nlinarith
  have hAw : 0 ≤ A / w := div_nonneg hA0 hw.le
  obtain ⟨q, eq, hq'⟩ := h.abs_err (x := A / w) (by
    rw [abs_of_nonneg hAw, div_le_iff₀ hw]
    nlinarith)
  rw [abs_of_nonneg hAw] at hq'
  have hq0 : 0 ≤ q := by
    have := F.rnd_nonneg hAw
    rw [eq] at this
    exact EReal.coe_nonneg.mp this
  refine ⟨q, ?_, hq0, ?_⟩
  · unfold Format.quot
    rw [eA, if_neg (by simp [EReal.coe_ne_top, EReal.coe_ne_bot]), EReal.toReal_coe, eq]
  · have e1 : q * w - A = (q - A / w) * w := by field_simp
    have h1 : |q * w - A| ≤ u * A + 2 * lo * w := by
      rw [e1, abs_mul, abs_of_pos hw]
      have := mul_le_mul_of_nonneg_right hq' hw.le
      have e2 : (u * (A / w) + 2 * lo) * w = u * A + 2 * lo * w := by field_simp
      linarith
    have h2 : q * w - (x - y) = (q * w - A) + (A - (x - y)) := by ring
    rw [h2]
    refine (abs_add_le _ _).trans ?_
    have h3 : u * A ≤ u * (L + u * L + 2 * lo) := mul_le_mul_of_nonneg_left hA1 hu0
    have h4 : u * (x - y) ≤ u * L := mul_le_mul_of_nonneg_left hL hu0
    have hL0 : 0 ≤ L := hd.trans hL
    have h5 : u * (u * L) ≤ 1 * (u * L) := mul_le_mul_of_nonneg_right hu1.le (mul_nonneg hu0 hL0)
    have h6 : u * (2 * lo) ≤ 1 * (2 * lo) := mul_le_mul_of_nonneg_right hu1.le (by linarith)
    nlinarith

lemma quot_mono {x x' y w : ℝ} (hw : 0 < w) (hx : x ≤ x') (h1 : F.quot x y w ≠ ⊤) (h2 : F.quot x' y w ≠ ⊤) : F.quot x y w ≤ F.quot x' y w := by
  unfold Format.quot at *
  by_cases a1 : F.rnd (x - y) = ⊤ ∨ F.rnd (x - y) = ⊥
  · rw [if_pos a1] at h1; exact absurd rfl h1
  by_cases a2 : F.rnd (x' - y) = ⊤ ∨ F.rnd (x' - y) = ⊥
  · rw [if_pos a2] at h2; exact absurd rfl h2
  rw [if_neg a1, if_neg a2]
  rw [not_or] at a1 a2
  exact F.mono (div_le_div_of_nonneg_right (EReal.toReal_le_toReal (F.mono (by linarith)) a1.2 a2.1) hw.le)

lemma corner_mono (g : FGrid D) (a : Fin D) {x x' : ℝ} (hw : 0 < g.h) (h0 : 0 ≤ x) (hx : x ≤ x') (h1 : g.corner F a x ≠ ⊤)
    (h2 : g.corner F a x' ≠ ⊤) : g.corner F a x ≤ g.corner F a x' := by
  have hxx : F.rnd x ≤ F.rnd x' := F.mono hx
  have hb := Format.ne_bot (F.rnd_nonneg h0)
  have hm0 : 0 ≤ (F.rnd x).toReal * g.h := mul_nonneg (EReal.toReal_nonneg (F.rnd_nonneg h0)) hw.le
  unfold FGrid.corner at *
  dsimp only at *
  by_cases a1 : F.rnd x = ⊤
  · rw [if_pos a1] at h1; exact absurd rfl h1
  by_cases a2 : F.rnd x' = ⊤
  · rw [if_pos a2] at h2; exact absurd rfl h2
  have hm : (F.rnd x).toReal * g.h ≤ (F.rnd x').toReal * g.h := mul_le_mul_of_nonneg_right (EReal.toReal_le_toReal hxx hb a2) hw.le
  rw [if_neg a1] at h1 ⊢
  rw [if_neg a2] at h2 ⊢
  by_cases hf : F.fma = true
  · rw [if_pos hf, if_pos hf]
    exact F.mono (by linarith)
  · rw [if_neg hf] at h1 h2 ⊢
    rw [if_neg hf]
    by_cases b1 : F.rnd ((F.rnd x).toReal * g.h) = ⊤
    · rw [if_pos b1] at h1; exact absurd rfl h1
    by_cases b2 : F.rnd ((F.rnd x').toReal * g.h) = ⊤
    · rw [if_pos b2] at h2; exact absurd rfl h2
    rw [if_neg b1, if_neg b2]
    have := EReal.toReal_le_toReal (F.mono hm) (Format.ne_bot (F.rnd_nonneg hm0)) b2
    exact F.mono (by linarith)

/-- A corner of a cell, up to the roundings. -/
lemma corner_err (h : F.Accurate u lo hi) (g : FGrid D) (a : Fin D) {x X W : ℝ} (hw : 0 < g.h) (hx0 : 0 ≤ x) (hX : x * g.h ≤ X) (hxhi : x ≤ hi)
    (hW : |g.lo a| ≤ W) (hhi : 4 * X + W + 6 * lo * (1 + g.h) ≤ hi) :
    ∃ c : ℝ, g.corner F a x = c ∧ |c - (g.lo a + x * g.h)| ≤ u * (7 * X + W) + 2 * lo * (4 * g.h + 3) := by
  have hl := h.lo0
  have hu0 := h.u0
  have hu1 := h.u1
  have hX0 : 0 ≤ X := (mul_nonneg hx0 hw.le).trans hX
  have hW0 : 0 ≤ W := (abs_nonneg _).trans hW
  have hlw : 0 < lo * g.h := mul_pos hl hw
  obtain ⟨x', ex, hx'⟩ := h.abs_err (x := x) (by rwa [abs_of_nonneg hx0])
  rw [abs_of_nonneg hx0] at hx'
  have hx'0 : 0 ≤ x' := by
    have := F.rnd_nonneg hx0
    rw [ex] at this
    exact EReal.coe_nonneg.mp this
  have huX : u * X ≤ X := by nlinarith
  have e1 : |x' * g.h - x * g.h| ≤ u * X + 2 * lo * g.h := by
    rw [← sub_mul, abs_mul, abs_of_pos hw]
    have h1 := mul_le_mul_of_nonneg_right hx' hw.le
    have h2 := mul_le_mul_of_nonneg_left hX hu0
    nlinarith
  have hm0 : 0 ≤ x' * g.h := mul_nonneg hx'0 hw.le
  have hm1 : x' * g.h ≤ 2 * X + 2 * lo * g.h := by
    have := (abs_le.mp e1).2
    linarith
  have hlo1 : |g.lo a| ≤ W := hW
  unfold FGrid.corner
  simp only [ex, EReal.toReal_coe]
  rw [if_neg (EReal.coe_ne_top _)]
  by_cases hf : F.fma = true
  · rw [if_pos hf]
    have hs : |g.lo a + x' * g.h| ≤ W + (2 * X + 2 * lo * g.h) := (abs_add_le _ _).trans (by rw [abs_of_nonneg hm0]; linarith)
    obtain ⟨c, ec, hc⟩ := h.abs_err (x := g.lo a + x' * g.h) (by nlinarith)
    refine ⟨c, ec, ?_⟩
    have e3 : c - (g.lo a + x * g.h) = (c - (g.lo a + x' * g.h)) + (x' * g.h - x * g.h) := by ring
    rw [e3]
    refine (abs_add_le _ _).trans ?_
    have h3 := mul_le_mul_of_nonneg_left hs hu0
    have h4 : u * (lo * g.h) ≤ 1 * (lo * g.h) := mul_le_mul_of_nonneg_right hu1.le hlw.le
    have h5 : 0 ≤ u * X := mul_nonneg hu0 hX0
    nlinarith
  · rw [if_neg hf]
    obtain ⟨m, em, hm⟩ := h.abs_err (x := x' * g.h) (by rw [abs_of_nonneg hm0]; nlinarith)
    rw [abs_of_nonneg hm0] at hm
    rw [em, if_neg (EReal.coe_ne_top _), EReal.toReal_coe]
    have h4 : u * (lo * g.h) ≤ 1 * (lo * g.h) := mul_le_mul_of_nonneg_right hu1.le hlw.le
    have h4' : u * lo ≤ 1 * lo := mul_le_mul_of_nonneg_right hu1.le hl.le
    have h5 : 0 ≤ u * X := mul_nonneg hu0 hX0
    have h6 : u * (x' * g.h) ≤ u * (2 * X + 2 * lo * g.h) := mul_le_mul_of_nonneg_left hm1 hu0
    have hmm0 : 0 ≤ m := by
      have := F.rnd_nonneg hm0
      rw [em] at this
      exact EReal.coe_nonneg.mp this
    have hm2 : |m - x * g.h| ≤ 3 * (u * X) + 4 * (lo * g.h) + 2 * lo := by
      have e2 : m - x * g.h = (m - x' * g.h) + (x' * g.h - x * g.h) := by ring
      rw [e2]
      refine (abs_add_le _ _).trans ?_
      nlinarith
    have hm3 : m ≤ 4 * X + 4 * (lo * g.h) + 2 * lo := by
      have := (abs_le.mp hm2).2
      linarith
    have hs : |g.lo a + m| ≤ W + (4 * X + 4 * (lo * g.h) + 2 * lo) := (abs_add_le _ _).trans (by rw [abs_of_nonneg hmm0]; linarith)
    obtain ⟨c, ec, hc⟩ := h.abs_err (x := g.lo a + m) (by nlinarith)
    refine ⟨c, ec, ?_⟩
    have e3 : c - (g.lo a + x * g.h) = (c - (g.lo a + m)) + (m - x * g.h) := by ring
    rw [e3]
    refine (abs_add_le _ _).trans ?_
    have h3 := mul_le_mul_of_nonneg_left hs hu0
    nlinarith

/-! ## Cells -/

lemma expand_bounds (pts : List (Pt ℝ D)) (B : Box ℝ D) : ∀ p ∈ pts, ∀ a,
    (pts.foldl Box.expandPoint B).lo a ≤ p a ∧ p a ≤ (pts.foldl Box.expandPoint B).hi a := by
  have mono : ∀ (l : List (Pt ℝ D)) (C : Box ℝ D) (a : Fin D), (l.foldl Box.expandPoint C).lo a ≤ C.lo a ∧ C.hi a ≤ (l.foldl Box.expandPoint C).hi a := by
    intro l
    induction l with
    | nil => exact fun C a => ⟨le_rfl, le_rfl⟩
    | cons q l ih => exact fun C a => ⟨(ih (C.expandPoint q) a).1.trans (min_le_left _ _), le_trans (le_max_left _ _) (ih (C.expandPoint q) a).2⟩
  induction pts generalizing B with
  | nil => simp
  | cons q l ih =>
    intro p hp a
    rcases List.mem_cons.mp hp with rfl | hp
    · exact ⟨(mono l (B.expandPoint p) a).1.trans (min_le_right _ _), le_trans (le_max_right _ _) (mono l (B.expandPoint p) a).2⟩
    · exact ih _ p hp a

lemma Cloud.pt_mem (A : Cloud D) {i : ℕ} (hi : i < A.pts.length) : A.pt i ∈ A.pts := by
  unfold Cloud.pt
  rw [List.getD_eq_getElem _ _ hi]
  exact List.getElem_mem hi

/-- The cell of a vector of quotients. -/
lemma unit_cell {n : Pt ℝ D} {g : DenseBox.Grid ℝ D} (hb : DenseBox.Grid.build 0 n 1 0 = some g) (hint : ∀ a, g.n a ≤ 2 ^ 31) {q : Pt ℝ D}
    (h0 : ∀ a, 0 ≤ q a ∧ q a ≤ n a) (hlt : ∀ a, q a < g.n a) :
    ∃ c, g.cellIndex q = some c ∧ (∀ a, (g.cellBox c).1 a = ⌊q a⌋ ∧ (g.cellBox c).2 a = ⌊q a⌋ + 1) ∧
      ∀ q' : Pt ℝ D, (∀ a, 0 ≤ q' a ∧ q' a ≤ n a) → (∀ a, q' a < g.n a) → g.cellIndex q' = some c → ∀ a, ⌊q a⌋ = ⌊q' a⌋ := by
  obtain ⟨ok, elo, ehi, eh⟩ := DenseBox.Grid.build_ok hb
  have hin : ∀ q : Pt ℝ D, (∀ a, 0 ≤ q a ∧ q a ≤ n a) → g.Inside q := by
    intro q h a
    rw [elo, ehi]
    exact h a
  have hbe : ∀ q : Pt ℝ D, (∀ a, q a < g.n a) → g.Below q := by
    intro q h a
    rw [elo, eh]
    simpa using h a
  obtain ⟨c, hc, -, hs⟩ := DenseBox.grid_cells_partial hb hint q (hin q h0) (hbe q hlt)
  refine ⟨c, hc, ?_, ?_⟩
  · intro a
    choose i hi1 hi2 hi3 using DenseBox.Grid.coord_eq ok (hin q h0) (hbe q hlt) hint
    obtain ⟨b1, b2⟩ := DenseBox.Grid.boxLoop_eq hi1 hi2 _ ok.prod.le c hc a (List.mem_finRange a)
    have e := hi3 a
    rw [elo, eh] at e
    simp only [Pi.zero_apply, sub_zero, div_one] at e
    unfold DenseBox.Grid.cellBox
    rw [b1, b2, elo, eh, ← e]
    simp
  · intro q' h0' hlt' hc' a
    have := (hs q' (hin q' h0') (hbe q' hlt')).mp hc' a
    rw [elo, eh] at this
    simpa using this

/-- What a grid that was built keeps. -/
lemma build_spec {B : Box ℝ D} {w prec : ℝ} {g : FGrid D} (hb : FGrid.build F B w prec = some g) :
    0 < w ∧ g.lo = B.lo ∧ g.h = w ∧ DenseBox.Grid.build 0 (F.quots B.lo w B.hi) 1 0 = some g.unit := by
  unfold FGrid.build at hb
  split_ifs at hb with h1 h2 h3 h4
  obtain ⟨v, hv, rfl⟩ := Option.map_eq_some_iff.mp hb
  exact ⟨h1, rfl, rfl, hv⟩

lemma grid_spec {A : Cloud D} {eps prec : ℝ} {g : FGrid D} (hb : A.grid F eps prec = some g) :
    F.cellLength D eps = (g.h : EReal) ∧ FGrid.build F (boundsOf A.M A.pts) g.h prec = some g := by
  unfold Cloud.grid at hb
  split_ifs at hb with h1
  obtain ⟨h0, -, e, -⟩ := build_spec hb
  rw [e]
  refine ⟨(EReal.coe_toReal h1 (fun h => ?_)).symm, hb⟩
  rw [h] at h0
  simp at h0

/-! ## Specification -/

/-- The points are clear of the rounding of the grid. `L` bounds the extents of the points and `W` the coordinates of the lower corner; `δ` is more than
the errors of the positions of the cells; everything is in the range of the format. Then the distance of two points must not be near `eps`: either it is
smaller, by more than the errors of the positions, or larger, also than the diagonal of a cell enlarged by these errors. -/
structure Cloud.DenseClear (A : Cloud D) (u lo hi eps : ℝ) (g : FGrid D) (L W δ : ℝ) : Prop where
  extent : ∀ a, (boundsOf A.M A.pts).hi a - (boundsOf A.M A.pts).lo a ≤ L
  corner : ∀ a, |(boundsOf A.M A.pts).lo a| ≤ W
  positions : u * (10 * L + 14 * g.h + W) + 10 * lo * (1 + g.h) ≤ δ
  cells : δ ≤ g.h
  range : 4 * (L + 2 * g.h) + W + 6 * lo * (1 + g.h) ≤ hi ∧ 2 * L + 2 * lo ≤ g.h * hi ∧ 2 ^ 31 ≤ hi ∧ eps ^ 2 ≤ hi ∧ lo ≤ (1 - u) ^ (D + 5) * δ ^ 2
  pairs : ∀ i < A.pts.length, ∀ j < A.pts.length,
    (1 + u) ^ (D + 5) * (A.edist i j + Real.sqrt D * δ) ^ 2 ≤ eps ^ 2 ∨
      eps < A.edist i j ∧ D * (g.h + 2 * δ) ^ 2 < A.edist i j ^ 2

/-! ## Lemmas -/

section Dense

variable {A : Cloud D} {eps prec L W δ : ℝ} {g : FGrid D} (hF : F.Accurate u lo hi) (hb : A.grid F eps prec = some g)
  (hC : A.DenseClear u lo hi eps g L W δ)
include hF hb hC

/-- The quotients of a point of the scene. -/
lemma point_quot {j : ℕ} (hj : j < A.pts.length) (a : Fin D) :
    ∃ q : ℝ, F.quot (A.pt j a) (g.lo a) g.h = q ∧ 0 ≤ q ∧ |q * g.h - (A.pt j a - g.lo a)| ≤ 3 * u * L + 2 * lo * (2 + g.h) ∧
      q ≤ F.quots (boundsOf A.M A.pts).lo g.h (boundsOf A.M A.pts).hi a := by
  obtain ⟨-, hb⟩ := grid_spec hb
  obtain ⟨h0, elo, -, -⟩ := build_spec hb
  have hin := expand_bounds A.pts (Box.empty A.M) _ (A.pt_mem hj) a
  have hL := hC.extent a
  have hl := hF.lo0
  have hr := hC.range
  have hlw : 0 < lo * g.h := mul_pos hl h0
  have hW : 0 ≤ W := (abs_nonneg _).trans (hC.corner a)
  rw [elo]
  unfold boundsOf at hL ⊢
  obtain ⟨q, e, q0, hq⟩ := quot_err hF h0 hin.1 (le_trans (by linarith) hL) (by nlinarith) hr.2.1
  obtain ⟨q', e', -, -⟩ := quot_err hF h0 (hin.1.trans hin.2) hL (by nlinarith) hr.2.1
  refine ⟨q, e, q0, hq, ?_⟩
  unfold Format.quots
  rw [e', EReal.toReal_coe, ← EReal.coe_le_coe_iff, ← e, ← e']
  exact quot_mono h0 hin.2 (by rw [e]; exact EReal.coe_ne_top _) (by rw [e']; exact EReal.coe_ne_top _)

lemma quots_range {j : ℕ} (hj : j < A.pts.length) (a : Fin D) :
    0 ≤ F.quots g.lo g.h (A.pt j) a ∧ F.quots g.lo g.h (A.pt j) a ≤ F.quots (boundsOf A.M A.pts).lo g.h (boundsOf A.M A.pts).hi a := by
  obtain ⟨q, e, q0, -, q2⟩ := point_quot hF hb hC hj a
  unfold Format.quots at *
  rw [e, EReal.toReal_coe]
  exact ⟨q0, q2⟩

lemma dense_cell {j : ℕ} (hj : j < A.pts.length) : g.cellIndex F (A.pt j) = g.unit.cellIndex (F.quots g.lo g.h (A.pt j)) := by
  unfold FGrid.cellIndex
  rw [if_neg]
  rintro ⟨a, ha⟩
  obtain ⟨q, e, -⟩ := point_quot hF hb hC hj a
  exact EReal.coe_ne_top _ (e.symm.trans ha)

variable (hint : ∀ a, g.unit.n a ≤ 2 ^ 31) (hbelow : ∀ j < A.pts.length, ∀ a, F.quots g.lo g.h (A.pt j) a < g.unit.n a)
include hint hbelow

/-- Points with the same cell index: every coordinate differs by less than the cell length and two errors. -/
lemma cell_gap {i j : ℕ} (hi' : i < A.pts.length) (hj : j < A.pts.length)
    (he : (g.cellIndex F (A.pt i)).getD 0 = (g.cellIndex F (A.pt j)).getD 0) (a : Fin D) : |A.pt i a - A.pt j a| ≤ g.h + 2 * δ := by
  obtain ⟨-, hb'⟩ := grid_spec hb
  obtain ⟨h0, -, -, hu⟩ := build_spec hb'
  have hl := hF.lo0
  have hu0 := hF.u0
  obtain ⟨c, hc, -, hs⟩ := unit_cell hu hint (quots_range hF hb hC hi') (hbelow i hi')
  obtain ⟨c', hc', -, -⟩ := unit_cell hu hint (quots_range hF hb hC hj) (hbelow j hj)
  rw [dense_cell hF hb hC hi', dense_cell hF hb hC hj, hc, hc'] at he
  have he : c = c' := he
  subst he
  have hfl := hs _ (quots_range hF hb hC hj) (hbelow j hj) hc' a
  obtain ⟨p, ep, -, hp, -⟩ := point_quot hF hb hC hi' a
  obtain ⟨q, eq, -, hq, -⟩ := point_quot hF hb hC hj a
  unfold Format.quots at hfl
  rw [ep, eq, EReal.toReal_coe, EReal.toReal_coe] at hfl
  have hpq : |p - q| < 1 := Int.abs_sub_lt_one_of_floor_eq_floor hfl
  have h1 : |p * g.h - q * g.h| ≤ g.h := by
    rw [← sub_mul, abs_mul, abs_of_pos h0]
    nlinarith
  have hδ := hC.positions
  have hlw : 0 < lo * g.h := mul_pos hl h0
  have hL : 0 ≤ L := by
    have := expand_bounds A.pts (Box.empty A.M) _ (A.pt_mem hi') a
    have hL := hC.extent a
    unfold boundsOf at hL
    linarith
  have hW : 0 ≤ W := (abs_nonneg _).trans (hC.corner a)
  have hE : 3 * u * L + 2 * lo * (2 + g.h) ≤ δ := by
    have := mul_nonneg hu0 hL
    have := mul_nonneg hu0 h0.le
    have := mul_nonneg hu0 hW
    nlinarith
  rw [abs_le] at h1 hp hq ⊢
  constructor <;> linarith [h1.1, h1.2, hp.1, hp.2, hq.1, hq.2]

/-- The box of the cell of a point is valid and comes within `δ` of the point along every axis. -/
lemma cell_box {j : ℕ} (hj : j < A.pts.length) :
    (g.cellBox F ((g.cellIndex F (A.pt j)).getD 0)).Valid ∧
    ∃ x ∈ (g.cellBox F ((g.cellIndex F (A.pt j)).getD 0)).set, ∀ a, |x a - A.pt j a| ≤ δ := by
  obtain ⟨-, hb'⟩ := grid_spec hb
  obtain ⟨h0, elo, -, hu⟩ := build_spec hb'
  have hl := hF.lo0
  have hu0 := hF.u0
  obtain ⟨c, hc, hbox, -⟩ := unit_cell hu hint (quots_range hF hb hC hj) (hbelow j hj)
  rw [dense_cell hF hb hC hj, hc]
  simp only [Option.getD_some]
  have key : ∀ a, (g.cellBox F c).lo a ≤ (g.cellBox F c).hi a ∧ (g.cellBox F c).lo a ≤ A.pt j a + δ ∧ A.pt j a - δ ≤ (g.cellBox F c).hi a := by
    intro a
    obtain ⟨b1, b2⟩ := hbox a
    obtain ⟨q, eq, q0, hq, -⟩ := point_quot hF hb hC hj a
    have hqq : F.quots g.lo g.h (A.pt j) a = q := by unfold Format.quots; rw [eq, EReal.toReal_coe]
    rw [hqq] at b1 b2
    have hqn := hbelow j hj a
    rw [hqq] at hqn
    have f1 := Int.floor_le q
    have f2 := Int.lt_floor_add_one q
    have f0 : (0 : ℝ) ≤ (⌊q⌋ : ℝ) := by exact_mod_cast Int.floor_nonneg.mpr q0
    have hin := expand_bounds A.pts (Box.empty A.M) _ (A.pt_mem hj) a
    have hL' := hC.extent a
    have hcor := hC.corner a
    rw [← elo] at hL' hcor
    have hin1 : A.pt j a - g.lo a ≤ L := by
      rw [elo] at hL' ⊢
      unfold boundsOf at hL' ⊢
      linarith [hin.2]
    have hin0 : 0 ≤ A.pt j a - g.lo a := by
      rw [elo]
      unfold boundsOf
      linarith [hin.1]
    have hL : 0 ≤ L := hin0.trans hin1
    have hW : 0 ≤ W := (abs_nonneg _).trans hcor
    have hδ := hC.positions
    have hlw : 0 < lo * g.h := mul_pos hl h0
    have uL := mul_nonneg hu0 hL
    have uh := mul_nonneg hu0 h0.le
    have uW := mul_nonneg hu0 hW
    have hE : 3 * u * L + 2 * lo * (2 + g.h) ≤ δ := by nlinarith
    have hqh : q * g.h ≤ L + g.h := by
      have := (abs_le.mp hq).2
      have := hC.cells
      linarith
    have hn : (⌊q⌋ : ℝ) + 1 ≤ hi := by
      have h1 : ⌊q⌋ + 1 ≤ (g.unit.n a : ℤ) := by
        have : ⌊q⌋ < (g.unit.n a : ℤ) := Int.floor_lt.mpr (by exact_mod_cast hqn)
        omega
      have h2 : ((⌊q⌋ + 1 : ℤ) : ℝ) ≤ (2 ^ 31 : ℕ) := by
        have h3 : ⌊q⌋ + 1 ≤ ((2 ^ 31 : ℕ) : ℤ) := h1.trans (by exact_mod_cast hint a)
        exact_mod_cast h3
      have h3 := hC.range.2.2.1
      push_cast at h2
      linarith
    have X1 : (⌊q⌋ : ℝ) * g.h ≤ L + 2 * g.h := by nlinarith
    have X2 : ((⌊q⌋ : ℝ) + 1) * g.h ≤ L + 2 * g.h := by nlinarith
    obtain ⟨c1, e1, hc1⟩ := corner_err hF g a h0 f0 X1 (by linarith) hcor hC.range.1
    obtain ⟨c2, e2, hc2⟩ := corner_err hF g a h0 (by linarith) X2 hn hcor hC.range.1
    have ec1 : (g.cellBox F c).lo a = c1 := by unfold FGrid.cellBox; simp only [b1, e1, EReal.toReal_coe]
    have ec2 : (g.cellBox F c).hi a = c2 := by unfold FGrid.cellBox; simp only [b2, e2, EReal.toReal_coe]
    rw [ec1, ec2]
    have hq2 := abs_le.mp hq
    have hc1' := abs_le.mp hc1
    have hc2' := abs_le.mp hc2
    have m1 : (⌊q⌋ : ℝ) * g.h ≤ q * g.h := mul_le_mul_of_nonneg_right f1 h0.le
    have m2 : q * g.h ≤ ((⌊q⌋ : ℝ) + 1) * g.h := mul_le_mul_of_nonneg_right f2.le h0.le
    refine ⟨?_, ?_, ?_⟩
    · rw [← EReal.coe_le_coe_iff, ← e1, ← e2]
      exact corner_mono g a h0 f0 (by linarith) (by rw [e1]; exact EReal.coe_ne_top _) (by rw [e2]; exact EReal.coe_ne_top _)
    · linarith [hc1'.2, hq2.2]
    · linarith [hc2'.1, hq2.1]
  refine ⟨fun a => (key a).1, fun a => max ((g.cellBox F c).lo a) (min (A.pt j a) ((g.cellBox F c).hi a)), fun a => ?_, fun a => ?_⟩
  · exact ⟨le_max_left _ _, max_le (key a).1 (min_le_right _ _)⟩
  · obtain ⟨k1, k2, k3⟩ := key a
    have hδ0 : 0 ≤ δ := by
      have hδ := hC.positions
      have hW : 0 ≤ W := (abs_nonneg _).trans (hC.corner a)
      have hL : 0 ≤ L := by
        have := expand_bounds A.pts (Box.empty A.M) _ (A.pt_mem hj) a
        have hL := hC.extent a
        unfold boundsOf at hL
        linarith
      have hlw : 0 < lo * g.h := mul_pos hl h0
      have uL := mul_nonneg hu0 hL
      have uh := mul_nonneg hu0 h0.le
      have uW := mul_nonneg hu0 hW
      nlinarith
    rw [abs_le]
    dsimp only
    rcases le_total (A.pt j a) ((g.cellBox F c).hi a) with m1 | m1
    · rw [min_eq_left m1]
      rcases le_total ((g.cellBox F c).lo a) (A.pt j a) with m2 | m2
      · rw [max_eq_right m2]; constructor <;> linarith
      · rw [max_eq_left m2]; constructor <;> linarith
    · rw [min_eq_right m1, max_eq_right k1]
      constructor <;> linarith

/-- A near point makes the box of a cell near. -/
lemma box_near (heps : 0 < eps) {i j : ℕ} (hi' : i < A.pts.length) (hj : j < A.pts.length)
    (hn : (1 + u) ^ (D + 5) * (A.edist i j + Real.sqrt D * δ) ^ 2 ≤ eps ^ 2) :
    nodeTest F (.sphere ⟨A.pt i, eps⟩) (leafBound A.M (.box (g.cellBox F ((g.cellIndex F (A.pt j)).getD 0)))) = true := by
  have hu0 := hF.u0
  obtain ⟨hv, x, hx, hxd⟩ := cell_box hF hb hC hint hbelow hj
  obtain ⟨C, e, hC'⟩ := leafBound_le (M := A.M) (g := .box (g.cellBox F ((g.cellIndex F (A.pt j)).getD 0))) hv le_rfl
  rw [e]
  refine decide_eq_true (congrArg some (decide_eq_true ?_))
  refine (F.distPointBox_le _ _ (hC' hx)).trans ?_
  rcases Nat.eq_zero_or_pos D with hD | hD
  · subst hD
    have : F.distPoint (A.pt i) x = 0 := by
      have : x = A.pt i := funext fun a => a.elim0
      rw [this, F.distPoint_self]
    show F.distPoint (A.pt i) x ≤ _
    rw [this]
    exact EReal.coe_nonneg.mpr heps.le
  have hδ0 : 0 ≤ δ := (abs_nonneg _).trans (hxd ⟨0, hD⟩)
  -- the largest differences possible
  set v : Fin D → ℝ := fun a => |A.pt i a - A.pt j a| + δ with hvdef
  have hsum : ∑ a, v a ^ 2 ≤ (A.edist i j + Real.sqrt D * δ) ^ 2 := by
    have e1 : A.edist i j ^ 2 = ∑ a, (A.pt i a - A.pt j a) ^ 2 := by
      unfold Cloud.edist
      rw [edist_sq]; rfl
    have e2 : ∑ a, v a ^ 2 = ∑ a, (A.pt i a - A.pt j a) ^ 2 + 2 * δ * ∑ a, |A.pt i a - A.pt j a| + D * δ ^ 2 := by
      rw [Finset.mul_sum, ← Finset.sum_add_distrib]
      have : (D : ℝ) * δ ^ 2 = ∑ _a : Fin D, δ ^ 2 := by simp
      rw [this, ← Finset.sum_add_distrib]
      refine Finset.sum_congr rfl fun a _ => ?_
      have := sq_abs (A.pt i a - A.pt j a)
      rw [hvdef]
      dsimp only
      nlinarith
    have hcs : (∑ a, |A.pt i a - A.pt j a|) ^ 2 ≤ D * ∑ a, (A.pt i a - A.pt j a) ^ 2 := by
      have := sq_sum_le_card_mul_sum_sq (s := Finset.univ) (f := fun a : Fin D => |A.pt i a - A.pt j a|)
      simpa using this
    have hd0 : 0 ≤ A.edist i j := Geometry.edist_nonneg _ _
    have hs0 := Real.sqrt_nonneg (D : ℝ)
    have hs := Real.sq_sqrt (Nat.cast_nonneg D : (0 : ℝ) ≤ D)
    have h1 : ∑ a, |A.pt i a - A.pt j a| ≤ Real.sqrt D * A.edist i j := by
      refine (abs_le_of_sq_le_sq' ?_ (mul_nonneg hs0 hd0)).2
      rw [mul_pow, hs, e1]
      exact hcs
    rw [e2, ← e1]
    have h2 := mul_le_mul_of_nonneg_left h1 (show 0 ≤ 2 * δ by linarith)
    calc A.edist i j ^ 2 + 2 * δ * ∑ a, |A.pt i a - A.pt j a| + D * δ ^ 2
        ≤ A.edist i j ^ 2 + 2 * δ * (Real.sqrt D * A.edist i j) + Real.sqrt D ^ 2 * δ ^ 2 := by rw [hs]; linarith
      _ = _ := by ring
  have hp : 0 ≤ (1 + u) ^ (D + 5) := by positivity
  have hle : (1 + u) ^ (D + 5) * ∑ a, v a ^ 2 ≤ eps ^ 2 := (mul_le_mul_of_nonneg_left hsum hp).trans hn
  obtain ⟨r, er, r0, -, r2⟩ := hF.norm v (fun a => .inr (hC.range.2.2.2.2.trans (mul_le_mul_of_nonneg_left
    (pow_le_pow_left₀ hδ0 (by simp [hvdef]) 2) (pow_nonneg (by linarith [hF.u1]) _)))) (hle.trans hC.range.2.2.2.1)
  have hmono : F.distPoint (A.pt i) x ≤ F.norm (fun a => some (v a)) := by
    refine F.norm_mono (fun a b hb => ⟨_, rfl, ?_⟩)
    rw [Option.some_inj] at hb
    rw [← hb, abs_of_nonneg (a := v a) (add_nonneg (abs_nonneg _) hδ0)]
    have h1 := hxd a
    have h2 : x a - A.pt i a = (x a - A.pt j a) + (A.pt j a - A.pt i a) := by ring
    rw [h2]
    refine (abs_add_le _ _).trans ?_
    rw [abs_sub_comm (A.pt j a)]
    show _ ≤ |A.pt i a - A.pt j a| + δ
    linarith
  refine hmono.trans ?_
  rw [er]
  exact EReal.coe_le_coe_iff.mpr (abs_le_of_sq_le_sq' (r2.trans hle) heps.le).2

/-- The grid meets the preconditions of dense-box DBSCAN for the computed distances. -/
lemma dense_valid (heps : 0 < eps) (hclear : A.Clear u lo hi eps) (R : DenseRest D)
    (hR : R.Valid A.pts.length (fun i => (g.cellIndex F (A.pt i)).getD 0)) : (A.dense F eps g R).Valid := by
  have hu0 := hF.u0
  have hu1 := hF.u1
  have hnear : ∀ i j, (A.dense F eps g R).near i j = A.within F eps i j := fun i j => ballTest_eq F eps _ _
  obtain ⟨-, hb'⟩ := grid_spec hb
  obtain ⟨h0, -, -, -⟩ := build_spec hb'
  refine ⟨?_, ?_, ?_, ?_, fun _ _ => rfl, ?_, ?_, hR.sort, hR.tree, hR.minPts, hR.chunks1, hR.chunks2, hR.serial1, hR.serial2⟩
  · intro i j
    rw [hnear, hnear]
    unfold Cloud.within Cloud.dist
    rw [F.distPoint_comm]
  · intro i
    rw [hnear]
    unfold Cloud.within Cloud.dist
    rw [F.distPoint_self]
    exact decide_eq_true (EReal.coe_nonneg.mpr heps.le)
  · intro i v v' hv h
    show nodeTest F (.sphere ⟨A.pt i, eps⟩) v' = true
    have h : nodeTest F (.sphere ⟨A.pt i, eps⟩) v = true := h
    induction v using WithBot.recBotCoe with
    | bot => exact absurd h (by simp [nodeTest])
    | coe B =>
      induction v' using WithBot.recBotCoe with
      | bot => exact absurd hv (by simp)
      | coe C =>
        have hBC := (VBox.le_iff B C).mp (WithBot.coe_le_coe.mp hv)
        have h := of_decide_eq_true (Option.some.inj (of_decide_eq_true h))
        exact decide_eq_true (congrArg some (decide_eq_true ((F.distPointBox_mono _ B.2 hBC).trans h)))
  · intro i j h
    exact ball_mono F A.M eps (A.pt i) (A.pt j) le_rfl h
  · intro i hi' j hj he
    have hi' : i < A.pts.length := hi'
    have hj : j < A.pts.length := hj
    rw [hnear, hclear.within heps.le hF hi' hj]
    refine decide_eq_true ?_
    have hd0 : 0 ≤ A.edist i j := Geometry.edist_nonneg _ _
    rcases hC.pairs i hi' j hj with h | h
    · have h1 : A.edist i j ^ 2 ≤ eps ^ 2 := by
        rcases hclear i hi' j hj with ⟨-, h2 | h2⟩
        · exact (le_mul_of_one_le_left (sq_nonneg _) (one_le_pow₀ (by linarith))).trans h2
        · have h3 : (1 - u) ^ (D + 5) * A.edist i j ^ 2 ≤ A.edist i j ^ 2 :=
            mul_le_of_le_one_left (sq_nonneg _) (pow_le_one₀ (by linarith) (by linarith))
          have hδ0 : 0 ≤ Real.sqrt D * δ := by
            rcases Nat.eq_zero_or_pos D with hD | hD
            · subst hD; simp
            · refine mul_nonneg (Real.sqrt_nonneg _) ?_
              obtain ⟨-, x, -, hx⟩ := cell_box hF hb hC hint hbelow hj
              exact (abs_nonneg _).trans (hx ⟨0, hD⟩)
          have h4 : A.edist i j ^ 2 ≤ (A.edist i j + Real.sqrt D * δ) ^ 2 := pow_le_pow_left₀ hd0 (by linarith) 2
          have h5 : (A.edist i j + Real.sqrt D * δ) ^ 2 ≤ (1 + u) ^ (D + 5) * (A.edist i j + Real.sqrt D * δ) ^ 2 :=
            le_mul_of_one_le_left (sq_nonneg _) (one_le_pow₀ (by linarith))
          linarith
      exact (abs_le_of_sq_le_sq' h1 heps.le).2
    · exfalso
      refine absurd h.2 (not_lt.mpr ?_)
      have e1 : A.edist i j ^ 2 = ∑ a, (A.pt i a - A.pt j a) ^ 2 := by
        unfold Cloud.edist
        rw [edist_sq]; rfl
      rw [e1]
      calc ∑ a, (A.pt i a - A.pt j a) ^ 2 ≤ ∑ _a : Fin D, (g.h + 2 * δ) ^ 2 := by
            refine Finset.sum_le_sum fun a _ => ?_
            rw [← sq_abs]
            exact pow_le_pow_left₀ (abs_nonneg _) (cell_gap hF hb hC hint hbelow hi' hj he a) 2
        _ = _ := by simp
  · intro i hi' j hj h
    have hi' : i < A.pts.length := hi'
    have hj : j < A.pts.length := hj
    rcases hC.pairs i hi' j hj with h1 | h1
    · exact box_near hF hb hC hint hbelow heps hi' hj h1
    · rw [hnear, hclear.within heps.le hF hi' hj] at h
      exact absurd (of_decide_eq_true h) (not_le.mpr h1.1)

end Dense

/-! ## Property theorem -/

/-- **C77 (partial).** `dbscan` with `Implementation::FDBSCAN_DenseBox` in floating-point arithmetic, with the grid computed by the code: if the points
are clear of the rounding of distances and of the rounding of the grid, then whatever the schedules there is no out-of-bounds access, and when the kernels
have finished the labels are a DBSCAN (or DBSCAN*) clustering for the Euclidean distances.

Partial: the full claim is for the computed distances, with no hypothesis on the points, as for FDBSCAN (`dbscan_float`, `dbscan_float_clear`). It is false:
`densebox_float_joins` and `densebox_float_splits` are inputs that the code accepts and clusters wrongly, because the grid is rounded differently from the
distances. The last cell along an axis must not be exceeded by a quotient (`grid_aliasing`, `densebox_face_defect`), and there are at most `2 ^ 31` cells
along an axis (`grid_int_overflow`). -/
theorem densebox_float_clear_partial (A : Cloud D) {F : Format} {u lo hi : ℝ} (hF : F.Accurate u lo hi) (eps prec : ℝ) (heps : 0 < eps)
    (hclear : A.Clear u lo hi eps) (g : FGrid D) (hb : A.grid F eps prec = some g) (L W δ : ℝ) (hC : A.DenseClear u lo hi eps g L W δ)
    (hint : ∀ a, g.unit.n a ≤ 2 ^ 31) (hbelow : ∀ j < A.pts.length, ∀ a, F.quots g.lo g.h (A.pt j) a < g.unit.n a)
    (R : DenseRest D) (hR : R.Valid A.pts.length (fun i => (g.cellIndex F (A.pt i)).getD 0)) (S : DenseBox.DSched) (hS : S.Fair A.pts.length)
    (hB : ∀ l, (A.dense F eps g R).layout S = some l → ((A.dense F eps g R).tree l).Finished S.tree) (fuel : ℕ) (hfuel : 2 * A.pts.length ≤ fuel) :
    (A.dense F eps g R).dbscan S fuel = .running ∨
    ∃ l, (A.dense F eps g R).dbscan S fuel = .labels l ∧ l.length = A.pts.length ∧
      (R.star = false → Dbscan.IsDBSCAN A.pts.length (A.ewithin eps) R.minPts (Dbscan.labelOf l)) ∧
      (R.star = true → Dbscan.IsDBSCANStar A.pts.length (A.ewithin eps) R.minPts (Dbscan.labelOf l)) := by
  have hV := dense_valid hF hb hC hint hbelow heps hclear R hR
  have hw : ∀ i < A.pts.length, ∀ j < A.pts.length, (A.dense F eps g R).near i j = A.ewithin eps i j := by
    intro i hi' j hj
    rw [← hclear.within heps.le hF hi' hj]
    exact ballTest_eq F eps _ _
  cases hs : R.star
  · rcases DenseBox.densebox_correct _ hV S hS hB fuel hfuel hs with h | ⟨l, a, b, c, -⟩
    · exact .inl h
    · exact .inr ⟨l, a, b, fun _ => c.congr_near hw, by simp⟩
  · rcases DenseBox.densebox_star_correct _ hV S hS hB fuel hfuel hs with h | ⟨l, a, b, c, -⟩
    · exact .inl h
    · exact .inr ⟨l, a, b, by simp, fun _ => c.congr_near hw⟩

end ArborX.Fp
