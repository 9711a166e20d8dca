import Verif.Geometry.Spec
import Mathlib.Tactic.Linarith
import Mathlib.Tactic.Ring
import Mathlib.Tactic.Abel
import Mathlib.Tactic.FieldSimp
import Mathlib.Tactic.NormNum
import Mathlib.Tactic.FinCases
import Mathlib.Data.Fin.VecNotation
import Mathlib.Data.Rat.Defs
import Mathlib.Algebra.Order.Ring.Rat
import Mathlib.Algebra.Field.Rat
import Mathlib.Algebra.Order.Chebyshev

/-!
# Closest point of a triangle and of a segment (C38)

Exact arithmetic in any ordered field, any number of dimensions (the code: two or three). A division
by zero, which in floating point makes the result NaN, is the outcome `none`.
-/

namespace ArborX.Geometry

variable {K : Type} [Field K] [LinearOrder K] [IsStrictOrderedRing K] {D : ℕ}

/-! ## Specification -/

/-- `q` is a point of the shape at minimal distance from `p`. -/
structure IsClosest (p : Pt K D) (shape : Set (Pt K D)) (q : Pt K D) : Prop where
  mem : q ∈ shape
  minimal : ∀ x ∈ shape, dist2 p q ≤ dist2 p x

/-! ## Model -/

/-- `Vector::dot` (`misc/ArborX_Vector.hpp`). -/
def dot (x y : Pt K D) : K := ∑ d, x d * y d

/-- Division; `none` for a division by zero. -/
def divide (x y : K) : Option K := if y = 0 then none else some (x / y)

/-- `combine` (`ArborX_ClosestPoint.hpp` 74-82). -/
def combine (a b c : Pt K D) (u v w : K) : Pt K D := fun d => u * a d + v * b d + w * c d

/-- `closestPoint(Point, Triangle)` (84-152). -/
def closestPointTriangle (p : Pt K D) (T : Triangle K D) : Option (Pt K D) :=
  let ab := T.b - T.a
  let ac := T.c - T.a
  let ap := p - T.a
  let d1 := dot ab ap
  let d2 := dot ac ap
  if d1 ≤ 0 ∧ d2 ≤ 0 then some T.a
  else
    let bp := p - T.b
    let d3 := dot ab bp
    let d4 := dot ac bp
    if d3 ≥ 0 ∧ d4 ≤ d3 then some T.b
    else
      let cp := p - T.c
      let d5 := dot ab cp
      let d6 := dot ac cp
      if d6 ≥ 0 ∧ d5 ≤ d6 then some T.c
      else
        let vc := d1 * d4 - d3 * d2
        if vc ≤ 0 ∧ d1 ≥ 0 ∧ d3 ≤ 0 then
          (divide d1 (d1 - d3)).map (fun v => combine T.a T.b T.c (1 - v) v 0)
        else
          let vb := d5 * d2 - d1 * d6
          if vb ≤ 0 ∧ d2 ≥ 0 ∧ d6 ≤ 0 then
            (divide d2 (d2 - d6)).map (fun v => combine T.a T.b T.c (1 - v) 0 v)
          else
            let va := d3 * d6 - d5 * d4
            if va ≤ 0 ∧ d4 - d3 ≥ 0 ∧ d5 - d6 ≥ 0 then
              (divide (d4 - d3) ((d4 - d3) + (d5 - d6))).map (fun v => combine T.a T.b T.c 0 (1 - v) v)
            else
              (divide 1 (va + vb + vc)).map (fun denom =>
                let v := vb * denom
                let w := vc * denom
                combine T.a T.b T.c (1 - v - w) v w)

/-- `Kokkos::clamp`. -/
def clamp (x lo hi : K) : K := if x < lo then lo else if hi < x then hi else x

/-- `closestPoint(Point, Segment)` (167-193). -/
def closestPointSegment (p : Pt K D) (S : Segment K D) : Option (Pt K D) :=
  if S.a = S.b then some S.a
  else
    let dir := S.b - S.a
    (divide (dot dir (p - S.a)) (dot dir dir)).map (fun t =>
      let t := clamp t 0 1
      fun d => S.a d + t * dir d)

/-! ## Lemmas -/

omit [LinearOrder K] [IsStrictOrderedRing K] in
lemma dot_sub_right (x y z : Pt K D) : dot x (y - z) = dot x y - dot x z := by
  unfold dot
  rw [← Finset.sum_sub_distrib]
  exact Finset.sum_congr rfl (fun d _ => by rw [Pi.sub_apply]; ring)

omit [LinearOrder K] [IsStrictOrderedRing K] in
lemma dot_comm (x y : Pt K D) : dot x y = dot y x := Finset.sum_congr rfl (fun d _ => mul_comm _ _)

lemma dot_self_nonneg (x : Pt K D) : 0 ≤ dot x x := Finset.sum_nonneg (fun d _ => mul_self_nonneg _)

lemma dot_self_eq_zero {x : Pt K D} (h : dot x x = 0) : x = 0 := by
  funext d
  have := (Finset.sum_eq_zero_iff_of_nonneg (fun d _ => mul_self_nonneg (x d))).mp h d (Finset.mem_univ d)
  exact mul_self_eq_zero.mp this

lemma cauchy (x y : Pt K D) : dot x y ^ 2 ≤ dot x x * dot y y := by
  have := Finset.sum_mul_sq_le_sq_mul_sq Finset.univ x y
  unfold dot
  simpa only [pow_two] using this

/-- Half of the key inequality: near the vertex between the edges with Gram matrix `α β γ`. -/
lemma vertex_case {α β γ s t : K} (hα : 0 < α) (hc : β ^ 2 ≤ α * γ) (hs : s < 0) (ht : 0 < t) (h : α * t ≤ s * β) :
    s * γ ≤ t * β ∧ ¬ (t > γ ∧ s - β > t - γ) := by
  have hβ : β < 0 := by
    by_contra hn
    push Not at hn
    have h1 : 0 < α * t := mul_pos hα ht
    have h2 : s * β ≤ 0 := mul_nonpos_of_nonpos_of_nonneg hs.le hn
    linarith
  have hγ : 0 ≤ γ := by
    by_contra hn
    push Not at hn
    nlinarith [sq_nonneg β, mul_pos hα (neg_pos.mpr hn)]
  constructor
  · -- multiply by α
    have h1 : t * β ^ 2 ≤ t * (α * γ) := mul_le_mul_of_nonneg_left hc ht.le
    have h2 : (α * t) * γ ≤ (s * β) * γ := mul_le_mul_of_nonneg_right h hγ
    -- t β² ≤ α t γ ≤ s β γ, divide by β < 0
    have h3 : (t * β) * β ≤ (s * γ) * β := by nlinarith
    by_contra hn
    push Not at hn
    have := mul_lt_mul_of_neg_right hn hβ
    linarith
  · rintro ⟨h1, h2⟩
    have h3 : β < s := by linarith
    -- α γ < α t ≤ s β < β²
    have h4 : α * γ < α * t := mul_lt_mul_of_pos_left h1 hα
    have h5 : s * β < β * β := mul_lt_mul_of_neg_right h3 hβ
    nlinarith

/-- Optimality of the coefficients `v`, `w` of the edges. -/
structure Optimal (g11 g12 g22 d1 d2 v w : K) : Prop where
  v0 : 0 ≤ v
  w0 : 0 ≤ w
  vw : v + w ≤ 1
  atA : -v * (d1 - v * g11 - w * g12) - w * (d2 - v * g12 - w * g22) ≤ 0
  atB : (1 - v) * (d1 - v * g11 - w * g12) - w * (d2 - v * g12 - w * g22) ≤ 0
  atC : -v * (d1 - v * g11 - w * g12) + (1 - w) * (d2 - v * g12 - w * g22) ≤ 0

lemma zone5 {g11 g12 g22 d1 d2 : K} (h11 : 0 < g11)
    (hvc : d1 * (d2 - g12) - (d1 - g11) * d2 ≤ 0) (h1 : d1 ≥ 0) (h3 : d1 - g11 ≤ 0) :
    Optimal g11 g12 g22 d1 d2 (d1 / g11) 0 := by
  have e : d1 - d1 / g11 * g11 = 0 := by rw [div_mul_cancel₀ _ h11.ne']; ring
  have hE2 : d2 - d1 / g11 * g12 ≤ 0 := by
    have : g11 * (d2 - d1 / g11 * g12) ≤ 0 := by
      have : g11 * (d2 - d1 / g11 * g12) = d1 * (d2 - g12) - (d1 - g11) * d2 := by field_simp; ring
      rw [this]; exact hvc
    by_contra hn
    push Not at hn
    linarith [mul_pos h11 hn]
  have hv1 : d1 / g11 ≤ 1 := (div_le_one h11).mpr (by linarith)
  refine ⟨div_nonneg h1 h11.le, le_rfl, by linarith, ?_, ?_, ?_⟩
  · rw [zero_mul, sub_zero, e]; simp
  · rw [zero_mul, sub_zero, e]; simp
  · rw [zero_mul, zero_mul, sub_zero, sub_zero, e]; simpa using hE2

lemma zone4 {g11 g12 g22 d1 d2 : K} (h22 : 0 < g22)
    (hvb : (d1 - g12) * d2 - d1 * (d2 - g22) ≤ 0) (h1 : d2 ≥ 0) (h3 : d2 - g22 ≤ 0) :
    Optimal g11 g12 g22 d1 d2 0 (d2 / g22) := by
  have e : d2 - d2 / g22 * g22 = 0 := by rw [div_mul_cancel₀ _ h22.ne']; ring
  have hE1 : d1 - d2 / g22 * g12 ≤ 0 := by
    have : g22 * (d1 - d2 / g22 * g12) ≤ 0 := by
      have : g22 * (d1 - d2 / g22 * g12) = (d1 - g12) * d2 - d1 * (d2 - g22) := by field_simp; ring
      rw [this]; exact hvb
    by_contra hn
    push Not at hn
    linarith [mul_pos h22 hn]
  have hv1 : d2 / g22 ≤ 1 := (div_le_one h22).mpr (by linarith)
  refine ⟨le_rfl, div_nonneg h1 h22.le, by linarith, ?_, ?_, ?_⟩
  · simp only [zero_mul, sub_zero, e, mul_zero, neg_zero]; exact le_rfl
  · simp only [zero_mul, sub_zero, e, mul_zero, one_mul]; exact hE1
  · simp only [zero_mul, sub_zero, e, mul_zero, neg_zero, add_zero]; exact le_rfl

lemma zone6 {g11 g12 g22 d1 d2 : K} (hL : 0 < g11 - 2 * g12 + g22)
    (hva : (d1 - g11) * (d2 - g22) - (d1 - g12) * (d2 - g12) ≤ 0) (h1 : (d2 - g12) - (d1 - g11) ≥ 0)
    (h3 : (d1 - g12) - (d2 - g22) ≥ 0) :
    Optimal g11 g12 g22 d1 d2 (1 - ((d2 - g12) - (d1 - g11)) / (g11 - 2 * g12 + g22))
      (((d2 - g12) - (d1 - g11)) / (g11 - 2 * g12 + g22)) := by
  have hw0 : 0 ≤ ((d2 - g12) - (d1 - g11)) / (g11 - 2 * g12 + g22) := div_nonneg h1 hL.le
  have hw1 : ((d2 - g12) - (d1 - g11)) / (g11 - 2 * g12 + g22) ≤ 1 := (div_le_one hL).mpr (by linarith)
  have hwL : ((d2 - g12) - (d1 - g11)) / (g11 - 2 * g12 + g22) * (g11 - 2 * g12 + g22) = (d2 - g12) - (d1 - g11) :=
    div_mul_cancel₀ _ hL.ne'
  generalize ((d2 - g12) - (d1 - g11)) / (g11 - 2 * g12 + g22) = w at hw0 hw1 hwL ⊢
  have hEE : d1 - (1 - w) * g11 - w * g12 = d2 - (1 - w) * g12 - w * g22 := by linarith
  have hE : 0 ≤ d1 - (1 - w) * g11 - w * g12 := by
    have h4 : (g11 - 2 * g12 + g22) * (d1 - (1 - w) * g11 - w * g12) =
        -((d1 - g11) * (d2 - g22) - (d1 - g12) * (d2 - g12)) := by
      have : (g11 - 2 * g12 + g22) * (d1 - (1 - w) * g11 - w * g12) =
          (g11 - 2 * g12 + g22) * (d1 - g11) + (w * (g11 - 2 * g12 + g22)) * (g11 - g12) := by ring
      rw [this, hwL]; ring
    by_contra hn
    push Not at hn
    have := mul_neg_of_pos_of_neg hL hn
    rw [h4] at this
    linarith
  refine ⟨by linarith, hw0, by linarith, ?_, ?_, ?_⟩
  · rw [← hEE]; linarith
  · rw [← hEE]; linarith
  · rw [← hEE]; linarith

lemma zone0 {g11 g12 g22 d1 d2 va vb vc : K} (ea : va = (d1 - g11) * (d2 - g22) - (d1 - g12) * (d2 - g12))
    (eb : vb = (d1 - g12) * d2 - d1 * (d2 - g22)) (ec : vc = d1 * (d2 - g12) - (d1 - g11) * d2)
    (ha : 0 < va) (hb : 0 < vb) (hc : 0 < vc) :
    Optimal g11 g12 g22 d1 d2 (vb * (1 / (va + vb + vc))) (vc * (1 / (va + vb + vc))) := by
  have hs : 0 < va + vb + vc := by linarith
  have es : va + vb + vc = g11 * g22 - g12 ^ 2 := by rw [ea, eb, ec]; ring
  have eb' : vb = d1 * g22 - d2 * g12 := by rw [eb]; ring
  have ec' : vc = d2 * g11 - d1 * g12 := by rw [ec]; ring
  have e1 : d1 - vb * (1 / (va + vb + vc)) * g11 - vc * (1 / (va + vb + vc)) * g12 = 0 := by
    have : (d1 - vb * (1 / (va + vb + vc)) * g11 - vc * (1 / (va + vb + vc)) * g12) * (va + vb + vc) = 0 := by
      have h : (d1 - vb * (1 / (va + vb + vc)) * g11 - vc * (1 / (va + vb + vc)) * g12) * (va + vb + vc) =
          d1 * (va + vb + vc) - vb * g11 - vc * g12 := by field_simp
      rw [h, es, eb', ec']; ring
    exact (mul_eq_zero.mp this).resolve_right hs.ne'
  have e2 : d2 - vb * (1 / (va + vb + vc)) * g12 - vc * (1 / (va + vb + vc)) * g22 = 0 := by
    have : (d2 - vb * (1 / (va + vb + vc)) * g12 - vc * (1 / (va + vb + vc)) * g22) * (va + vb + vc) = 0 := by
      have h : (d2 - vb * (1 / (va + vb + vc)) * g12 - vc * (1 / (va + vb + vc)) * g22) * (va + vb + vc) =
          d2 * (va + vb + vc) - vb * g12 - vc * g22 := by field_simp
      rw [h, es, eb', ec']; ring
    exact (mul_eq_zero.mp this).resolve_right hs.ne'
  have hi : 0 ≤ 1 / (va + vb + vc) := by positivity
  refine ⟨by positivity, by positivity, ?_, ?_, ?_, ?_⟩
  · rw [← add_mul, mul_one_div, div_le_one hs]; linarith
  all_goals rw [e1, e2]; simp

/-- If none of the zones 1 to 6 applies, all three products are positive. -/
lemma zone0_pos {g11 g12 g22 d1 d2 : K} (h11 : 0 < g11) (h22 : 0 ≤ g22) (hc : g12 ^ 2 ≤ g11 * g22)
    (hz22 : g22 = 0 → d2 = 0) (hL : 0 ≤ g11 - 2 * g12 + g22) (hzL : g11 - 2 * g12 + g22 = 0 → d2 = d1 ∧ g12 = g11)
    (n1 : ¬ (d1 ≤ 0 ∧ d2 ≤ 0)) (n2 : ¬ (d1 - g11 ≥ 0 ∧ d2 - g12 ≤ d1 - g11)) (n3 : ¬ (d2 - g22 ≥ 0 ∧ d1 - g12 ≤ d2 - g22))
    (n5 : ¬ (d1 * (d2 - g12) - (d1 - g11) * d2 ≤ 0 ∧ d1 ≥ 0 ∧ d1 - g11 ≤ 0)) :
    (((d1 - g12) * d2 - d1 * (d2 - g22) ≤ 0 ∧ d2 ≥ 0 ∧ d2 - g22 ≤ 0) → 0 < g22) ∧
    (¬ ((d1 - g12) * d2 - d1 * (d2 - g22) ≤ 0 ∧ d2 ≥ 0 ∧ d2 - g22 ≤ 0) →
      (((d1 - g11) * (d2 - g22) - (d1 - g12) * (d2 - g12) ≤ 0 ∧ (d2 - g12) - (d1 - g11) ≥ 0 ∧ (d1 - g12) - (d2 - g22) ≥ 0) →
        0 < g11 - 2 * g12 + g22) ∧
      (¬ ((d1 - g11) * (d2 - g22) - (d1 - g12) * (d2 - g12) ≤ 0 ∧ (d2 - g12) - (d1 - g11) ≥ 0 ∧ (d1 - g12) - (d2 - g22) ≥ 0) →
        0 < (d1 - g11) * (d2 - g22) - (d1 - g12) * (d2 - g12) ∧ 0 < (d1 - g12) * d2 - d1 * (d2 - g22) ∧
          0 < d1 * (d2 - g12) - (d1 - g11) * d2)) := by
  -- the vertex c differs from a
  have h22' : 0 < g22 := by
    rcases eq_or_lt_of_le h22 with h0 | h0
    · exfalso
      have hd2 := hz22 h0.symm
      have hg12 : g12 = 0 := by
        rw [← h0, mul_zero] at hc
        exact pow_eq_zero_iff two_ne_zero |>.mp (le_antisymm hc (sq_nonneg _))
      subst hd2; subst hg12
      have hd1 : 0 < d1 := by by_contra hn; exact n1 ⟨not_lt.mp hn, le_rfl⟩
      apply n5
      refine ⟨by simp, hd1.le, ?_⟩
      by_contra hn
      exact n2 ⟨by linarith, by linarith⟩
    · exact h0
  -- the vertices b and c differ
  have hL' : 0 < g11 - 2 * g12 + g22 := by
    rcases eq_or_lt_of_le hL with h0 | h0
    · exfalso
      obtain ⟨e1, e2⟩ := hzL h0.symm
      subst e1; subst e2
      apply n5
      refine ⟨le_of_eq (by ring), ?_, ?_⟩
      · by_contra hn; exact n1 ⟨by linarith, by linarith⟩
      · by_contra hn; exact n2 ⟨by linarith, le_rfl⟩
    · exact h0
  have hcL1 : (g11 - g12) ^ 2 ≤ g11 * (g11 - 2 * g12 + g22) := by nlinarith
  have hcL2 : (g22 - g12) ^ 2 ≤ g22 * (g11 - 2 * g12 + g22) := by nlinarith
  refine ⟨fun _ => h22', fun n4 => ⟨fun _ => hL', fun n6 => ⟨?_, ?_, ?_⟩⟩⟩
  · -- va
    by_contra hva
    push Not at hva
    rcases lt_or_ge ((d2 - g12) - (d1 - g11)) 0 with hs | hs
    · -- near b
      have ht : 0 < -(d1 - g11) := by
        by_contra hn; exact n2 ⟨by linarith, by linarith⟩
      obtain ⟨k1, k2⟩ := vertex_case (α := g11 - 2 * g12 + g22) (β := g11 - g12) (γ := g11) (s := (d2 - g12) - (d1 - g11))
        (t := -(d1 - g11)) hL' (by linarith) hs ht (by linarith)
      apply n5
      refine ⟨by linarith, ?_, by linarith⟩
      by_contra hn
      apply k2
      refine ⟨by linarith, ?_⟩
      by_contra hm
      exact n1 ⟨by linarith, by linarith⟩
    · -- near c
      have hs' : (d1 - g12) - (d2 - g22) < 0 := by
        by_contra hn; exact n6 ⟨hva, hs, not_lt.mp hn⟩
      have ht : 0 < -(d2 - g22) := by
        by_contra hn; exact n3 ⟨by linarith, by linarith⟩
      obtain ⟨k1, k2⟩ := vertex_case (α := g11 - 2 * g12 + g22) (β := g22 - g12) (γ := g22) (s := (d1 - g12) - (d2 - g22))
        (t := -(d2 - g22)) hL' (by linarith) hs' ht (by linarith)
      apply n4
      refine ⟨by linarith, ?_, by linarith⟩
      by_contra hn
      apply k2
      refine ⟨by linarith, ?_⟩
      by_contra hm
      exact n1 ⟨by linarith, by linarith⟩
  · -- vb
    by_contra hvb
    push Not at hvb
    rcases lt_or_ge d2 0 with hs | hs
    · -- near a
      have ht : 0 < d1 := by
        by_contra hn; exact n1 ⟨by linarith, by linarith⟩
      obtain ⟨k1, k2⟩ := vertex_case (α := g22) (β := g12) (γ := g11) (s := d2) (t := d1) h22' (by linarith) hs ht (by linarith)
      apply n5
      refine ⟨by linarith, ht.le, ?_⟩
      by_contra hn
      apply k2
      refine ⟨by linarith, ?_⟩
      by_contra hm
      exact n2 ⟨by linarith, by linarith⟩
    · -- near c
      have hs' : -(d2 - g22) < 0 := by
        by_contra hn; exact n4 ⟨hvb, hs, by linarith⟩
      have ht : 0 < (d1 - g12) - (d2 - g22) := by
        by_contra hn; exact n3 ⟨by linarith, by linarith⟩
      obtain ⟨k1, k2⟩ := vertex_case (α := g22) (β := g22 - g12) (γ := g11 - 2 * g12 + g22) (s := -(d2 - g22))
        (t := (d1 - g12) - (d2 - g22)) h22' hcL2 hs' ht (by linarith)
      apply n6
      refine ⟨by linarith, ?_, ht.le⟩
      by_contra hn
      apply k2
      refine ⟨by linarith, ?_⟩
      by_contra hm
      exact n2 ⟨by linarith, by linarith⟩
  · -- vc
    by_contra hvc
    push Not at hvc
    rcases lt_or_ge d1 0 with hs | hs
    · -- near a
      have ht : 0 < d2 := by
        by_contra hn; exact n1 ⟨by linarith, by linarith⟩
      obtain ⟨k1, k2⟩ := vertex_case (α := g11) (β := g12) (γ := g22) (s := d1) (t := d2) h11 hc hs ht (by linarith)
      apply n4
      refine ⟨by linarith, ht.le, ?_⟩
      by_contra hn
      apply k2
      refine ⟨by linarith, ?_⟩
      by_contra hm
      exact n3 ⟨by linarith, by linarith⟩
    · -- near b
      have hs' : -(d1 - g11) < 0 := by
        by_contra hn; exact n5 ⟨hvc, hs, by linarith⟩
      have ht : 0 < (d2 - g12) - (d1 - g11) := by
        by_contra hn; exact n2 ⟨by linarith, by linarith⟩
      obtain ⟨k1, k2⟩ := vertex_case (α := g11) (β := g11 - g12) (γ := g11 - 2 * g12 + g22) (s := -(d1 - g11))
        (t := (d2 - g12) - (d1 - g11)) h11 hcL1 hs' ht (by linarith)
      apply n6
      refine ⟨by linarith, ht.le, ?_⟩
      by_contra hn
      apply k2
      refine ⟨by linarith, ?_⟩
      by_contra hm
      exact n3 ⟨by linarith, by linarith⟩

/-- From optimal coefficients to the closest point. -/
lemma closest_of_optimal (p : Pt K D) (T : Triangle K D) (v w : K)
    (h : Optimal (dot (T.b - T.a) (T.b - T.a)) (dot (T.b - T.a) (T.c - T.a)) (dot (T.c - T.a) (T.c - T.a))
      (dot (T.b - T.a) (p - T.a)) (dot (T.c - T.a) (p - T.a)) v w) :
    IsClosest p T.set (combine T.a T.b T.c (1 - v - w) v w) := by
  refine ⟨⟨1 - v - w, v, w, by linarith [h.vw], h.v0, h.w0, by ring, fun _ => rfl⟩, ?_⟩
  rintro x ⟨u', v', w', hu, hv, hw, h1, hx⟩
  have e : dist2 p x - dist2 p (combine T.a T.b T.c (1 - v - w) v w) =
      dist2 x (combine T.a T.b T.c (1 - v - w) v w) -
        2 * ((v' - v) * (dot (T.b - T.a) (p - T.a) - v * dot (T.b - T.a) (T.b - T.a) - w * dot (T.b - T.a) (T.c - T.a)) +
          (w' - w) * (dot (T.c - T.a) (p - T.a) - v * dot (T.b - T.a) (T.c - T.a) - w * dot (T.c - T.a) (T.c - T.a))) := by
    unfold dist2 dot combine
    simp only [Finset.mul_sum, ← Finset.sum_sub_distrib, ← Finset.sum_add_distrib, Pi.sub_apply]
    apply Finset.sum_congr rfl
    intro d _
    have hu' : u' = 1 - v' - w' := by linarith
    rw [hx d, hu']
    ring
  have hnn : 0 ≤ dist2 x (combine T.a T.b T.c (1 - v - w) v w) := Finset.sum_nonneg (fun _ _ => sq_nonneg _)
  have hA := h.atA
  have hB := h.atB
  have hC := h.atC
  generalize (dot (T.b - T.a) (p - T.a) - v * dot (T.b - T.a) (T.b - T.a) - w * dot (T.b - T.a) (T.c - T.a)) = E1 at e hA hB hC
  generalize (dot (T.c - T.a) (p - T.a) - v * dot (T.b - T.a) (T.c - T.a) - w * dot (T.c - T.a) (T.c - T.a)) = E2 at e hA hB hC
  have key : (v' - v) * E1 + (w' - w) * E2 ≤ 0 := by
    have hcomb : (v' - v) * E1 + (w' - w) * E2 =
        u' * (-v * E1 - w * E2) + v' * ((1 - v) * E1 - w * E2) + w' * (-v * E1 + (1 - w) * E2) := by
      have hu' : u' = 1 - v' - w' := by linarith
      rw [hu']; ring
    rw [hcomb]
    linarith [mul_nonneg hu (neg_nonneg.mpr hA), mul_nonneg hv (neg_nonneg.mpr hB), mul_nonneg hw (neg_nonneg.mpr hC)]
  linarith

/-! ## Property theorems -/

/-- **C38 (partial).** For every point and every triangle whose vertices `a` and `b` differ (all other
degenerate triangles included), `closestPoint` returns a point of the triangle at minimal distance.
Missing: triangles with `a = b`, see `closest_point_triangle_nan`. -/
theorem closest_point_triangle_partial (p : Pt K D) (T : Triangle K D) (hab : T.a ≠ T.b) :
    ∃ q, closestPointTriangle p T = some q ∧ IsClosest p T.set q := by
  have hd3 : dot (T.b - T.a) (p - T.b) = dot (T.b - T.a) (p - T.a) - dot (T.b - T.a) (T.b - T.a) := by
    rw [← dot_sub_right]; congr 1; abel
  have hd4 : dot (T.c - T.a) (p - T.b) = dot (T.c - T.a) (p - T.a) - dot (T.b - T.a) (T.c - T.a) := by
    rw [dot_comm (T.b - T.a), ← dot_sub_right]; congr 1; abel
  have hd5 : dot (T.b - T.a) (p - T.c) = dot (T.b - T.a) (p - T.a) - dot (T.b - T.a) (T.c - T.a) := by
    rw [← dot_sub_right]; congr 1; abel
  have hd6 : dot (T.c - T.a) (p - T.c) = dot (T.c - T.a) (p - T.a) - dot (T.c - T.a) (T.c - T.a) := by
    rw [← dot_sub_right]; congr 1; abel
  have hL : dot (T.c - T.b) (T.c - T.b) = dot (T.b - T.a) (T.b - T.a) - 2 * dot (T.b - T.a) (T.c - T.a) + dot (T.c - T.a) (T.c - T.a) := by
    unfold dot
    simp only [Finset.mul_sum, ← Finset.sum_sub_distrib, ← Finset.sum_add_distrib, Pi.sub_apply]
    exact Finset.sum_congr rfl (fun d _ => by ring)
  have h11 : 0 < dot (T.b - T.a) (T.b - T.a) := by
    rcases eq_or_lt_of_le (dot_self_nonneg (T.b - T.a)) with h | h
    · exact absurd (sub_eq_zero.mp (dot_self_eq_zero h.symm)).symm hab
    · exact h
  have h22 := dot_self_nonneg (T.c - T.a)
  have hLn := dot_self_nonneg (T.c - T.b)
  rw [hL] at hLn
  have hcs := cauchy (T.b - T.a) (T.c - T.a)
  have hz22 : dot (T.c - T.a) (T.c - T.a) = 0 → dot (T.c - T.a) (p - T.a) = 0 := by
    intro h
    rw [dot_self_eq_zero h]
    unfold dot; simp
  have hzL : dot (T.b - T.a) (T.b - T.a) - 2 * dot (T.b - T.a) (T.c - T.a) + dot (T.c - T.a) (T.c - T.a) = 0 →
      dot (T.c - T.a) (p - T.a) = dot (T.b - T.a) (p - T.a) ∧ dot (T.b - T.a) (T.c - T.a) = dot (T.b - T.a) (T.b - T.a) := by
    intro h
    rw [← hL] at h
    rw [sub_eq_zero.mp (dot_self_eq_zero h)]
    exact ⟨rfl, rfl⟩
  have hcomb : ∀ v w, Optimal (dot (T.b - T.a) (T.b - T.a)) (dot (T.b - T.a) (T.c - T.a)) (dot (T.c - T.a) (T.c - T.a))
      (dot (T.b - T.a) (p - T.a)) (dot (T.c - T.a) (p - T.a)) v w →
      IsClosest p T.set (combine T.a T.b T.c (1 - v - w) v w) := closest_of_optimal p T
  unfold closestPointTriangle
  dsimp only
  rw [hd3, hd4, hd5, hd6]
  clear hd3 hd4 hd5 hd6 hL
  generalize dot (T.b - T.a) (T.b - T.a) = g11 at *
  generalize dot (T.b - T.a) (T.c - T.a) = g12 at *
  generalize dot (T.c - T.a) (T.c - T.a) = g22 at *
  generalize dot (T.b - T.a) (p - T.a) = d1 at *
  generalize dot (T.c - T.a) (p - T.a) = d2 at *
  split_ifs with n1 n2 n3 n5 n4 n6
  · refine ⟨_, rfl, ?_⟩
    have := hcomb 0 0 ⟨le_rfl, le_rfl, by linarith, by linarith, by linarith [n1.1], by linarith [n1.2]⟩
    have e : combine T.a T.b T.c (1 - 0 - 0) 0 0 = T.a := by funext d; unfold combine; ring
    rw [e] at this; exact this
  · refine ⟨_, rfl, ?_⟩
    have := hcomb 1 0 ⟨by linarith, le_rfl, by linarith, by linarith [n2.1], by linarith, by linarith [n2.2]⟩
    have e : combine T.a T.b T.c (1 - 1 - 0) 1 0 = T.b := by funext d; unfold combine; ring
    rw [e] at this; exact this
  · refine ⟨_, rfl, ?_⟩
    have := hcomb 0 1 ⟨le_rfl, by linarith, by linarith, by linarith [n3.1], by linarith [n3.2], by linarith⟩
    have e : combine T.a T.b T.c (1 - 0 - 1) 0 1 = T.c := by funext d; unfold combine; ring
    rw [e] at this; exact this
  · have e : d1 - (d1 - g11) = g11 := by ring
    rw [e]
    unfold divide
    rw [if_neg h11.ne', Option.map_some]
    refine ⟨_, rfl, ?_⟩
    have := hcomb _ _ (zone5 h11 n5.1 n5.2.1 n5.2.2)
    rw [sub_zero] at this
    exact this
  · obtain ⟨k1, -⟩ := zone0_pos h11 h22 hcs hz22 hLn hzL n1 n2 n3 n5
    have h22' := k1 n4
    have e : d2 - (d2 - g22) = g22 := by ring
    rw [e]
    unfold divide
    rw [if_neg h22'.ne', Option.map_some]
    refine ⟨_, rfl, ?_⟩
    have := hcomb _ _ (zone4 h22' n4.1 n4.2.1 n4.2.2)
    rw [sub_zero] at this
    exact this
  · obtain ⟨-, k2⟩ := zone0_pos h11 h22 hcs hz22 hLn hzL n1 n2 n3 n5
    have hL' := (k2 n4).1 n6
    have e : d2 - g12 - (d1 - g11) + (d1 - g12 - (d2 - g22)) = g11 - 2 * g12 + g22 := by ring
    rw [e]
    unfold divide
    rw [if_neg hL'.ne', Option.map_some]
    refine ⟨_, rfl, ?_⟩
    have := hcomb _ _ (zone6 hL' n6.1 n6.2.1 n6.2.2)
    rw [sub_sub, sub_add_cancel, sub_self] at this
    exact this
  · obtain ⟨-, k2⟩ := zone0_pos h11 h22 hcs hz22 hLn hzL n1 n2 n3 n5
    obtain ⟨ha, hb, hc⟩ := (k2 n4).2 n6
    unfold divide
    rw [if_neg (by linarith : (d1 - g11) * (d2 - g22) - (d1 - g12) * (d2 - g12) + ((d1 - g12) * d2 - d1 * (d2 - g22)) +
      (d1 * (d2 - g12) - (d1 - g11) * d2) ≠ 0), Option.map_some]
    exact ⟨_, rfl, hcomb _ _ (zone0 rfl rfl rfl ha hb hc)⟩

/-- **C38 (negation).** For the triangle `a = b = (0,0)`, `c = (2,0)` and the point `(1,1)` the code
divides zero by zero: the result is not a number. -/
theorem closest_point_triangle_nan :
    closestPointTriangle (K := ℚ) ![1, 1] ⟨![0, 0], ![0, 0], ![2, 0]⟩ = none := by
  decide +kernel

/-- **C38.** For every point and every segment, degenerate ones included, `closestPoint` returns a
point of the segment at minimal distance. -/
theorem closest_point_segment (p : Pt K D) (S : Segment K D) :
    ∃ q, closestPointSegment p S = some q ∧ IsClosest p S.set q := by
  unfold closestPointSegment
  by_cases hab : S.a = S.b
  · rw [if_pos hab]
    refine ⟨S.a, rfl, ⟨1, 0, zero_le_one, le_rfl, by ring, fun d => by ring⟩, ?_⟩
    rintro x ⟨u, v, -, -, h1, hx⟩
    have : x = S.a := by
      funext d
      rw [hx d, ← hab, ← add_mul, h1, one_mul]
    rw [this]
  · rw [if_neg hab]
    have hpos : 0 < dot (S.b - S.a) (S.b - S.a) := by
      rcases eq_or_lt_of_le (dot_self_nonneg (S.b - S.a)) with h | h
      · exact absurd (sub_eq_zero.mp (dot_self_eq_zero h.symm)).symm hab
      · exact h
    dsimp only
    unfold divide
    rw [if_neg hpos.ne', Option.map_some]
    refine ⟨_, rfl, ?_⟩
    have ht : dot (S.b - S.a) (p - S.a) = dot (S.b - S.a) (p - S.a) / dot (S.b - S.a) (S.b - S.a) * dot (S.b - S.a) (S.b - S.a) :=
      (div_mul_cancel₀ _ hpos.ne').symm
    generalize dot (S.b - S.a) (p - S.a) / dot (S.b - S.a) (S.b - S.a) = t at ht ⊢
    have hc : 0 ≤ clamp t 0 1 ∧ clamp t 0 1 ≤ 1 ∧ ∀ s, 0 ≤ s → s ≤ 1 → (s - clamp t 0 1) * (t - clamp t 0 1) ≤ 0 := by
      unfold clamp
      split_ifs with h1 h2
      · refine ⟨le_rfl, zero_le_one, fun s hs _ => ?_⟩
        nlinarith
      · refine ⟨zero_le_one, le_rfl, fun s _ hs => ?_⟩
        nlinarith
      · refine ⟨not_lt.mp h1, not_lt.mp h2, fun s _ _ => by rw [sub_self, mul_zero]⟩
    generalize clamp t 0 1 = r at hc ⊢
    obtain ⟨r0, r1, hr⟩ := hc
    refine ⟨⟨1 - r, r, by linarith, r0, by ring, fun d => by dsimp only; rw [Pi.sub_apply]; ring⟩, ?_⟩
    rintro x ⟨u, v, hu, hv, h1, hx⟩
    have hu' : u = 1 - v := by linarith
    have e : dist2 p x - dist2 p (fun d => S.a d + r * (S.b - S.a) d) =
        dist2 x (fun d => S.a d + r * (S.b - S.a) d) -
          2 * ((v - r) * (dot (S.b - S.a) (p - S.a) - r * dot (S.b - S.a) (S.b - S.a))) := by
      unfold dist2 dot
      simp only [Finset.mul_sum, ← Finset.sum_sub_distrib, Pi.sub_apply]
      apply Finset.sum_congr rfl
      intro d _
      rw [hx d, hu']
      ring
    have hnn : 0 ≤ dist2 x (fun d => S.a d + r * (S.b - S.a) d) := Finset.sum_nonneg (fun _ _ => sq_nonneg _)
    have key : (v - r) * (dot (S.b - S.a) (p - S.a) - r * dot (S.b - S.a) (S.b - S.a)) ≤ 0 := by
      rw [ht]
      have := mul_nonneg (neg_nonneg.mpr (hr v hv (by linarith))) hpos.le
      linarith
    linarith

/-! ## Non-vacuity -/

example : closestPointTriangle (K := ℚ) ![3, 3, 1] ⟨![0, 0, 0], ![2, 0, 0], ![0, 2, 0]⟩ = some ![1, 1, 0] := by decide +kernel
example : closestPointTriangle (K := ℚ) ![1/2, 1/2, 1] ⟨![0, 0, 0], ![2, 0, 0], ![0, 2, 0]⟩ = some ![1/2, 1/2, 0] := by decide +kernel
example : (![0, 0, 0] : Pt ℚ 3) ≠ ![2, 0, 0] := by decide +kernel
example : closestPointSegment (K := ℚ) ![3, 3] ⟨![0, 0], ![2, 0]⟩ = some ![2, 0] := by decide +kernel

end ArborX.Geometry
