import Verif.Fp.Lemmas
import Verif.Fp.Ieee

/-!
# Relative error of the rounded distances
-/

namespace ArborX.Fp

open Geometry BVH Euclid

variable {D : ℕ}

/-- Results between `lo` and `hi` have the relative error `u`. -/
structure Format.Accurate (F : Format) (u lo hi : ℝ) : Prop where
  u0 : 0 ≤ u
  u1 : u < 1
  lo0 : 0 < lo
  lo1 : lo ≤ 1
  hi1 : 1 ≤ hi
  err : ∀ x : ℝ, lo ≤ |x| → |x| ≤ hi → ∃ y : ℝ, F.rnd x = y ∧ |y - x| ≤ u * |x|

/-- The formats of IEEE 754 are accurate, between the smallest normal number and half the overflow threshold. -/
theorem Ieee.accurate {p : ℕ} (hp : 1 ≤ p) {emin emax : ℤ} (h1 : emin + ((p : ℤ) - 1) ≤ 0) (h2 : 1 ≤ emax) (fma : Bool) :
    (Ieee.format p hp emin emax fma).Accurate (2 ^ (-(p : ℤ))) (2 ^ (emin + ((p : ℤ) - 1))) (2 ^ (emax - 1)) where
  u0 := by positivity
  u1 := zpow_lt_one_of_neg₀ (by norm_num) (by omega)
  lo0 := by positivity
  lo1 := zpow_le_one_of_nonpos₀ (by norm_num) h1
  hi1 := one_le_zpow₀ (by norm_num) (by omega)
  err := fun _ hx hx' => Ieee.rnd_err hp (by omega) hx hx'

namespace Format

variable {F : Format} {u lo hi : ℝ}

lemma Accurate.bounds (h : F.Accurate u lo hi) {z : ℝ} (h1 : lo ≤ z) (h2 : z ≤ hi) :
    ∃ y : ℝ, F.rnd z = y ∧ (1 - u) * z ≤ y ∧ y ≤ (1 + u) * z := by
  have hz : 0 ≤ z := h.lo0.le.trans h1
  obtain ⟨y, e, hy⟩ := h.err z (by rwa [abs_of_nonneg hz]) (by rwa [abs_of_nonneg hz])
  rw [abs_of_nonneg hz, abs_le] at hy
  exact ⟨y, e, by linarith, by linarith⟩

lemma madd_coe (F : Format) {s t q : ℝ} (hq : F.rnd (t * t) = q) :
    F.madd s t = if F.fma then F.rnd (t * t + s) else F.rnd (s + q) := by
  unfold madd
  rw [if_neg]
  · simp only [EReal.toReal_coe, hq]
    rw [if_neg (EReal.coe_ne_top q)]
  · rintro (h | h | h)
    · exact EReal.coe_ne_top _ h
    · exact EReal.coe_ne_top _ h
    · exact EReal.coe_ne_bot _ h

/-- Adding the square of zero changes nothing. -/
lemma step_zero (F : Format) {s : ℝ} (hs : F.Rounded s) : F.step s (some 0) = s := by
  show F.madd s (F.rnd 0) = s
  have h0 : F.rnd ((0 : ℝ) * 0) = (0 : ℝ) := by rw [mul_zero, F.rnd_zero]; rfl
  rw [F.rnd_zero, show (0 : EReal) = ((0 : ℝ) : EReal) from rfl, F.madd_coe h0, mul_zero, zero_add, add_zero, ite_self]
  exact hs.2 s rfl

/-- Adding a square: two roundings, or three, or four. -/
lemma Accurate.step (h : F.Accurate u lo hi) {s x a b : ℝ} (hs : 0 ≤ s) (hx : lo ≤ (1 - u) ^ 3 * x ^ 2)
    (hhi : b + (1 + u) ^ 3 * x ^ 2 ≤ hi) (ha : a ≤ s) (hb : s ≤ b) :
    ∃ s' : ℝ, F.step s (some x) = s' ∧ (1 - u) * (a + (1 - u) ^ 3 * x ^ 2) ≤ s' ∧ s' ≤ (1 + u) * (b + (1 + u) ^ 3 * x ^ 2) := by
  have hu0 := h.u0
  have hu1 := h.u1
  have hx2 : 0 ≤ x ^ 2 := sq_nonneg x
  have p0 : 0 ≤ 1 - u := by linarith
  have p1 : 1 - u ≤ 1 := by linarith
  have q1 : 1 ≤ 1 + u := by linarith
  have c3 : (1 - u) ^ 3 ≤ (1 - u) ^ 2 := pow_le_pow_of_le_one p0 p1 (by norm_num)
  have c2 : (1 - u) ^ 2 ≤ 1 := pow_le_one₀ p0 p1
  have d2 : 1 ≤ (1 + u) ^ 2 := one_le_pow₀ q1
  have d3 : (1 + u) ^ 2 ≤ (1 + u) ^ 3 := pow_le_pow_right₀ q1 (by norm_num)
  have g1 : lo ≤ (1 - u) ^ 2 * x ^ 2 := hx.trans (mul_le_mul_of_nonneg_right c3 hx2)
  have g2 : lo ≤ x ^ 2 := g1.trans ((mul_le_mul_of_nonneg_right c2 hx2).trans_eq (one_mul _))
  have g3 : (1 + u) ^ 2 * x ^ 2 ≤ (1 + u) ^ 3 * x ^ 2 := mul_le_mul_of_nonneg_right d3 hx2
  have g4 : x ^ 2 ≤ (1 + u) ^ 2 * x ^ 2 := (one_mul _).symm.trans_le (mul_le_mul_of_nonneg_right d2 hx2)
  have hb0 : 0 ≤ b := hs.trans hb
  -- the difference
  have hxa : |x| ^ 2 = x ^ 2 := sq_abs x
  have x1 : lo ≤ |x| := by
    rcases le_or_gt 1 |x| with h1 | h1
    · exact h.lo1.trans h1
    · nlinarith [abs_nonneg x]
  have x2 : |x| ≤ hi := by
    rcases le_or_gt |x| 1 with h1 | h1
    · exact h1.trans h.hi1
    · nlinarith [abs_nonneg x]
  obtain ⟨t, et, ht⟩ := h.err x x1 x2
  -- its square
  have t1 : (1 - u) * |x| ≤ |t| := by
    have := abs_sub_abs_le_abs_sub x t
    rw [abs_sub_comm x t] at this
    nlinarith
  have t2 : |t| ≤ (1 + u) * |x| := by
    have := abs_sub_abs_le_abs_sub t x
    nlinarith
  have s1 : (1 - u) ^ 2 * x ^ 2 ≤ t * t := by
    have := mul_self_le_mul_self (mul_nonneg p0 (abs_nonneg x)) t1
    rw [abs_mul_abs_self] at this
    nlinarith
  have s2 : t * t ≤ (1 + u) ^ 2 * x ^ 2 := by
    have := mul_self_le_mul_self (abs_nonneg t) t2
    rw [abs_mul_abs_self] at this
    nlinarith
  obtain ⟨q, eq, q1', q2'⟩ := h.bounds (z := t * t) (g1.trans s1) (by linarith)
  have q1 : (1 - u) ^ 3 * x ^ 2 ≤ q := by nlinarith
  have q2 : q ≤ (1 + u) ^ 3 * x ^ 2 := by nlinarith
  have estep : F.step s (some x) = F.madd s (F.rnd x) := rfl
  rw [estep, et, F.madd_coe eq]
  by_cases hf : F.fma = true
  · rw [if_pos hf]
    obtain ⟨r, er, r1, r2⟩ := h.bounds (z := t * t + s) (by linarith) (by linarith)
    refine ⟨r, er, le_trans ?_ r1, r2.trans ?_⟩
    · refine mul_le_mul_of_nonneg_left ?_ p0
      nlinarith
    · refine mul_le_mul_of_nonneg_left ?_ (by linarith)
      nlinarith
  · rw [if_neg hf]
    obtain ⟨r, er, r1, r2⟩ := h.bounds (z := s + q) (by linarith) (by linarith)
    refine ⟨r, er, le_trans ?_ r1, r2.trans ?_⟩
    · exact mul_le_mul_of_nonneg_left (by linarith) p0
    · exact mul_le_mul_of_nonneg_left (by linarith) (by linarith)

lemma Accurate.fold (h : F.Accurate u lo hi) {ι : Type} (g : ι → ℝ) (N : ℕ) :
    ∀ (l : List ι) (m : ℕ) (s E : ℝ), 3 ≤ m → m + l.length ≤ N → F.Rounded s → 0 ≤ E →
      (∀ d ∈ l, g d = 0 ∨ lo ≤ (1 - u) ^ N * g d ^ 2) → (1 + u) ^ N * (E + (l.map (fun d => g d ^ 2)).sum) ≤ hi →
      (1 - u) ^ m * E ≤ s → s ≤ (1 + u) ^ m * E →
      ∃ s' : ℝ, l.foldl (fun s d => F.step s (some (g d))) (s : EReal) = s' ∧
        (1 - u) ^ N * (E + (l.map (fun d => g d ^ 2)).sum) ≤ s' ∧ s' ≤ (1 + u) ^ N * (E + (l.map (fun d => g d ^ 2)).sum) := by
  have hu0 := h.u0
  have hu1 := h.u1
  have p0 : 0 ≤ 1 - u := by linarith
  have p1 : 1 - u ≤ 1 := by linarith
  have q1 : 1 ≤ 1 + u := by linarith
  intro l
  induction l with
  | nil =>
    intro m s E _ hN _ hE _ _ h1 h2
    refine ⟨s, rfl, ?_, ?_⟩
    · rw [List.map_nil, List.sum_nil, add_zero]
      exact (mul_le_mul_of_nonneg_right (pow_le_pow_of_le_one p0 p1 (by simpa using hN)) hE).trans h1
    · rw [List.map_nil, List.sum_nil, add_zero]
      exact h2.trans (mul_le_mul_of_nonneg_right (pow_le_pow_right₀ q1 (by simpa using hN)) hE)
  | cons d l ih =>
    intro m s E hm hN hs hE hl hhi h1 h2
    rw [List.length_cons] at hN
    have hE' : 0 ≤ E + g d ^ 2 := add_nonneg hE (sq_nonneg _)
    have hsum : E + ((d :: l).map (fun d => g d ^ 2)).sum = E + g d ^ 2 + (l.map (fun d => g d ^ 2)).sum := by
      rw [List.map_cons, List.sum_cons]; ring
    rw [hsum] at hhi ⊢
    rw [List.foldl_cons]
    have hs0 : 0 ≤ s := EReal.coe_nonneg.mp hs.1
    have hS : 0 ≤ (l.map (fun d => g d ^ 2)).sum := List.sum_nonneg (by simp only [List.mem_map]; rintro _ ⟨x, -, rfl⟩; exact sq_nonneg _)
    rcases hl d List.mem_cons_self with h0 | h0
    · rw [h0, F.step_zero hs]
      have e : E + (0 : ℝ) ^ 2 = E := by ring
      rw [h0] at hhi
      rw [e] at hhi ⊢
      exact ih m s E hm (by omega) hs hE (fun d hd => hl d (List.mem_cons_of_mem _ hd)) hhi h1 h2
    · have hx : lo ≤ (1 - u) ^ 3 * g d ^ 2 :=
        h0.trans (mul_le_mul_of_nonneg_right (pow_le_pow_of_le_one p0 p1 (by omega)) (sq_nonneg _))
      have m3 : (1 - u) ^ m ≤ (1 - u) ^ 3 := pow_le_pow_of_le_one p0 p1 hm
      have m3' : (1 + u) ^ 3 ≤ (1 + u) ^ m := pow_le_pow_right₀ q1 hm
      have up : (1 + u) ^ m * E + (1 + u) ^ 3 * g d ^ 2 ≤ (1 + u) ^ m * (E + g d ^ 2) := by
        rw [mul_add]
        exact add_le_add le_rfl (mul_le_mul_of_nonneg_right m3' (sq_nonneg _))
      have dn : (1 - u) ^ m * (E + g d ^ 2) ≤ (1 - u) ^ m * E + (1 - u) ^ 3 * g d ^ 2 := by
        rw [mul_add]
        exact add_le_add le_rfl (mul_le_mul_of_nonneg_right m3 (sq_nonneg _))
      have hb : (1 + u) ^ m * E + (1 + u) ^ 3 * g d ^ 2 ≤ hi := by
        refine up.trans (le_trans ?_ hhi)
        refine mul_le_mul (pow_le_pow_right₀ q1 (by omega)) (by linarith) hE' (by positivity)
      obtain ⟨s', e, l1, l2⟩ := h.step hs0 hx hb h1 h2
      rw [e]
      have hr : F.Rounded s' := e ▸ F.rounded_step hs _
      refine ih (m + 1) s' (E + g d ^ 2) (by omega) (by omega) hr hE' (fun d hd => hl d (List.mem_cons_of_mem _ hd)) hhi ?_ ?_
      · refine le_trans ?_ l1
        rw [pow_succ', mul_assoc]
        exact mul_le_mul_of_nonneg_left dn p0
      · refine l2.trans ?_
        rw [pow_succ' (1 + u) m, mul_assoc]
        exact mul_le_mul_of_nonneg_left up (show 0 ≤ 1 + u by linarith)

/-- The norm of a vector: the square of the computed one has a relative error of `D + 5` roundings. -/
lemma Accurate.norm (h : F.Accurate u lo hi) (g : Fin D → ℝ) (hg : ∀ d, g d = 0 ∨ lo ≤ (1 - u) ^ (D + 5) * g d ^ 2)
    (hhi : (1 + u) ^ (D + 5) * ∑ d, g d ^ 2 ≤ hi) :
    ∃ r : ℝ, F.norm (fun d => some (g d)) = r ∧ 0 ≤ r ∧ (1 - u) ^ (D + 5) * ∑ d, g d ^ 2 ≤ r ^ 2 ∧ r ^ 2 ≤ (1 + u) ^ (D + 5) * ∑ d, g d ^ 2 := by
  have hu0 := h.u0
  have hu1 := h.u1
  have p0 : 0 ≤ 1 - u := by linarith
  have p1 : 1 - u ≤ 1 := by linarith
  have q1 : 1 ≤ 1 + u := by linarith
  have hsum : ((List.finRange D).map (fun d => g d ^ 2)).sum = ∑ d, g d ^ 2 := by
    rw [← List.ofFn_eq_map, List.sum_ofFn]
  set S := ∑ d, g d ^ 2 with hS
  have hS0 : 0 ≤ S := Finset.sum_nonneg (fun d _ => sq_nonneg _)
  obtain ⟨s, e, l1, l2⟩ := h.fold g (D + 3) (List.finRange D) 3 0 0 le_rfl (by rw [List.length_finRange]; omega) F.rounded_zero le_rfl
    (fun d _ => (hg d).imp_right (fun hd => hd.trans (mul_le_mul_of_nonneg_right (pow_le_pow_of_le_one p0 p1 (by omega)) (sq_nonneg _))))
    (by
      rw [hsum, zero_add]
      exact (mul_le_mul_of_nonneg_right (pow_le_pow_right₀ q1 (by omega)) hS0).trans hhi)
    (by simp) (by simp)
  rw [hsum, zero_add] at l1 l2
  have hs0 : 0 ≤ s := le_trans (mul_nonneg (pow_nonneg p0 _) hS0) l1
  unfold Format.norm
  rw [show (0 : EReal) = ((0 : ℝ) : EReal) from rfl, e]
  unfold Format.sqrt
  rw [if_neg (EReal.coe_ne_top s), EReal.toReal_coe]
  by_cases hz : ∀ d, g d = 0
  · have : S = 0 := Finset.sum_eq_zero (fun d _ => by rw [hz d]; ring)
    rw [this] at l1 l2 ⊢
    have hs : s = 0 := by linarith
    refine ⟨0, by rw [hs, Real.sqrt_zero, F.rnd_zero]; rfl, le_rfl, by simp, by simp⟩
  · push Not at hz
    obtain ⟨d, hd⟩ := hz
    have hds : g d ^ 2 ≤ S := Finset.single_le_sum (fun d _ => sq_nonneg (g d)) (Finset.mem_univ d)
    have hlo : lo ≤ s := by
      refine ((hg d).resolve_left hd).trans (le_trans ?_ l1)
      exact mul_le_mul (pow_le_pow_of_le_one p0 p1 (by omega)) hds (sq_nonneg _) (pow_nonneg p0 _)
    have hsh : s ≤ hi := l2.trans ((mul_le_mul_of_nonneg_right (pow_le_pow_right₀ q1 (by omega)) hS0).trans hhi)
    have hq := Real.sq_sqrt hs0
    have hqn := Real.sqrt_nonneg s
    obtain ⟨r, er, r1, r2⟩ := h.bounds (z := Real.sqrt s)
      (by
        rcases le_or_gt 1 (Real.sqrt s) with h1 | h1
        · exact h.lo1.trans h1
        · nlinarith)
      (by
        rcases le_or_gt (Real.sqrt s) 1 with h1 | h1
        · exact h1.trans h.hi1
        · nlinarith)
    have hr0 : 0 ≤ r := le_trans (mul_nonneg p0 hqn) r1
    refine ⟨r, er, hr0, ?_, ?_⟩
    · have := pow_le_pow_left₀ (mul_nonneg p0 hqn) r1 2
      rw [mul_pow, hq] at this
      refine le_trans ?_ this
      calc (1 - u) ^ (D + 5) * S = (1 - u) ^ 2 * ((1 - u) ^ (D + 3) * S) := by ring
        _ ≤ _ := mul_le_mul_of_nonneg_left l1 (sq_nonneg _)
    · have := pow_le_pow_left₀ hr0 r2 2
      rw [mul_pow, hq] at this
      refine this.trans ?_
      calc (1 + u) ^ 2 * s ≤ (1 + u) ^ 2 * ((1 + u) ^ (D + 3) * S) := mul_le_mul_of_nonneg_left l2 (sq_nonneg _)
        _ = _ := by ring

end Format

end ArborX.Fp
