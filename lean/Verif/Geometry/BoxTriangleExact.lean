import Verif.Geometry.BoxTriangle
import Mathlib.Analysis.Convex.Radon
import Mathlib.LinearAlgebra.Dimension.Constructions
import Mathlib.Tactic.FinCases
import Mathlib.Tactic.Linarith
import Mathlib.Tactic.LinearCombination
import Mathlib.Tactic.FieldSimp
import Mathlib.Tactic.Positivity

/-!
# `intersects(Box, Triangle)`: the tests are complete (C35)

The separating axis theorem for a box and a triangle: if none of the thirteen axes separates them they have a common point. The point is looked
for among the combinations `a + s (b - a) + t (c - a)`, a system of nine linear inequalities in two unknowns. By Helly's theorem three of them are
contradictory if all are, and a smallest contradictory subset names an axis.
-/

namespace ArborX.Geometry

variable {K : Type} [Field K] [LinearOrder K] [IsStrictOrderedRing K]

/-! ## Linear inequalities in one and two unknowns -/

/-- If a system of inequalities in one unknown has no solution then a combination of two of them is contradictory. -/
lemma eliminate {ι : Type} (I : Finset ι) (α β : ι → K) (h : ¬∃ t, ∀ i ∈ I, 0 ≤ α i + β i * t) :
    ∃ i ∈ I, ∃ j ∈ I, ∃ x y : K, 0 ≤ x ∧ 0 ≤ y ∧ x * β i + y * β j = 0 ∧ x * α i + y * α j < 0 := by
  by_contra hn
  push Not at hn
  apply h
  have h0 : ∀ i ∈ I, β i = 0 → 0 ≤ α i := by
    intro i hi hb
    have := hn i hi i hi 1 0 zero_le_one le_rfl (by rw [hb]; ring)
    linarith
  have h1 : ∀ i ∈ I, ∀ j ∈ I, 0 < β i → β j < 0 → 0 ≤ -β j * α i + β i * α j := fun i hi j hj hbi hbj =>
    hn i hi j hj (-β j) (β i) (by linarith) hbi.le (by ring)
  have key : ∀ i, β i ≠ 0 → ∀ t, α i + β i * t = β i * (t - -α i / β i) := by
    intro i hi t; field_simp; ring
  by_cases hL : (I.filter (fun i => 0 < β i)).Nonempty
  · obtain ⟨m, hm, hmax⟩ := Finset.exists_max_image _ (fun i => -α i / β i) hL
    rw [Finset.mem_filter] at hm
    refine ⟨-α m / β m, fun i hi => ?_⟩
    rcases lt_trichotomy (β i) 0 with hb | hb | hb
    · have h2 := h1 m hm.1 i hi hm.2 hb
      have h3 : α i + β i * (-α m / β m) = (-β i * α m + β m * α i) / β m := by
        have := hm.2.ne'; field_simp; ring
      rw [h3]
      exact div_nonneg h2 hm.2.le
    · rw [hb, zero_mul, add_zero]; exact h0 i hi hb
    · rw [key i hb.ne']
      exact mul_nonneg hb.le (sub_nonneg.mpr (hmax i (Finset.mem_filter.mpr ⟨hi, hb⟩)))
  · have hL' : ∀ i ∈ I, β i ≤ 0 := by
      intro i hi
      by_contra hc
      exact hL ⟨i, Finset.mem_filter.mpr ⟨hi, not_le.mp hc⟩⟩
    by_cases hU : (I.filter (fun i => β i < 0)).Nonempty
    · obtain ⟨m, hm, hmin⟩ := Finset.exists_min_image _ (fun i => -α i / β i) hU
      refine ⟨-α m / β m, fun i hi => ?_⟩
      rcases (hL' i hi).lt_or_eq with hb | hb
      · rw [key i hb.ne]
        exact mul_nonneg_of_nonpos_of_nonpos hb.le (sub_nonpos.mpr (hmin i (Finset.mem_filter.mpr ⟨hi, hb⟩)))
      · rw [hb, zero_mul, add_zero]; exact h0 i hi hb
    · refine ⟨0, fun i hi => ?_⟩
      rcases (hL' i hi).lt_or_eq with hb | hb
      · exact absurd ⟨i, Finset.mem_filter.mpr ⟨hi, hb⟩⟩ hU
      · rw [hb, zero_mul, add_zero]; exact h0 i hi hb

/-- The inequality `0 ≤ c + u s + v t`. -/
structure Half (K : Type) where
  c : K
  u : K
  v : K

/-- The value at a point `(s, t)`. -/
def Half.val (h : Half K) (p : K × K) : K := h.c + h.u * p.1 + h.v * p.2

/-- The inequalities `I` have no common solution. -/
def Contradictory {ι : Type} (f : ι → Half K) (I : Finset ι) : Prop := ¬∃ p : K × K, ∀ i ∈ I, 0 ≤ (f i).val p

/-- A contradictory system in two unknowns has a contradictory combination. -/
lemma farkas {ι : Type} [Fintype ι] [DecidableEq ι] (f : ι → Half K) (I : Finset ι) (h : Contradictory f I) :
    ∃ l : ι → K, (∀ i, 0 ≤ l i) ∧ (∀ i, i ∉ I → l i = 0) ∧ ∑ i, l i * (f i).u = 0 ∧ ∑ i, l i * (f i).v = 0 ∧ ∑ i, l i * (f i).c < 0 := by
  classical
  -- elimination of the second unknown: one inequality for each pair
  let X : ι × ι → K := fun p => if 0 < (f p.1).v ∧ (f p.2).v < 0 then -(f p.2).v else if (f p.1).v = 0 then 1 else 0
  let Y : ι × ι → K := fun p => if 0 < (f p.1).v ∧ (f p.2).v < 0 then (f p.1).v else 0
  have hX : ∀ p, 0 ≤ X p := by
    intro p; dsimp only [X]; split_ifs with h1 h2
    · linarith [h1.2]
    · exact zero_le_one
    · exact le_rfl
  have hY : ∀ p, 0 ≤ Y p := by
    intro p; dsimp only [Y]; split_ifs with h1
    · exact h1.1.le
    · exact le_rfl
  have hXY : ∀ p, X p * (f p.1).v + Y p * (f p.2).v = 0 := by
    intro p; dsimp only [X, Y]; split_ifs with h1 h2
    · ring
    · rw [h2]; ring
    · ring
  have h1 : ¬∃ s, ∀ p ∈ I ×ˢ I, 0 ≤ (X p * (f p.1).c + Y p * (f p.2).c) + (X p * (f p.1).u + Y p * (f p.2).u) * s := by
    rintro ⟨s, hs⟩
    apply h
    by_contra hn
    obtain ⟨i, hi, j, hj, x, y, hx, hy, e1, e2⟩ := eliminate I (fun i => (f i).c + (f i).u * s) (fun i => (f i).v) (by
      rintro ⟨t, ht⟩
      exact hn ⟨(s, t), fun i hi => ht i hi⟩)
    have pos : ∀ k ∈ I, (f k).v = 0 → 0 ≤ (f k).c + (f k).u * s := by
      intro k hk hv
      have := hs (k, k) (Finset.mem_product.mpr ⟨hk, hk⟩)
      have hno : ¬(0 < (f k).v ∧ (f k).v < 0) := by rw [hv]; exact fun h => lt_irrefl _ h.1
      simp only [X, Y, if_neg hno, if_pos hv] at this
      linarith
    have pair : ∀ k ∈ I, ∀ m ∈ I, 0 < (f k).v → (f m).v < 0 → 0 ≤ -(f m).v * ((f k).c + (f k).u * s) + (f k).v * ((f m).c + (f m).u * s) := by
      intro k hk m hm hk' hm'
      have := hs (k, m) (Finset.mem_product.mpr ⟨hk, hm⟩)
      dsimp only [X, Y] at this
      rw [if_pos ⟨hk', hm'⟩, if_pos ⟨hk', hm'⟩] at this
      linarith
    -- a combination of two inequalities with opposite slopes
    have comb : ∀ k ∈ I, ∀ m ∈ I, ∀ a b : K, 0 ≤ a → 0 ≤ b → a * (f k).v + b * (f m).v = 0 → 0 < (f k).v →
        0 ≤ a * ((f k).c + (f k).u * s) + b * ((f m).c + (f m).u * s) := by
      intro k hk m hm a b ha hb hab hk'
      rcases lt_trichotomy (f m).v 0 with hm' | hm' | hm'
      · have h3 := pair k hk m hm hk' hm'
        have h4 : (f k).v * (a * ((f k).c + (f k).u * s) + b * ((f m).c + (f m).u * s)) =
            b * (-(f m).v * ((f k).c + (f k).u * s) + (f k).v * ((f m).c + (f m).u * s)) := by
          linear_combination ((f k).c + (f k).u * s) * hab
        have h5 := mul_nonneg hb h3
        rw [← h4] at h5
        exact nonneg_of_mul_nonneg_right h5 hk'
      · have ha0 : a = 0 := by
          rw [hm', mul_zero, add_zero] at hab
          exact (mul_eq_zero.mp hab).resolve_right hk'.ne'
        rw [ha0, zero_mul, zero_add]
        exact mul_nonneg hb (pos m hm hm')
      · have ha0 : a * (f k).v = 0 := le_antisymm (by nlinarith [mul_nonneg hb hm'.le]) (mul_nonneg ha hk'.le)
        have hb0 : b * (f m).v = 0 := by linarith
        rw [(mul_eq_zero.mp ha0).resolve_right hk'.ne', (mul_eq_zero.mp hb0).resolve_right hm'.ne']
        simp
    have : 0 ≤ x * ((f i).c + (f i).u * s) + y * ((f j).c + (f j).u * s) := by
      rcases lt_trichotomy (f i).v 0 with hi' | hi' | hi'
      · rcases lt_trichotomy (f j).v 0 with hj' | hj' | hj'
        · have hx0 : x * (f i).v = 0 := le_antisymm (mul_nonpos_of_nonneg_of_nonpos hx hi'.le) (by nlinarith [mul_nonpos_of_nonneg_of_nonpos hy hj'.le])
          have hy0 : y * (f j).v = 0 := by linarith
          rw [(mul_eq_zero.mp hx0).resolve_right hi'.ne, (mul_eq_zero.mp hy0).resolve_right hj'.ne]
          simp
        · have hx0 : x = 0 := by
            rw [hj', mul_zero, add_zero] at e1
            exact (mul_eq_zero.mp e1).resolve_right hi'.ne
          rw [hx0, zero_mul, zero_add]
          exact mul_nonneg hy (pos j hj hj')
        · have := comb j hj i hi y x hy hx (by linarith) hj'
          linarith
      · rw [hi', mul_zero, zero_add] at e1
        rcases mul_eq_zero.mp e1 with h6 | h6
        · rw [h6, zero_mul, add_zero]; exact mul_nonneg hx (pos i hi hi')
        · exact add_nonneg (mul_nonneg hx (pos i hi hi')) (mul_nonneg hy (pos j hj h6))
      · exact comb i hi j hj x y hx hy e1 hi'
    linarith
  obtain ⟨p, hp, q, hq, x, y, hx, hy, e1, e2⟩ := eliminate (I ×ˢ I) _ _ h1
  rw [Finset.mem_product] at hp hq
  let l : ι → K := fun k => x * ((if k = p.1 then X p else 0) + (if k = p.2 then Y p else 0)) +
    y * ((if k = q.1 then X q else 0) + (if k = q.2 then Y q else 0))
  have hsum : ∀ g : ι → K, ∑ k, l k * g k = x * (X p * g p.1 + Y p * g p.2) + y * (X q * g q.1 + Y q * g q.2) := by
    intro g
    have h2 : ∀ (m : ι) (a : K), ∑ k, (if k = m then a else 0) * g k = a * g m := by
      intro m a
      rw [Finset.sum_eq_single m]
      · rw [if_pos rfl]
      · intro b _ hb; rw [if_neg hb, zero_mul]
      · intro hm; exact absurd (Finset.mem_univ m) hm
    have h3 : ∀ k, l k * g k = x * ((if k = p.1 then X p else 0) * g k) + x * ((if k = p.2 then Y p else 0) * g k) +
        (y * ((if k = q.1 then X q else 0) * g k) + y * ((if k = q.2 then Y q else 0) * g k)) := by
      intro k; dsimp only [l]; ring
    rw [Finset.sum_congr rfl (fun k _ => h3 k), Finset.sum_add_distrib, Finset.sum_add_distrib, Finset.sum_add_distrib,
      ← Finset.mul_sum, ← Finset.mul_sum, ← Finset.mul_sum, ← Finset.mul_sum, h2, h2, h2, h2]
    ring
  refine ⟨l, fun k => ?_, fun k hk => ?_, ?_, ?_, ?_⟩
  · have ite0 : ∀ (P : Prop) [Decidable P] (a : K), 0 ≤ a → 0 ≤ if P then a else 0 := by
      intro P _ a ha; split_ifs
      · exact ha
      · exact le_rfl
    exact add_nonneg (mul_nonneg hx (add_nonneg (ite0 _ _ (hX p)) (ite0 _ _ (hY p))))
      (mul_nonneg hy (add_nonneg (ite0 _ _ (hX q)) (ite0 _ _ (hY q))))
  · have ne : ∀ m ∈ I, k ≠ m := fun m hm e => hk (e ▸ hm)
    dsimp only [l]
    rw [if_neg (ne _ hp.1), if_neg (ne _ hp.2), if_neg (ne _ hq.1), if_neg (ne _ hq.2)]
    ring
  · rw [hsum]; linarith
  · rw [hsum, hXY, hXY]; ring
  · rw [hsum]; linarith

/-- The half planes are convex. -/
lemma Half.convex (h : Half K) : Convex K {p : K × K | 0 ≤ h.val p} := by
  intro p hp q hq a b ha hb hab
  have e : h.val (a • p + b • q) = a * h.val p + b * h.val q := by
    simp only [Half.val, Prod.fst_add, Prod.snd_add, Prod.smul_fst, Prod.smul_snd, smul_eq_mul]
    linear_combination -h.c * hab
  show 0 ≤ h.val (a • p + b • q)
  rw [e]
  exact add_nonneg (mul_nonneg ha hp) (mul_nonneg hb hq)

/-- A contradictory system contains a contradictory system of at most three inequalities, such that no contradictory system is smaller. -/
lemma smallest {ι : Type} [Fintype ι] [DecidableEq ι] (f : ι → Half K) (h : Contradictory f Finset.univ) :
    ∃ I, Contradictory f I ∧ I.card ≤ 3 ∧ ∀ J, Contradictory f J → I.card ≤ J.card := by
  classical
  obtain ⟨I, hI, hmin⟩ := Finset.exists_min_image (Finset.univ.filter (fun I : Finset ι => Contradictory f I)) Finset.card
    ⟨_, Finset.mem_filter.mpr ⟨Finset.mem_univ _, h⟩⟩
  have hmin' : ∀ J, Contradictory f J → I.card ≤ J.card := fun J hJ => hmin J (Finset.mem_filter.mpr ⟨Finset.mem_univ _, hJ⟩)
  refine ⟨I, (Finset.mem_filter.mp hI).2, ?_, hmin'⟩
  by_contra hc
  apply h
  have := Convex.helly_theorem' (𝕜 := K) (F := fun i => {p : K × K | 0 ≤ (f i).val p}) (s := Finset.univ) (fun i _ => (f i).convex) (by
    intro J _ hJ
    by_contra hne
    have hJ' : J.card ≤ 3 := by
      have h2 : Module.finrank K (K × K) = 2 := by rw [Module.finrank_prod, Module.finrank_self]
      rw [h2] at hJ; exact hJ
    refine hc ((hmin' J ?_).trans hJ')
    rintro ⟨p, hp⟩
    exact hne ⟨p, Set.mem_iInter₂.mpr (fun i hi => hp i hi)⟩)
  obtain ⟨p, hp⟩ := this
  exact ⟨p, fun i hi => Set.mem_iInter₂.mp hp i hi⟩

/-- A smallest contradictory system which is constant in one direction has at most two inequalities. -/
lemma smallest_line {ι : Type} [Fintype ι] [DecidableEq ι] (f : ι → Half K) (I : Finset ι) (h : Contradictory f I)
    (hmin : ∀ J, Contradictory f J → I.card ≤ J.card) (x y : K) (hxy : x ≠ 0 ∨ y ≠ 0) (h0 : ∀ i ∈ I, (f i).u * x + (f i).v * y = 0) :
    I.card ≤ 2 := by
  classical
  -- the values depend on one unknown only
  obtain ⟨k, hk, hon⟩ : ∃ k : ι → K, (∀ i ∈ I, (f i).u = k i * y ∧ (f i).v = -(k i * x)) ∧ ∀ z, ∃ p : K × K, y * p.1 - x * p.2 = z := by
    by_cases hy : y = 0
    · have hx : x ≠ 0 := hxy.resolve_right (fun h => h hy)
      refine ⟨fun i => -(f i).v / x, fun i hi => ⟨?_, ?_⟩, fun z => ⟨(0, -z / x), ?_⟩⟩
      · have := h0 i hi
        rw [hy, mul_zero, add_zero] at this
        rw [hy, mul_zero, (mul_eq_zero.mp this).resolve_right hx]
      · field_simp
      · field_simp
        ring
    · refine ⟨fun i => (f i).u / y, fun i hi => ⟨?_, ?_⟩, fun z => ⟨(z / y, 0), ?_⟩⟩
      · field_simp
      · have := h0 i hi
        field_simp
        linarith
      · field_simp
        ring
  obtain ⟨i, hi, j, hj, a, b, ha, hb, e1, e2⟩ := eliminate I (fun i => (f i).c) k (by
    rintro ⟨z, hz⟩
    obtain ⟨p, hp⟩ := hon z
    refine h ⟨p, fun i hi => ?_⟩
    have := hz i hi
    rw [← hp] at this
    unfold Half.val
    rw [(hk i hi).1, (hk i hi).2]
    linarith)
  have : Contradictory f {i, j} := by
    rintro ⟨p, hp⟩
    have h1 := hp i (by simp)
    have h2 := hp j (by simp)
    unfold Half.val at h1 h2
    rw [(hk i hi).1, (hk i hi).2] at h1
    rw [(hk j hj).1, (hk j hj).2] at h2
    have h3 := mul_nonneg ha h1
    have h4 := mul_nonneg hb h2
    have e3 : a * ((f i).c + k i * y * p.1 + -(k i * x) * p.2) + b * ((f j).c + k j * y * p.1 + -(k j * x) * p.2) =
        (a * (f i).c + b * (f j).c) + (a * k i + b * k j) * (y * p.1 - x * p.2) := by ring
    rw [e1, zero_mul, add_zero] at e3
    linarith
  exact (hmin _ this).trans Finset.card_le_two

/-! ## Box and triangle -/

/-- The inequalities for the coordinates `s, t` of a common point: `x d ≤ e d`, `-e d ≤ x d`, and the three barycentric coordinates. -/
def common (a b c e : Pt K 3) : (Fin 3 × Bool) ⊕ Fin 3 → Half K
  | .inl (d, true) => ⟨e d - a d, -(b d - a d), -(c d - a d)⟩
  | .inl (d, false) => ⟨e d + a d, b d - a d, c d - a d⟩
  | .inr 0 => ⟨1, -1, -1⟩
  | .inr 1 => ⟨0, 1, 0⟩
  | .inr 2 => ⟨0, 0, 1⟩

/-- An inequality without its sign. -/
def face : (Fin 3 × Bool) ⊕ Fin 3 → Fin 3 ⊕ Fin 3
  | .inl (d, _) => .inl d
  | .inr j => .inr j

/-- What a contradictory system says: a direction `w` which separates with a margin `π j` for each vertex, such that few of the `w d` and `π j`
are not zero; `c` is what they are taken from. -/
structure Certificate (a b c e w π : Pt K 3) (F : Finset (Fin 3 ⊕ Fin 3)) : Prop where
  nonneg : ∀ j, 0 ≤ π j
  ab : pr w b - pr w a = π 1 - π 0
  ac : pr w c - pr w a = π 2 - π 0
  above : e 0 * |w 0| + e 1 * |w 1| + e 2 * |w 2| + π 0 < pr w a
  box : ∀ d, w d ≠ 0 → Sum.inl d ∈ F
  tri : ∀ j, π j ≠ 0 → Sum.inr j ∈ F
  card : F.card ≤ 3
  line : ∀ x y : K, (x ≠ 0 ∨ y ≠ 0) → (∀ d, Sum.inl d ∈ F → (b d - a d) * x + (c d - a d) * y = 0) →
    (Sum.inr 0 ∈ F → x + y = 0) → (Sum.inr 1 ∈ F → x = 0) → (Sum.inr 2 ∈ F → y = 0) → F.card ≤ 2

lemma certificate (a b c e : Pt K 3) (he : ∀ d, 0 ≤ e d) (h : Contradictory (common a b c e) Finset.univ) :
    ∃ w π F, Certificate a b c e w π F := by
  classical
  obtain ⟨I, hI, hcard, hmin⟩ := smallest _ h
  obtain ⟨l, hl, hl0, eu, ev, ec⟩ := farkas _ I hI
  have mem : ∀ i, l i ≠ 0 → i ∈ I := fun i hi => by
    by_contra hc; exact hi (hl0 i hc)
  simp only [Fintype.sum_sum_type, Fintype.sum_prod_type, Fin.sum_univ_three, Fintype.sum_bool, common] at eu ev ec
  have hab : ∀ d, e d * |l (.inl (d, true)) - l (.inl (d, false))| ≤ e d * (l (.inl (d, true)) + l (.inl (d, false))) := by
    intro d
    refine mul_le_mul_of_nonneg_left ?_ (he d)
    rw [abs_le]
    constructor <;> linarith [hl (.inl (d, true)), hl (.inl (d, false))]
  refine ⟨fun d => l (.inl (d, true)) - l (.inl (d, false)), fun j => l (.inr j), I.image face, ?_⟩
  refine ⟨fun j => hl _, ?_, ?_, ?_, ?_, ?_, ?_, ?_⟩
  · unfold pr; linarith
  · unfold pr; linarith
  · unfold pr; linarith [hab 0, hab 1, hab 2]
  · intro d hd
    by_cases h1 : l (.inl (d, true)) = 0
    · exact Finset.mem_image.mpr ⟨.inl (d, false), mem _ (fun h2 => hd (by rw [h1, h2, sub_zero])), rfl⟩
    · exact Finset.mem_image.mpr ⟨.inl (d, true), mem _ h1, rfl⟩
  · intro j hj
    exact Finset.mem_image.mpr ⟨.inr j, mem _ hj, rfl⟩
  · exact Finset.card_image_le.trans hcard
  · intro x y hxy h1 h2 h3 h4
    refine Finset.card_image_le.trans (smallest_line _ I hI hmin x y hxy (fun i hi => ?_))
    have hF := Finset.mem_image_of_mem face hi
    rcases i with ⟨d, σ⟩ | j
    · have := h1 d hF
      cases σ
      · exact this
      · show -(b d - a d) * x + -(c d - a d) * y = 0
        linarith
    · fin_cases j
      · have := h2 hF
        show -1 * x + -1 * y = 0
        linarith
      · have := h3 hF
        show 1 * x + 0 * y = 0
        linarith
      · have := h4 hF
        show 0 * x + 1 * y = 0
        linarith

lemma Certificate.beyond {a b c e w π : Pt K 3} {F : Finset (Fin 3 ⊕ Fin 3)} (h : Certificate a b c e w π F) : Beyond a b c e w := by
  have h0 := h.nonneg 0
  have h1 := h.nonneg 1
  have h2 := h.nonneg 2
  have := h.ab
  have := h.ac
  have := h.above
  exact ⟨by linarith, by linarith, by linarith⟩

/-- A direction with two components which are not zero is perpendicular to an edge, or the edges have no such components. -/
lemma Certificate.edge {a b c e w π : Pt K 3} {F : Finset (Fin 3 ⊕ Fin 3)} (h : Certificate a b c e w π F) {d1 d2 : Fin 3} (hd : d1 ≠ d2)
    (h1 : w d1 ≠ 0) (h2 : w d2 ≠ 0) (hw : ∀ x, pr w x = w d1 * x d1 + w d2 * x d2) :
    (w d1 * (b d1 - a d1) + w d2 * (b d2 - a d2) = 0 ∧ (b d1 - a d1 ≠ 0 ∨ b d2 - a d2 ≠ 0)) ∨
    (w d1 * (c d1 - a d1) + w d2 * (c d2 - a d2) = 0 ∧ (c d1 - a d1 ≠ 0 ∨ c d2 - a d2 ≠ 0)) ∨
    (w d1 * (c d1 - b d1) + w d2 * (c d2 - b d2) = 0 ∧ (c d1 - b d1 ≠ 0 ∨ c d2 - b d2 ≠ 0)) ∨
    ((b d1 = a d1 ∧ c d1 = a d1) ∧ (b d2 = a d2 ∧ c d2 = a d2)) := by
  classical
  have eab := h.ab
  have eac := h.ac
  rw [hw, hw] at eab eac
  have m1 := h.box d1 h1
  have m2 := h.box d2 h2
  have three : ∀ j, π j ≠ 0 → F = {Sum.inl d1, Sum.inl d2, Sum.inr j} := by
    intro j hj
    symm
    apply Finset.eq_of_subset_of_card_le
    · intro x hx
      rw [Finset.mem_insert, Finset.mem_insert, Finset.mem_singleton] at hx
      rcases hx with rfl | rfl | rfl
      · exact m1
      · exact m2
      · exact h.tri j hj
    · have : ({Sum.inl d1, Sum.inl d2, Sum.inr j} : Finset (Fin 3 ⊕ Fin 3)).card = 3 := by
        rw [Finset.card_eq_three]
        exact ⟨_, _, _, by simpa using hd, by simp, by simp, rfl⟩
      rw [this]; exact h.card
  have cardF : ∀ j, π j ≠ 0 → F.card = 3 := by
    intro j hj
    rw [three j hj, Finset.card_eq_three]
    exact ⟨_, _, _, by simpa using hd, by simp, by simp, rfl⟩
  have other : ∀ j, π j ≠ 0 → ∀ i, i ≠ j → Sum.inr i ∉ F := by
    intro j hj i hij hi
    rw [three j hj] at hi
    simp at hi
    exact hij hi
  have zero : ∀ j, π j ≠ 0 → ∀ i, i ≠ j → π i = 0 := by
    intro j hj i hij
    by_contra hc
    exact other j hj i hij (h.tri i hc)
  have inbox : ∀ j, π j ≠ 0 → ∀ d, Sum.inl d ∈ F → d = d1 ∨ d = d2 := by
    intro j hj d hdF
    rw [three j hj] at hdF
    simpa using hdF
  by_cases p0 : π 0 = 0
  · by_cases p1 : π 1 = 0
    · by_cases q1 : b d1 - a d1 ≠ 0 ∨ b d2 - a d2 ≠ 0
      · left; exact ⟨by linear_combination eab + p1 - p0, q1⟩
      · push Not at q1
        right
        by_cases p2 : π 2 = 0
        · by_cases q2 : c d1 - a d1 ≠ 0 ∨ c d2 - a d2 ≠ 0
          · left; exact ⟨by linear_combination eac + p2 - p0, q2⟩
          · push Not at q2
            right; right
            exact ⟨⟨sub_eq_zero.mp q1.1, sub_eq_zero.mp q2.1⟩, ⟨sub_eq_zero.mp q1.2, sub_eq_zero.mp q2.2⟩⟩
        · exfalso
          have := h.line 1 0 (Or.inl one_ne_zero) (fun d hdF => by
            rcases inbox 2 p2 d hdF with rfl | rfl
            · rw [q1.1]; ring
            · rw [q1.2]; ring) (fun hF => absurd hF (other 2 p2 0 (by decide))) (fun hF => absurd hF (other 2 p2 1 (by decide))) (fun _ => rfl)
          rw [cardF 2 p2] at this
          exact absurd this (by decide)
    · have p2 := zero 1 p1 2 (by decide)
      by_cases q2 : c d1 - a d1 ≠ 0 ∨ c d2 - a d2 ≠ 0
      · right; left; exact ⟨by linear_combination eac + p2 - p0, q2⟩
      · push Not at q2
        exfalso
        have := h.line 0 1 (Or.inr one_ne_zero) (fun d hdF => by
          rcases inbox 1 p1 d hdF with rfl | rfl
          · rw [q2.1]; ring
          · rw [q2.2]; ring) (fun hF => absurd hF (other 1 p1 0 (by decide))) (fun _ => rfl) (fun hF => absurd hF (other 1 p1 2 (by decide)))
        rw [cardF 1 p1] at this
        exact absurd this (by decide)
  · have p1 := zero 0 p0 1 (by decide)
    have p2 := zero 0 p0 2 (by decide)
    by_cases q3 : c d1 - b d1 ≠ 0 ∨ c d2 - b d2 ≠ 0
    · right; right; left; exact ⟨by linear_combination eac - eab + p2 - p1, q3⟩
    · push Not at q3
      exfalso
      have := h.line (-1) 1 (Or.inr one_ne_zero) (fun d hdF => by
        rcases inbox 0 p0 d hdF with rfl | rfl
        · linear_combination q3.1
        · linear_combination q3.2) (fun _ => by ring) (fun hF => absurd hF (other 0 p0 1 (by decide))) (fun hF => absurd hF (other 0 p0 2 (by decide)))
      rw [cardF 0 p0] at this
      exact absurd this (by decide)

/-- A direction with three components which are not zero is a multiple of the normal. -/
lemma Certificate.normal {a b c e w π : Pt K 3} {F : Finset (Fin 3 ⊕ Fin 3)} (h : Certificate a b c e w π F) (hw : ∀ d, w d ≠ 0) :
    ∃ k : K, ∀ d, w d = k * cross (b - a) (c - a) d := by
  classical
  have hF : F = {Sum.inl 0, Sum.inl 1, Sum.inl 2} := by
    symm
    apply Finset.eq_of_subset_of_card_le
    · intro x hx
      simp only [Finset.mem_insert, Finset.mem_singleton] at hx
      rcases hx with rfl | rfl | rfl <;> exact h.box _ (hw _)
    · exact h.card.trans (by decide)
  have zero : ∀ j, π j = 0 := by
    intro j
    by_contra hc
    have := h.tri j hc
    rw [hF] at this
    simp at this
  have eab := h.ab
  have eac := h.ac
  rw [zero 0, zero 1, sub_zero] at eab
  rw [zero 0, zero 2, sub_zero] at eac
  have nt : ∀ j : Fin 3, Sum.inr j ∉ F := by intro j; rw [hF]; simp
  have hline : ∀ x y : K, (x ≠ 0 ∨ y ≠ 0) → ¬∀ d, (b d - a d) * x + (c d - a d) * y = 0 := by
    intro x y hxy hd
    have := h.line x y hxy (fun d _ => hd d) (fun hj => absurd hj (nt 0)) (fun hj => absurd hj (nt 1)) (fun hj => absurd hj (nt 2))
    rw [hF] at this
    exact absurd this (by decide)
  -- the normal is not zero
  have hn : ∃ d, cross (b - a) (c - a) d ≠ 0 := by
    by_contra hc
    push Not at hc
    have c0 := hc 0
    have c1 := hc 1
    have c2 := hc 2
    simp [cross] at c0 c1 c2
    by_cases hab : ∀ d, b d - a d = 0
    · exact hline 1 0 (Or.inl one_ne_zero) (fun d => by rw [hab d]; ring)
    · push Not at hab
      obtain ⟨m, hm⟩ := hab
      refine hline (c m - a m) (-(b m - a m)) (Or.inr (neg_ne_zero.mpr hm)) (fun d => ?_)
      fin_cases m <;> fin_cases d <;> simp <;> linarith
  unfold pr at eab eac
  have x0 : w 1 * cross (b - a) (c - a) 2 = w 2 * cross (b - a) (c - a) 1 := by
    simp [cross]; linear_combination (b 0 - a 0) * eac - (c 0 - a 0) * eab
  have x1 : w 2 * cross (b - a) (c - a) 0 = w 0 * cross (b - a) (c - a) 2 := by
    simp [cross]; linear_combination (b 1 - a 1) * eac - (c 1 - a 1) * eab
  have x2 : w 0 * cross (b - a) (c - a) 1 = w 1 * cross (b - a) (c - a) 0 := by
    simp [cross]; linear_combination (b 2 - a 2) * eac - (c 2 - a 2) * eab
  generalize cross (b - a) (c - a) = n at *
  obtain ⟨m, hm⟩ := hn
  refine ⟨w m / n m, fun d => ?_⟩
  rw [div_mul_eq_mul_div, eq_div_iff hm]
  fin_cases m <;> fin_cases d <;> simp <;> first | assumption | exact Eq.symm (by assumption)

/-- A test which does not reject excludes all directions along its axis. -/
lemma axis_complete (a b c e w v : Pt K 3) {r p q k : K} (hr : r = e 0 * |v 0| + e 1 * |v 1| + e 2 * |v 2|) (hw : ∀ d, w d = k * v d)
    (hp : p = pr v a ∨ p = pr v b ∨ p = pr v c) (hq : q = pr v a ∨ q = pr v b ∨ q = pr v c) (hB : Beyond a b c e w)
    (h : ¬reject r p q = true) : False := by
  have e1 : ∀ x, pr w x = k * pr v x := by intro x; unfold pr; rw [hw, hw, hw]; ring
  have e2 : e 0 * |w 0| + e 1 * |w 1| + e 2 * |w 2| = |k| * r := by
    rw [hw, hw, hw, abs_mul, abs_mul, abs_mul, hr]; ring
  unfold Beyond at hB
  rw [e1, e1, e1, e2] at hB
  obtain ⟨h1, h2, h3⟩ := hB
  have hp' : |k| * r < k * p := by rcases hp with h | h | h <;> rw [h] <;> assumption
  have hq' : |k| * r < k * q := by rcases hq with h | h | h <;> rw [h] <;> assumption
  apply h
  unfold reject
  rw [Bool.or_eq_true, decide_eq_true_iff, decide_eq_true_iff]
  rcases lt_trichotomy k 0 with hk | hk | hk
  · right
    rw [abs_of_neg hk] at hp' hq'
    apply max_lt
    · by_contra hc; push Not at hc; nlinarith [mul_le_mul_of_nonpos_left hc hk.le]
    · by_contra hc; push Not at hc; nlinarith [mul_le_mul_of_nonpos_left hc hk.le]
  · rw [hk, abs_zero, zero_mul, zero_mul] at hp'
    exact absurd hp' (lt_irrefl _)
  · left
    rw [abs_of_pos hk] at hp' hq'
    exact lt_min (lt_of_mul_lt_mul_left hp' hk.le) (lt_of_mul_lt_mul_left hq' hk.le)

/-- A vector perpendicular to another one in the plane. -/
lemma perp {x y u v : K} (h : x * u + y * v = 0) (hne : u ≠ 0 ∨ v ≠ 0) : ∃ k, x = k * -v ∧ y = k * u := by
  by_cases hu : u = 0
  · have hv : v ≠ 0 := hne.resolve_left (fun h => h hu)
    refine ⟨-x / v, by field_simp, ?_⟩
    rw [hu, mul_zero, zero_add] at h
    rw [hu, (mul_eq_zero.mp h).resolve_right hv, mul_zero]
  · exact ⟨y / u, by field_simp; linarith, by field_simp⟩

omit [IsStrictOrderedRing K] in
/-- One of the tests. -/
lemma satTests_ybc (a b c e : Pt K 3) (h : satTests a b c e = true) : rejectYbcCode a b c e = false := by
  by_contra hc
  rw [Bool.not_eq_false] at hc
  unfold rejectYbcCode at hc
  unfold satTests at h
  dsimp only at h
  split_ifs at h

set_option maxHeartbeats 2000000 in
/-- No axis separates: there is a common point. -/
lemma sat_complete (a b c e : Pt K 3) (he : ∀ d, 0 ≤ e d)
    (hbox : ∀ d (k : K), ¬(e d * |k| < k * a d ∧ e d * |k| < k * b d ∧ e d * |k| < k * c d))
    (hy : rejectYbc a b c e = false) (h : satTests a b c e = true) : ∃ p : K × K, ∀ i, 0 ≤ (common a b c e i).val p := by
  by_contra hn
  obtain ⟨w, π, F, cert⟩ := certificate a b c e he (fun ⟨p, hp⟩ => hn ⟨p, fun i => hp i (Finset.mem_univ i)⟩)
  have hB := cert.beyond
  have hB' := hB
  unfold Beyond pr at hB'
  have hy' : ¬rejectYbc a b c e = true := by rw [hy]; exact Bool.false_ne_true
  unfold rejectYbc at hy'
  -- no vertex is beyond in one coordinate only
  have two : ∀ d1 d2 : Fin 3, (e d1 * |w d1| + e d2 * |w d2| < w d1 * a d1 + w d2 * a d2) →
      ¬((b d1 = a d1 ∧ c d1 = a d1) ∧ (b d2 = a d2 ∧ c d2 = a d2)) := by
    rintro d1 d2 hlt ⟨⟨h1, h2⟩, h3, h4⟩
    by_cases hc : e d1 * |w d1| < w d1 * a d1
    · exact hbox d1 (w d1) (by rw [h1, h2]; exact ⟨hc, hc, hc⟩)
    · exact hbox d2 (w d2) (by rw [h3, h4]; exact ⟨by linarith, by linarith, by linarith⟩)
  unfold satTests at h
  dsimp only at h
  split_ifs at h with h1 h2 h3 h4 h5 h6 h7 h8 h9 h10
  by_cases w0 : w 0 = 0
  · by_cases w1 : w 1 = 0
    · by_cases w2 : w 2 = 0
      · rw [w0, w1, w2] at hB'; simp at hB'
      · rw [w0, w1] at hB'; simp at hB'
        exact hbox 2 (w 2) hB'
    · by_cases w2 : w 2 = 0
      · rw [w0, w2] at hB'; simp at hB'
        exact hbox 1 (w 1) hB'
      · rcases cert.edge (d1 := 1) (d2 := 2) (by decide) w1 w2 (fun x => by unfold pr; rw [w0]; ring) with ⟨h, hne⟩ | ⟨h, hne⟩ | ⟨h, hne⟩ | h
        · obtain ⟨k, k1, k2⟩ := perp h hne
          exact axis_complete a b c e w ![0, -(b - a) 2, (b - a) 1] (k := k) (by simp [abs_sub_comm])
            (fun d => by fin_cases d <;> simp [w0, k1, k2]) (Or.inl (by simp [pr]; ring)) (Or.inr (Or.inr (by simp [pr]; ring))) hB h2
        · obtain ⟨k, k1, k2⟩ := perp h hne
          exact axis_complete a b c e w ![0, -(c - a) 2, (c - a) 1] (k := k) (by simp [abs_sub_comm])
            (fun d => by fin_cases d <;> simp [w0, k1, k2]) (Or.inl (by simp [pr]; ring)) (Or.inr (Or.inl (by simp [pr]; ring))) hB h3
        · obtain ⟨k, k1, k2⟩ := perp h hne
          exact axis_complete a b c e w ![0, -(c - b) 2, (c - b) 1] (k := k) (by simp [abs_sub_comm])
            (fun d => by fin_cases d <;> simp [w0, k1, k2]) (Or.inl (by simp [pr]; ring)) (Or.inr (Or.inl (by simp [pr]; ring))) hB h4
        · exact two 1 2 (by rw [w0] at hB'; simpa using hB'.1) h
  · by_cases w1 : w 1 = 0
    · by_cases w2 : w 2 = 0
      · rw [w1, w2] at hB'; simp at hB'
        exact hbox 0 (w 0) hB'
      · rcases cert.edge (d1 := 0) (d2 := 2) (by decide) w0 w2 (fun x => by unfold pr; rw [w1]; ring) with ⟨h, hne⟩ | ⟨h, hne⟩ | ⟨h, hne⟩ | h
        · obtain ⟨k, k1, k2⟩ := perp h hne
          exact axis_complete a b c e w ![(b - a) 2, 0, -(b - a) 0] (k := -k) (by simp [abs_sub_comm])
            (fun d => by fin_cases d <;> simp [w1, k1, k2] <;> ring) (Or.inl (by simp [pr]; ring)) (Or.inr (Or.inr (by simp [pr]; ring))) hB h5
        · obtain ⟨k, k1, k2⟩ := perp h hne
          exact axis_complete a b c e w ![(c - a) 2, 0, -(c - a) 0] (k := -k) (by simp [abs_sub_comm])
            (fun d => by fin_cases d <;> simp [w1, k1, k2] <;> ring) (Or.inl (by simp [pr]; ring)) (Or.inr (Or.inl (by simp [pr]; ring))) hB h6
        · obtain ⟨k, k1, k2⟩ := perp h hne
          exact axis_complete a b c e w ![(c - b) 2, 0, -(c - b) 0] (k := -k) (by simp [abs_sub_comm])
            (fun d => by fin_cases d <;> simp [w1, k1, k2] <;> ring) (Or.inl (by simp [pr]; ring)) (Or.inr (Or.inl (by simp [pr]; ring))) hB hy'
        · exact two 0 2 (by rw [w1] at hB'; simpa using hB'.1) h
    · by_cases w2 : w 2 = 0
      · rcases cert.edge (d1 := 0) (d2 := 1) (by decide) w0 w1 (fun x => by unfold pr; rw [w2]; ring) with ⟨h, hne⟩ | ⟨h, hne⟩ | ⟨h, hne⟩ | h
        · obtain ⟨k, k1, k2⟩ := perp h hne
          exact axis_complete a b c e w ![-(b - a) 1, (b - a) 0, 0] (k := k) (by simp [abs_sub_comm])
            (fun d => by fin_cases d <;> simp [w2, k1, k2]) (Or.inl (by simp [pr]; ring)) (Or.inr (Or.inr (by simp [pr]; ring))) hB h8
        · obtain ⟨k, k1, k2⟩ := perp h hne
          exact axis_complete a b c e w ![-(c - a) 1, (c - a) 0, 0] (k := k) (by simp [abs_sub_comm])
            (fun d => by fin_cases d <;> simp [w2, k1, k2]) (Or.inl (by simp [pr]; ring)) (Or.inr (Or.inl (by simp [pr]; ring))) hB h9
        · obtain ⟨k, k1, k2⟩ := perp h hne
          exact axis_complete a b c e w ![-(c - b) 1, (c - b) 0, 0] (k := k) (by simp [abs_sub_comm])
            (fun d => by fin_cases d <;> simp [w2, k1, k2]) (Or.inl (by simp [pr]; ring)) (Or.inr (Or.inl (by simp [pr]; ring))) hB h10
        · exact two 0 1 (by rw [w2] at hB'; simpa using hB'.1) h
      · obtain ⟨k, hk⟩ := cert.normal (fun d => by fin_cases d <;> assumption)
        refine axis_complete a b c e w (cross (b - a) (c - a)) (k := k) rfl hk (Or.inl rfl) (Or.inl rfl) hB ?_
        unfold reject
        rw [Bool.or_eq_true, decide_eq_true_iff, decide_eq_true_iff, min_self, max_self]
        have e1 : a 0 * cross (b - a) (c - a) 0 + a 1 * cross (b - a) (c - a) 1 + a 2 * cross (b - a) (c - a) 2 = pr (cross (b - a) (c - a)) a := by
          unfold pr; ring
        rw [e1, not_lt, abs_le] at h1
        rintro (h | h) <;> linarith [h1.1, h1.2]

/-- The bounding boxes overlap: no coordinate separates. -/
lemma bounding_complete (M : K) (B : Box K 3) (T : Triangle K 3) (hM : ∀ d, |T.a d| ≤ M)
    (h : intersectsBoxBox ((Box.empty M).expandTriangle T) B = true) (d : Fin 3) (k : K) :
    ¬((B.hi d - B.lo d) / 2 * |k| < k * (T.a d + -(B.hi d + B.lo d) / 2) ∧ (B.hi d - B.lo d) / 2 * |k| < k * (T.b d + -(B.hi d + B.lo d) / 2) ∧
      (B.hi d - B.lo d) / 2 * |k| < k * (T.c d + -(B.hi d + B.lo d) / 2)) := by
  rw [intersectsBoxBox_iff] at h
  obtain ⟨h1, h2⟩ := h d
  simp only [Box.expandTriangle, Box.expandPoint, Box.empty] at h1 h2
  have hMa := abs_le.mp (hM d)
  rintro ⟨ha, hb, hc⟩
  rcases lt_trichotomy k 0 with hk | hk | hk
  · rw [abs_of_neg hk] at ha hb hc
    have side : ∀ x : K, (B.hi d - B.lo d) / 2 * -k < k * (x + -(B.hi d + B.lo d) / 2) → x < B.lo d := by
      intro x hx
      by_contra hn
      push Not at hn
      nlinarith [mul_le_mul_of_nonpos_left hn hk.le]
    rcases le_max_iff.mp h2 with h | h
    · rcases le_max_iff.mp h with h | h
      · rcases le_max_iff.mp h with h | h
        · linarith [side _ ha]
        · linarith [side _ ha]
      · linarith [side _ hb]
    · linarith [side _ hc]
  · rw [hk, abs_zero, mul_zero, zero_mul] at ha
    exact lt_irrefl _ ha
  · rw [abs_of_pos hk] at ha hb hc
    have side : ∀ x : K, (B.hi d - B.lo d) / 2 * k < k * (x + -(B.hi d + B.lo d) / 2) → B.hi d < x := by
      intro x hx
      by_contra hn
      push Not at hn
      nlinarith [mul_le_mul_of_nonneg_left hn hk.le]
    rcases min_le_iff.mp h1 with h | h
    · rcases min_le_iff.mp h with h | h
      · rcases min_le_iff.mp h with h | h
        · linarith [side _ ha]
        · linarith [side _ ha]
      · linarith [side _ hb]
    · linarith [side _ hc]

/-! ## Property theorems -/

/-- **C35 (partial).** `intersects(box, triangle)` is true exactly if the box and the triangle, which may be degenerate, have a common point, whenever
the one test that reads the wrong component of the vertices gives the answer it would give with the right one. Missing: the other triangles, for which
both directions are false (`intersects_box_triangle_wrong`, `intersects_box_triangle_wrong_positive`). -/
theorem intersects_box_triangle_exact_partial (M : K) (B : Box K 3) (T : Triangle K 3) (hB : ∀ d, B.lo d ≤ B.hi d) (hM : ∀ d, |T.a d| ≤ M)
    (hy : rejectYbcCode (relative B T.a) (relative B T.b) (relative B T.c) (halfSize B) =
      rejectYbc (relative B T.a) (relative B T.b) (relative B T.c) (halfSize B)) :
    intersectsBoxTriangle M B T = true ↔ (T.set ∩ B.set).Nonempty := by
  have he : ∀ d, halfSize B d = (B.hi d - B.lo d) / 2 := by intro d; fin_cases d <;> rfl
  constructor
  · intro h
    unfold intersectsBoxTriangle at h
    dsimp only at h
    split_ifs at h with h0
    rw [Bool.not_eq_true', Bool.not_eq_false] at h0
    have hcode : rejectYbcCode (relative B T.a) (relative B T.b) (relative B T.c) (halfSize B) = false :=
      satTests_ybc _ _ _ _ h
    obtain ⟨⟨s, t⟩, hp⟩ := sat_complete (relative B T.a) (relative B T.b) (relative B T.c) (halfSize B) (fun d => by rw [he]; linarith [hB d])
      (fun d k => by rw [he]; exact bounding_complete M B T hM h0 d k) (hy ▸ hcode) h
    refine ⟨fun d => (1 - s - t) * T.a d + s * T.b d + t * T.c d, ⟨1 - s - t, s, t, ?_, ?_, ?_, by ring, fun d => rfl⟩, fun d => ?_⟩
    · have := hp (.inr 0); simp only [common, Half.val] at this; linarith
    · have := hp (.inr 1); simp only [common, Half.val] at this; linarith
    · have := hp (.inr 2); simp only [common, Half.val] at this; linarith
    · have h1 := hp (.inl (d, true))
      have h2 := hp (.inl (d, false))
      simp only [common, Half.val, relative, he] at h1 h2
      constructor <;> linarith
  · rintro ⟨x, hT, hx⟩
    by_contra hn
    rw [Bool.not_eq_true] at hn
    obtain ⟨w, hw⟩ := intersects_box_triangle_sound_partial M B T hy hn
    exact lt_irrefl _ (hw x hT x hx)

/-- **C35 (partial).** In particular if `b` and `c` have the same third coordinate. -/
theorem intersects_box_triangle_level_partial (M : K) (B : Box K 3) (T : Triangle K 3) (hB : ∀ d, B.lo d ≤ B.hi d) (hM : ∀ d, |T.a d| ≤ M)
    (hbc : T.b 2 = T.c 2) : intersectsBoxTriangle M B T = true ↔ (T.set ∩ B.set).Nonempty := by
  refine intersects_box_triangle_exact_partial M B T hB hM ?_
  unfold rejectYbcCode rejectYbc
  have : (relative B T.c - relative B T.b) 2 = 0 := by simp [relative, hbc]
  rw [this]
  simp

/-! ## Non-vacuity -/

/-- A triangle which is not level, for which the wrong component does not matter, and which cuts a corner of the box with all vertices outside. -/
example : let B : Box ℚ 3 := ⟨![-1, -1, -1], ![1, 1, 1]⟩
    let T : Triangle ℚ 3 := ⟨![2, 0, 0], ![0, 2, 0], ![0, 0, 2]⟩
    rejectYbcCode (relative B T.a) (relative B T.b) (relative B T.c) (halfSize B) = rejectYbc (relative B T.a) (relative B T.b) (relative B T.c) (halfSize B) ∧
      intersectsBoxTriangle 1000 B T = true ∧ (∀ d, B.lo d ≤ B.hi d) ∧ ∀ d, |T.a d| ≤ 1000 := by
  decide +kernel

end ArborX.Geometry
