import Verif.Geometry.Spec
import Verif.Geometry.ClosestPoint
import Mathlib.Order.WithBot
import Mathlib.Order.Bounds.Basic
import Mathlib.Analysis.Real.Sqrt
import Mathlib.Tactic.FinCases
import Mathlib.Tactic.NormNum
import Mathlib.Tactic.LinearCombination
import Mathlib.Algebra.Order.Ring.Rat
import Mathlib.Algebra.Field.Rat

/-!
# Rays and boxes, rays and spheres (C36, C47)

Exact arithmetic with infinities and signed zeros in the direction.
-/

namespace ArborX.Geometry

variable {K : Type} [Field K] [LinearOrder K] [IsStrictOrderedRing K]

/-! ## Model -/

/-- Coordinates with `-inf` and `inf`. -/
abbrev Ext (K : Type) := WithBot (WithTop K)

/-- A finite value. -/
def fin (x : K) : Ext K := ((x : WithTop K) : WithBot (WithTop K))

/-- `Ray` (`ArborX_Ray.hpp` 33-68) after the constructor has normalised the direction. `negZero d` is the
sign bit of `direction[d]` when it is zero. -/
structure Ray (K : Type) where
  origin : Pt K 3
  dir : Pt K 3
  negZero : Fin 3 → Bool

/-- `std::signbit(dir[d] * x)` for `dir[d] == ±0` and a finite `x` which is not `-0` (the difference of two
equal numbers is `+0`). -/
def zeroSignbit (R : Ray K) (d : Fin 3) (x : K) : Bool := xor (R.negZero d) (decide (x < 0))

/-- The range `[tdmin, tdmax]` of one dimension, `none` for `continue` (121-152). -/
def slab (R : Ray K) (B : Box K 3) (d : Fin 3) : Option (Ext K × Ext K) :=
  if R.dir d = 0 then
    let min_orig := B.lo d - R.origin d
    if min_orig = 0 then none
    else
      let max_orig := B.hi d - R.origin d
      some (if zeroSignbit R d max_orig then ⊤ else ⊥, if zeroSignbit R d min_orig then ⊤ else ⊥)
  else if R.dir d > 0 then
    some (fin ((B.lo d - R.origin d) / R.dir d), fin ((B.hi d - R.origin d) / R.dir d))
  else
    some (fin ((B.hi d - R.origin d) / R.dir d), fin ((B.lo d - R.origin d) / R.dir d))

/-- Body of the loop over the dimensions (119-157). -/
def rayStep (R : Ray K) (B : Box K 3) (st : Ext K × Ext K) (d : Fin 3) : Ext K × Ext K :=
  match slab R B d with
  | none => st
  | some (tdmin, tdmax) => (if st.1 < tdmin then tdmin else st.1, if st.2 > tdmax then tdmax else st.2)

/-- `intersection(Ray, Box, tmin, tmax)` (104-159): the result and the two output parameters. -/
def intersectionRayBox (R : Ray K) (B : Box K 3) : Bool × Ext K × Ext K :=
  let st := [0, 1, 2].foldl (rayStep R B) (⊥, ⊤)
  (decide (st.1 ≤ st.2), st.1, st.2)

/-- `intersects(Ray, Box)` (161-170). -/
def intersectsRayBox (R : Ray K) (B : Box K 3) : Bool :=
  let r := intersectionRayBox R B
  r.1 && decide (r.2.2 ≥ fin 0)

/-- `distance(Ray, Box)` (431-442). -/
def distanceRayBox (R : Ray K) (B : Box K 3) : Ext K :=
  let r := intersectionRayBox R B
  if r.1 && decide (r.2.2 ≥ fin 0) then max r.2.1 (fin 0) else ⊤

/-- `solveQuadratic` (444-478); the roots if there are any. -/
noncomputable def solveQuadratic (a b c : ℝ) : Option (ℝ × ℝ) :=
  let discriminant := b * b - 4 * a * c
  if discriminant < 0 then none
  else if discriminant = 0 then some (-b / (2 * a), -b / (2 * a))
  else
    let q := if b > 0 then (-b - Real.sqrt discriminant) / 2 else (-b + Real.sqrt discriminant) / 2
    some (q / a, c / q)

/-- `intersection(Ray, Sphere, tmin, tmax)` (497-528): `none` for false. -/
noncomputable def intersectionRaySphere (R : Ray ℝ) (S : Sphere ℝ 3) : Option (ℝ × ℝ) :=
  let r := S.radius
  let oc := R.origin - S.center
  let a2 := 1
  let a1 := 2 * dot oc R.dir
  let a0 := dot oc oc - r * r
  (solveQuadratic a2 a1 a0).map (fun t => if t.1 > t.2 then (t.2, t.1) else t)

/-- `overlapDistance(Ray, Sphere, length, distance_to_origin)` (530-554). -/
noncomputable def overlapDistance (R : Ray ℝ) (S : Sphere ℝ 3) : ℝ × Ext ℝ :=
  match intersectionRaySphere R S with
  | none => (0, ⊤)
  | some (tmin, tmax) => if tmin ≤ tmax ∧ tmax ≥ 0 then (tmax - max 0 tmin, fin (max 0 tmin)) else (0, ⊤)

/-! ## Specification -/

/-- The parameters `t ≥ 0` at which the ray is in a set. -/
def Ray.hits (R : Ray K) (A : Set (Pt K 3)) : Set K := {t | 0 ≤ t ∧ (fun d => R.origin d + t * R.dir d) ∈ A}

/-- The direction is not the null vector, and its zero components are positive zeros. -/
structure Ray.Valid (R : Ray K) : Prop where
  nonzero : R.dir ≠ 0
  sign : ∀ d, R.dir d = 0 → R.negZero d = false

/-! ## Lemmas -/

omit [Field K] [IsStrictOrderedRing K] in
@[simp] lemma fin_le_fin {x y : K} : fin x ≤ fin y ↔ x ≤ y := by unfold fin; rw [WithBot.coe_le_coe, WithTop.coe_le_coe]

omit [Field K] [IsStrictOrderedRing K] in
lemma fin_le_top {x : K} : fin x ≤ (⊤ : Ext K) := le_top

omit [Field K] [IsStrictOrderedRing K] in
lemma not_top_le_fin {x : K} : ¬((⊤ : Ext K) ≤ fin x) := by
  unfold fin
  rw [← WithBot.coe_top, WithBot.coe_le_coe]
  simp

omit [Field K] [IsStrictOrderedRing K] in
lemma not_fin_le_bot {x : K} : ¬(fin x ≤ (⊥ : Ext K)) := by
  unfold fin
  simp

omit [Field K] [IsStrictOrderedRing K] in
/-- A value between two finite values is finite. -/
lemma exists_fin {x y : K} {e : Ext K} (h1 : fin x ≤ e) (h2 : e ≤ fin y) : ∃ z, e = fin z := by
  induction e using WithBot.recBotCoe with
  | bot => exact absurd h1 not_fin_le_bot
  | coe e =>
    induction e using WithTop.recTopCoe with
    | top => exact absurd h2 not_top_le_fin
    | coe z => exact ⟨z, rfl⟩

/-- A dimension of the box, as a condition on the parameter. -/
def inSlab (R : Ray K) (B : Box K 3) (d : Fin 3) (t : K) : Prop :=
  B.lo d ≤ R.origin d + t * R.dir d ∧ R.origin d + t * R.dir d ≤ B.hi d

/-- The range of one dimension is right if the sign of a zero component is positive. -/
lemma slab_spec (R : Ray K) (B : Box K 3) (hB : B.Valid) (d : Fin 3) (hs : R.dir d = 0 → R.negZero d = false) (t : K) :
    (∀ p, slab R B d = some p → (p.1 ≤ fin t ∧ fin t ≤ p.2 ↔ inSlab R B d t)) ∧ (slab R B d = none → inSlab R B d t) := by
  have hv := hB d
  unfold slab inSlab zeroSignbit
  by_cases h0 : R.dir d = 0
  · rw [if_pos h0]
    dsimp only
    rw [hs h0, h0, mul_zero, add_zero]
    by_cases h1 : B.lo d - R.origin d = 0
    · rw [if_pos h1]
      refine ⟨fun p hp => (by simp at hp), fun _ => ⟨by linarith, by linarith⟩⟩
    · rw [if_neg h1]
      refine ⟨fun p hp => ?_, fun h => (by simp at h)⟩
      obtain rfl := Option.some.inj hp
      simp only [Bool.false_xor, decide_eq_true_eq]
      constructor
      · rintro ⟨h2, h3⟩
        constructor
        · by_contra hn
          rw [if_neg (by push Not at hn ⊢; linarith)] at h3
          exact not_fin_le_bot h3
        · by_contra hn
          rw [if_pos (by push Not at hn; linarith)] at h2
          exact not_top_le_fin h2
      · rintro ⟨h2, h3⟩
        have h4 : B.lo d - R.origin d < 0 := lt_of_le_of_ne (by linarith) h1
        rw [if_neg (by linarith), if_pos h4]
        exact ⟨bot_le, le_top⟩
  · rw [if_neg h0]
    by_cases h1 : R.dir d > 0
    · rw [if_pos h1]
      refine ⟨fun p hp => ?_, fun h => (by simp at h)⟩
      obtain rfl := Option.some.inj hp
      dsimp only
      rw [fin_le_fin, fin_le_fin, div_le_iff₀ h1, le_div_iff₀ h1]
      constructor <;> rintro ⟨h2, h3⟩ <;> constructor <;> linarith
    · rw [if_neg h1]
      have h2 : R.dir d < 0 := lt_of_le_of_ne (not_lt.mp h1) h0
      refine ⟨fun p hp => ?_, fun h => (by simp at h)⟩
      obtain rfl := Option.some.inj hp
      dsimp only
      rw [fin_le_fin, fin_le_fin, div_le_iff_of_neg h2, le_div_iff_of_neg h2]
      constructor <;> rintro ⟨h2, h3⟩ <;> constructor <;> linarith

/-- One step of the loop. -/
lemma rayStep_spec (R : Ray K) (B : Box K 3) (hB : B.Valid) (d : Fin 3) (hs : R.dir d = 0 → R.negZero d = false) (st : Ext K × Ext K) (t : K) :
    ((rayStep R B st d).1 ≤ fin t ∧ fin t ≤ (rayStep R B st d).2) ↔ (st.1 ≤ fin t ∧ fin t ≤ st.2) ∧ inSlab R B d t := by
  obtain ⟨h1, h2⟩ := slab_spec R B hB d hs t
  unfold rayStep
  cases hsl : slab R B d with
  | none => exact ⟨fun h => ⟨h, h2 hsl⟩, fun h => h.1⟩
  | some p =>
    obtain ⟨a, b⟩ := p
    rw [← h1 _ hsl]
    dsimp only
    have e1 : (if st.1 < a then a else st.1) = max st.1 a := by
      split_ifs with h
      · rw [max_eq_right h.le]
      · rw [max_eq_left (not_lt.mp h)]
    have e2 : (if st.2 > b then b else st.2) = min st.2 b := by
      split_ifs with h
      · rw [min_eq_right h.le]
      · rw [min_eq_left (not_lt.mp h)]
    rw [e1, e2, max_le_iff, le_min_iff]
    tauto

/-- The range never grows. -/
lemma rayStep_mono (R : Ray K) (B : Box K 3) (st : Ext K × Ext K) (d : Fin 3) :
    st.1 ≤ (rayStep R B st d).1 ∧ (rayStep R B st d).2 ≤ st.2 := by
  unfold rayStep
  cases slab R B d with
  | none => exact ⟨le_rfl, le_rfl⟩
  | some p =>
    dsimp only
    constructor
    · split_ifs with h
      · exact h.le
      · exact le_rfl
    · split_ifs with h
      · exact h.le
      · exact le_rfl

/-- A nonzero component bounds the range. -/
lemma rayStep_bounded (R : Ray K) (B : Box K 3) (st : Ext K × Ext K) (d : Fin 3) (h0 : R.dir d ≠ 0) :
    ∃ x y, fin x ≤ (rayStep R B st d).1 ∧ (rayStep R B st d).2 ≤ fin y := by
  have hsl : ∃ x y, slab R B d = some (fin x, fin y) := by
    unfold slab
    rw [if_neg h0]
    split_ifs
    · exact ⟨_, _, rfl⟩
    · exact ⟨_, _, rfl⟩
  obtain ⟨x, y, hsl⟩ := hsl
  refine ⟨x, y, ?_, ?_⟩
  · unfold rayStep
    rw [hsl]
    dsimp only
    split_ifs with h
    · exact le_rfl
    · exact not_lt.mp h
  · unfold rayStep
    rw [hsl]
    dsimp only
    split_ifs with h
    · exact le_rfl
    · exact not_lt.mp h

/-- The loop as a whole. -/
lemma loop_spec (R : Ray K) (hR : R.Valid) (B : Box K 3) (hB : B.Valid) :
    let st := [0, 1, 2].foldl (rayStep R B) (⊥, ⊤)
    (∀ t, st.1 ≤ fin t ∧ fin t ≤ st.2 ↔ ∀ d, inSlab R B d t) ∧ ∃ x y, fin x ≤ st.1 ∧ st.2 ≤ fin y := by
  simp only [List.foldl_cons, List.foldl_nil]
  constructor
  · intro t
    rw [rayStep_spec R B hB 2 (hR.sign 2), rayStep_spec R B hB 1 (hR.sign 1), rayStep_spec R B hB 0 (hR.sign 0)]
    constructor
    · rintro ⟨⟨⟨-, h0⟩, h1⟩, h2⟩ d
      fin_cases d
      exacts [h0, h1, h2]
    · intro h
      exact ⟨⟨⟨⟨bot_le, le_top⟩, h 0⟩, h 1⟩, h 2⟩
  · obtain ⟨d, hd⟩ : ∃ d, R.dir d ≠ 0 := by
      by_contra hn
      push Not at hn
      exact hR.nonzero (funext hn)
    fin_cases d
    · obtain ⟨x, y, h1, h2⟩ := rayStep_bounded R B (⊥, ⊤) 0 hd
      exact ⟨x, y, (h1.trans (rayStep_mono R B _ 1).1).trans (rayStep_mono R B _ 2).1,
        ((rayStep_mono R B _ 2).2.trans (rayStep_mono R B _ 1).2).trans h2⟩
    · obtain ⟨x, y, h1, h2⟩ := rayStep_bounded R B (rayStep R B (⊥, ⊤) 0) 1 hd
      exact ⟨x, y, h1.trans (rayStep_mono R B _ 2).1, (rayStep_mono R B _ 2).2.trans h2⟩
    · exact rayStep_bounded R B _ 2 hd

/-! ## Property theorems -/

/-- **C36** (partial: no component of the direction is a negative zero). A ray is reported to intersect a box
exactly if some point at a parameter `t ≥ 0` is in the box. -/
theorem intersects_ray_box_partial (R : Ray K) (hR : R.Valid) (B : Box K 3) (hB : B.Valid) :
    intersectsRayBox R B = true ↔ (R.hits B.set).Nonempty := by
  obtain ⟨h1, x, y, hx, hy⟩ := loop_spec R hR B hB
  unfold intersectsRayBox intersectionRayBox
  dsimp only
  rw [Bool.and_eq_true, decide_eq_true_eq, decide_eq_true_eq]
  constructor
  · rintro ⟨hle, h0⟩
    obtain ⟨a, ha⟩ := exists_fin hx (hle.trans hy)
    obtain ⟨b, hb⟩ := exists_fin (hx.trans hle) hy
    rw [hb] at h0
    rw [ha, hb] at hle h1
    rw [fin_le_fin] at hle
    have h0 : 0 ≤ b := fin_le_fin.mp h0
    refine ⟨max a 0, le_max_right _ _, (h1 _).mp ⟨fin_le_fin.mpr (le_max_left _ _), fin_le_fin.mpr (max_le hle h0)⟩⟩
  · rintro ⟨t, h0, ht⟩
    obtain ⟨h2, h3⟩ := (h1 t).mpr ht
    exact ⟨h2.trans h3, (fin_le_fin.mpr h0).trans h3⟩

/-- **C36** (partial, same restriction). The distance is the smallest such parameter, or infinite if there
is none. -/
theorem distance_ray_box_partial (R : Ray K) (hR : R.Valid) (B : Box K 3) (hB : B.Valid) :
    (∀ r : K, distanceRayBox R B = fin r ↔ IsLeast (R.hits B.set) r) ∧
    (distanceRayBox R B = ⊤ ↔ R.hits B.set = ∅) := by
  have hiff := intersects_ray_box_partial R hR B hB
  obtain ⟨h1, x, y, hx, hy⟩ := loop_spec R hR B hB
  have hfin : ∀ r s : K, fin r = fin s → r = s := fun r s h => WithTop.coe_injective (WithBot.coe_injective h)
  unfold distanceRayBox
  dsimp only
  by_cases hi : intersectsRayBox R B = true
  · have hi' := hi
    unfold intersectsRayBox at hi'
    dsimp only at hi'
    rw [if_pos hi']
    unfold intersectionRayBox at hi' ⊢
    dsimp only at hi' ⊢
    rw [Bool.and_eq_true, decide_eq_true_eq, decide_eq_true_eq] at hi'
    obtain ⟨hle, h0⟩ := hi'
    obtain ⟨a, ha⟩ := exists_fin hx (hle.trans hy)
    obtain ⟨b, hb⟩ := exists_fin (hx.trans hle) hy
    rw [hb] at h0
    rw [ha, hb] at hle h1
    rw [fin_le_fin] at hle
    have h0 : 0 ≤ b := fin_le_fin.mp h0
    have e : max (fin a) (fin 0) = fin (max a 0) := by
      rcases le_total a 0 with h | h
      · rw [max_eq_right h, max_eq_right (fin_le_fin.mpr h)]
      · rw [max_eq_left h, max_eq_left (fin_le_fin.mpr h)]
    rw [ha, e]
    have hleast : IsLeast (R.hits B.set) (max a 0) := by
      refine ⟨⟨le_max_right _ _, (h1 _).mp ⟨fin_le_fin.mpr (le_max_left _ _), fin_le_fin.mpr (max_le hle h0)⟩⟩, fun t ht => ?_⟩
      obtain ⟨h2, h3⟩ := (h1 t).mpr ht.2
      exact max_le (fin_le_fin.mp h2) ht.1
    refine ⟨fun r => ⟨fun h => by rw [← hfin _ _ h]; exact hleast, fun h => by rw [hleast.unique h]⟩, ?_⟩
    constructor
    · intro h
      exact absurd h.ge not_top_le_fin
    · intro h
      rw [h] at hleast
      exact absurd hleast.1 (Set.notMem_empty _)
  · have hi' := hi
    unfold intersectsRayBox at hi'
    dsimp only at hi'
    rw [if_neg hi']
    have hempty : R.hits B.set = ∅ := Set.not_nonempty_iff_eq_empty.mp (fun h => hi (hiff.mpr h))
    rw [hempty]
    refine ⟨fun r => ⟨fun h => absurd h.le not_top_le_fin, fun h => absurd h.1 (Set.notMem_empty _)⟩, ⟨fun _ => rfl, fun _ => rfl⟩⟩

/-- **C36, refuted** for negative zeros. The ray from the origin in the direction (1, -0.0, 0) goes through
the middle of the box [1,2]×[-1,1]×[-1,1] and is reported to miss it. -/
theorem intersects_ray_box_negative_zero :
    let R : Ray ℚ := ⟨![0, 0, 0], ![1, 0, 0], ![false, true, false]⟩
    let B : Box ℚ 3 := ⟨![1, -1, -1], ![2, 1, 1]⟩
    B.Valid ∧ (R.hits B.set).Nonempty ∧ intersectsRayBox R B = false ∧ distanceRayBox R B = ⊤ := by
  refine ⟨fun d => by fin_cases d <;> decide +kernel, ⟨1, by decide +kernel, fun d => ?_⟩, by decide +kernel, by decide +kernel⟩
  fin_cases d <;> decide +kernel

/-- The quadratic formula. -/
lemma solveQuadratic_spec (b c : ℝ) :
    (∀ p, solveQuadratic 1 b c = some p → ∀ t, t ^ 2 + b * t + c = (t - p.1) * (t - p.2)) ∧
    (solveQuadratic 1 b c = none → ∀ t, 0 < t ^ 2 + b * t + c) := by
  have root : ∀ q t : ℝ, q ≠ 0 → q * q + b * q + c = 0 → t ^ 2 + b * t + c = (t - q / 1) * (t - c / q) := by
    intro q t hq e
    have hc : c / q = -b - q := by
      rw [div_eq_iff hq]; linear_combination e
    rw [hc, div_one]
    linear_combination e
  unfold solveQuadratic
  dsimp only
  by_cases h1 : b * b - 4 * 1 * c < 0
  · rw [if_pos h1]
    refine ⟨fun p hp => (by simp at hp), fun _ t => ?_⟩
    nlinarith [sq_nonneg (2 * t + b)]
  rw [if_neg h1]
  by_cases h2 : b * b - 4 * 1 * c = 0
  · rw [if_pos h2]
    refine ⟨fun p hp t => ?_, fun h => (by simp at h)⟩
    obtain rfl := Option.some.inj hp
    dsimp only
    have : c = b * b / 4 := by linarith
    rw [this]; ring
  rw [if_neg h2]
  have hd : 0 < b * b - 4 * 1 * c := lt_of_le_of_ne (not_lt.mp h1) (Ne.symm h2)
  have hs := Real.sqrt_pos.mpr hd
  have hsq := Real.mul_self_sqrt hd.le
  generalize Real.sqrt (b * b - 4 * 1 * c) = s at *
  refine ⟨fun p hp t => ?_, fun h => (by simp at h)⟩
  obtain rfl := Option.some.inj hp
  dsimp only
  split_ifs with h3
  · apply root
    · have : -b - s < 0 := by linarith
      exact (div_neg_of_neg_of_pos this two_pos).ne
    · linear_combination (1 / 4 : ℝ) * hsq
  · push Not at h3
    apply root
    · have : 0 < -b + s := by linarith
      exact (div_pos this two_pos).ne'
    · linear_combination (1 / 4 : ℝ) * hsq

/-- **C47.** For a ray with a direction of length one, `overlapDistance` returns the smallest parameter
`t ≥ 0` in the sphere and the length of the range of such parameters; it returns infinity and zero if there
are none. -/
theorem overlap_distance_sphere (R : Ray ℝ) (hR : R.dir 0 ^ 2 + R.dir 1 ^ 2 + R.dir 2 ^ 2 = 1) (S : Sphere ℝ 3) (hS : 0 ≤ S.radius) :
    (∀ a b : ℝ, IsLeast (R.hits S.set) a → IsGreatest (R.hits S.set) b → overlapDistance R S = (b - a, fin a)) ∧
    ((R.hits S.set).Nonempty → ∃ a b, R.hits S.set = Set.Icc a b ∧ a ≤ b) ∧
    (R.hits S.set = ∅ → overlapDistance R S = (0, ⊤)) := by
  have hq : ∀ t, t ∈ R.hits S.set ↔ 0 ≤ t ∧ t ^ 2 + (2 * dot (R.origin - S.center) R.dir) * t + (dot (R.origin - S.center) (R.origin - S.center) - S.radius * S.radius) ≤ 0 := by
    intro t
    have e : dist2 (fun d => R.origin d + t * R.dir d) S.center - S.radius ^ 2 =
        t ^ 2 + (2 * dot (R.origin - S.center) R.dir) * t + (dot (R.origin - S.center) (R.origin - S.center) - S.radius * S.radius) := by
      simp only [dist2, dot, Fin.sum_univ_three, Pi.sub_apply]
      linear_combination t ^ 2 * hR
    rw [← e]
    constructor
    · rintro ⟨h0, -, h⟩; exact ⟨h0, by linarith⟩
    · rintro ⟨h0, h⟩; exact ⟨h0, hS, by linarith⟩
  obtain ⟨h1, h2⟩ := solveQuadratic_spec (2 * dot (R.origin - S.center) R.dir) (dot (R.origin - S.center) (R.origin - S.center) - S.radius * S.radius)
  -- the hits as a range
  have key : (∃ p q, p ≤ q ∧ (∀ t, t ∈ R.hits S.set ↔ 0 ≤ t ∧ p ≤ t ∧ t ≤ q) ∧
      overlapDistance R S = if q ≥ 0 then (q - max 0 p, fin (max 0 p)) else (0, ⊤)) ∨
      (R.hits S.set = ∅ ∧ overlapDistance R S = (0, ⊤)) := by
    unfold overlapDistance intersectionRaySphere
    dsimp only
    cases hsol : solveQuadratic 1 (2 * dot (R.origin - S.center) R.dir) (dot (R.origin - S.center) (R.origin - S.center) - S.radius * S.radius) with
    | none =>
      right
      refine ⟨Set.eq_empty_iff_forall_notMem.mpr (fun t ht => ?_), rfl⟩
      have := h2 hsol t
      linarith [((hq t).mp ht).2]
    | some r =>
      left
      have hr := h1 r hsol
      obtain ⟨p, q⟩ := r
      simp only [Option.map_some]
      have prod : ∀ p q t : ℝ, p ≤ q → ((t - p) * (t - q) ≤ 0 ↔ p ≤ t ∧ t ≤ q) := by
        intro p q t hpq
        constructor
        · intro h
          constructor
          · by_contra hn; push Not at hn
            nlinarith [mul_pos_of_neg_of_neg (by linarith : t - p < 0) (by linarith : t - q < 0)]
          · by_contra hn; push Not at hn
            nlinarith [mul_pos (by linarith : 0 < t - p) (by linarith : 0 < t - q)]
        · rintro ⟨h3, h4⟩
          exact mul_nonpos_of_nonneg_of_nonpos (by linarith) (by linarith)
      by_cases hpq : p > q
      · refine ⟨q, p, hpq.le, fun t => ?_, ?_⟩
        · rw [hq, hr t]; dsimp only; rw [mul_comm, prod q p t hpq.le]
        · rw [if_pos hpq]; dsimp only; simp only [hpq.le, true_and]
      · push Not at hpq
        refine ⟨p, q, hpq, fun t => ?_, ?_⟩
        · rw [hq, hr t]; dsimp only; rw [prod p q t hpq]
        · rw [if_neg (not_lt.mpr hpq)]; dsimp only; simp only [hpq, true_and]
  rcases key with ⟨p, q, hpq, hmem, hov⟩ | ⟨hempty, hov⟩
  · have hIcc : R.hits S.set = Set.Icc (max 0 p) q := by
      ext t
      rw [hmem, Set.mem_Icc, max_le_iff, and_assoc]
    refine ⟨fun a b ha hb => ?_, fun hne => ⟨_, _, hIcc, ?_⟩, fun hempty => ?_⟩
    · have hle : max 0 p ≤ q := by
        have := ha.1
        rw [hIcc] at this
        exact this.1.trans this.2
      rw [hov, if_pos ((le_max_left _ _).trans hle)]
      rw [hIcc] at ha hb
      rw [ha.unique (isLeast_Icc hle), hb.unique (isGreatest_Icc hle)]
    · obtain ⟨t, ht⟩ := hne
      rw [hIcc] at ht
      exact ht.1.trans ht.2
    · rw [hov, if_neg]
      intro h0
      have : q ∈ R.hits S.set := (hmem q).mpr ⟨h0, hpq, le_rfl⟩
      rw [hempty] at this
      exact Set.notMem_empty _ this
  · rw [hempty]
    refine ⟨fun a b ha _ => absurd ha.1 (Set.notMem_empty _), fun hne => absurd hne (by simp), fun _ => hov⟩

/-! ## Non-vacuity -/

/-- A ray parallel to an axis, with its origin on the boundary of a slab. -/
example : intersectsRayBox (K := ℚ) ⟨![0, 1, -1], ![1, 0, 0], fun _ => false⟩ ⟨![1, -1, -1], ![2, 1, 1]⟩ = true := by decide +kernel
example : distanceRayBox (K := ℚ) ⟨![0, 1, -1], ![1, 0, 0], fun _ => false⟩ ⟨![1, -1, -1], ![2, 1, 1]⟩ = fin 1 := by decide +kernel
example : intersectsRayBox (K := ℚ) ⟨![0, 0, 0], ![3/5, 4/5, 0], fun _ => false⟩ ⟨![1, 2, -1], ![2, 4, 1]⟩ = true := by decide +kernel
example : intersectsRayBox (K := ℚ) ⟨![0, 0, 0], ![-3/5, -4/5, 0], fun _ => false⟩ ⟨![1, 2, -1], ![2, 4, 1]⟩ = false := by decide +kernel
example : (⟨![0, 0, 0], ![3/5, 4/5, 0], fun _ => false⟩ : Ray ℚ).Valid :=
  ⟨fun h => absurd (congrFun h 0) (by decide +kernel), fun _ _ => rfl⟩

end ArborX.Geometry
