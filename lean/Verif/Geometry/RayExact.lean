import Verif.Geometry.Ray

/-!
# Rays with negative zeros in the direction (C36)

What the test of a ray and a box and their distance are for every ray whose direction is not null: a zero component with a negative sign
makes them miss the box, unless the origin is on the lower face of the box in this dimension.
-/

namespace ArborX.Geometry

variable {K : Type} [Field K] [LinearOrder K] [IsStrictOrderedRing K]

/-! ## Specification -/

/-- Some component of the direction is a negative zero, in a dimension where the origin is not on the lower face of the box. -/
def Ray.NegZeroOff (R : Ray K) (B : Box K 3) : Prop := ∃ d, R.dir d = 0 ∧ R.negZero d = true ∧ R.origin d ≠ B.lo d

/-! ## Lemmas -/

/-- The ray with positive zeros. -/
def Ray.positive (R : Ray K) : Ray K := { R with negZero := fun _ => false }

omit [IsStrictOrderedRing K] in
lemma slab_positive (R : Ray K) (B : Box K 3) (h : ¬R.NegZeroOff B) (d : Fin 3) : slab R B d = slab R.positive B d := by
  unfold slab Ray.positive
  dsimp only
  by_cases h0 : R.dir d = 0
  · rw [if_pos h0, if_pos h0]
    by_cases h1 : B.lo d - R.origin d = 0
    · rw [if_pos h1, if_pos h1]
    · have hs : R.negZero d = false := by
        by_contra hs
        exact h ⟨d, h0, by simpa using hs, fun e => h1 (by rw [e, sub_self])⟩
      rw [if_neg h1, if_neg h1]
      unfold zeroSignbit
      rw [hs]
  · rw [if_neg h0, if_neg h0]

omit [IsStrictOrderedRing K] in
lemma intersection_positive (R : Ray K) (B : Box K 3) (h : ¬R.NegZeroOff B) : intersectionRayBox R B = intersectionRayBox R.positive B := by
  have e : rayStep R B = rayStep R.positive B := by
    funext st d
    unfold rayStep
    rw [slab_positive R B h d]
  unfold intersectionRayBox
  rw [e]

omit [IsStrictOrderedRing K] in
/-- The range after a dimension is within the range of the dimension. -/
lemma rayStep_within (R : Ray K) (B : Box K 3) (st : Ext K × Ext K) (d : Fin 3) (p : Ext K × Ext K) (h : slab R B d = some p) :
    p.1 ≤ (rayStep R B st d).1 ∧ (rayStep R B st d).2 ≤ p.2 := by
  unfold rayStep
  rw [h]
  dsimp only
  constructor
  · split_ifs with h
    · exact le_rfl
    · exact not_lt.mp h
  · split_ifs with h
    · exact le_rfl
    · exact not_lt.mp h

/-- So is the final range. -/
lemma loop_within (R : Ray K) (B : Box K 3) (d : Fin 3) (p : Ext K × Ext K) (h : slab R B d = some p) :
    p.1 ≤ (intersectionRayBox R B).2.1 ∧ (intersectionRayBox R B).2.2 ≤ p.2 := by
  unfold intersectionRayBox
  simp only [List.foldl_cons, List.foldl_nil]
  fin_cases d
  · obtain ⟨h1, h2⟩ := rayStep_within R B (⊥, ⊤) 0 p h
    exact ⟨(h1.trans (rayStep_mono R B _ 1).1).trans (rayStep_mono R B _ 2).1,
      ((rayStep_mono R B _ 2).2.trans (rayStep_mono R B _ 1).2).trans h2⟩
  · obtain ⟨h1, h2⟩ := rayStep_within R B (rayStep R B (⊥, ⊤) 0) 1 p h
    exact ⟨h1.trans (rayStep_mono R B _ 2).1, (rayStep_mono R B _ 2).2.trans h2⟩
  · exact rayStep_within R B _ 2 p h

/-- A negative zero off the lower face makes the range empty. -/
lemma slab_negZero (R : Ray K) (B : Box K 3) (hB : B.Valid) (d : Fin 3) (h0 : R.dir d = 0) (hs : R.negZero d = true) (ho : R.origin d ≠ B.lo d) :
    ∃ p, slab R B d = some p ∧ (p.1 = ⊤ ∨ p.2 = ⊥) := by
  have h1 : B.lo d - R.origin d ≠ 0 := fun e => ho (sub_eq_zero.mp e).symm
  have hle := hB d
  refine ⟨_, by unfold slab; rw [if_pos h0]; dsimp only; rw [if_neg h1], ?_⟩
  unfold zeroSignbit
  rw [hs]
  by_cases hm : B.lo d - R.origin d < 0
  · right
    simp [hm]
  · left
    have : ¬(B.hi d - R.origin d < 0) := fun h => hm (lt_of_le_of_lt (sub_le_sub_right hle _) h)
    simp only [this, decide_false, Bool.xor_false]
    rfl

lemma missed (R : Ray K) (hR : R.dir ≠ 0) (B : Box K 3) (hB : B.Valid) (h : R.NegZeroOff B) : (intersectionRayBox R B).1 = false := by
  obtain ⟨d, h0, hs, ho⟩ := h
  obtain ⟨p, hp, hcase⟩ := slab_negZero R B hB d h0 hs ho
  obtain ⟨p1, p2⟩ := loop_within R B d p hp
  obtain ⟨e, he⟩ : ∃ d, R.dir d ≠ 0 := by
    by_contra hn
    push Not at hn
    exact hR (funext hn)
  have hq : ∃ x y, slab R B e = some (fin x, fin y) := by
    unfold slab
    rw [if_neg he]
    split_ifs
    · exact ⟨_, _, rfl⟩
    · exact ⟨_, _, rfl⟩
  obtain ⟨x, y, hq⟩ := hq
  obtain ⟨q1, q2⟩ := loop_within R B e _ hq
  have hdef : (intersectionRayBox R B).1 = decide ((intersectionRayBox R B).2.1 ≤ (intersectionRayBox R B).2.2) := rfl
  rw [hdef, decide_eq_false_iff_not]
  intro hle
  rcases hcase with hc | hc
  · rw [hc] at p1
    exact not_top_le_fin ((p1.trans hle).trans q2)
  · rw [hc] at p2
    exact not_fin_le_bot ((q1.trans hle).trans p2)

/-! ## Property theorems -/

/-- **C36**, exactly: a ray is reported to intersect a box if and only if some point at a parameter `t ≥ 0` is in the box and no component of the
direction is a negative zero, except in dimensions where the origin is on the lower face of the box. -/
theorem intersects_ray_box_exact (R : Ray K) (hR : R.dir ≠ 0) (B : Box K 3) (hB : B.Valid) :
    intersectsRayBox R B = true ↔ (R.hits B.set).Nonempty ∧ ¬R.NegZeroOff B := by
  by_cases h : R.NegZeroOff B
  · unfold intersectsRayBox
    dsimp only
    rw [missed R hR B hB h]
    simp [h]
  · have e : intersectsRayBox R B = intersectsRayBox R.positive B := by
      unfold intersectsRayBox
      rw [intersection_positive R B h]
    rw [e, intersects_ray_box_partial R.positive ⟨hR, fun _ _ => rfl⟩ B hB, and_iff_left h]
    rfl

/-- The distance is the smallest such parameter if there is one and no such negative zero, and infinite otherwise. -/
theorem distance_ray_box_exact (R : Ray K) (hR : R.dir ≠ 0) (B : Box K 3) (hB : B.Valid) :
    (∀ r : K, distanceRayBox R B = fin r ↔ IsLeast (R.hits B.set) r ∧ ¬R.NegZeroOff B) ∧
    (distanceRayBox R B = ⊤ ↔ R.hits B.set = ∅ ∨ R.NegZeroOff B) := by
  by_cases h : R.NegZeroOff B
  · have e : distanceRayBox R B = ⊤ := by
      unfold distanceRayBox
      dsimp only
      rw [missed R hR B hB h]
      rfl
    rw [e]
    refine ⟨fun r => ⟨fun h1 => absurd h1.le not_top_le_fin, fun h1 => absurd h h1.2⟩, fun _ => .inr h, fun _ => rfl⟩
  · have e : distanceRayBox R B = distanceRayBox R.positive B := by
      unfold distanceRayBox
      rw [intersection_positive R B h]
    obtain ⟨h1, h2⟩ := distance_ray_box_partial R.positive ⟨hR, fun _ _ => rfl⟩ B hB
    rw [e]
    refine ⟨fun r => ?_, ?_⟩
    · rw [h1 r, and_iff_left h]
      rfl
    · rw [h2, or_iff_left h]
      rfl

/-- A ray with a negative zero that is on the lower face: it is found. -/
example :
    let R : Ray ℚ := ⟨![0, -1, 0], ![1, 0, 0], ![false, true, false]⟩
    let B : Box ℚ 3 := ⟨![1, -1, -1], ![2, 1, 1]⟩
    R.dir ≠ 0 ∧ B.Valid ∧ ¬R.NegZeroOff B ∧ intersectsRayBox R B = true ∧ distanceRayBox R B = fin 1 := by
  refine ⟨fun h => by have := congrFun h 0; revert this; decide +kernel, fun d => by fin_cases d <;> decide +kernel, ?_, by decide +kernel, by decide +kernel⟩
  rintro ⟨d, h0, hs, ho⟩
  revert h0 hs ho
  fin_cases d <;> decide +kernel

/-- One that is not: it is missed. -/
example :
    let R : Ray ℚ := ⟨![0, 0, 0], ![1, 0, 0], ![false, true, false]⟩
    let B : Box ℚ 3 := ⟨![1, -1, -1], ![2, 1, 1]⟩
    R.dir ≠ 0 ∧ R.NegZeroOff B ∧ (R.hits B.set).Nonempty ∧ intersectsRayBox R B = false := by
  refine ⟨fun h => by have := congrFun h 0; revert this; decide +kernel, ⟨1, by decide +kernel, by decide +kernel, by decide +kernel⟩, ⟨1, by decide +kernel, fun d => ?_⟩,
    by decide +kernel⟩
  fin_cases d <;> decide +kernel

end ArborX.Geometry
