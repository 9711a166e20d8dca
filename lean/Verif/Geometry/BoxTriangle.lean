import Verif.Geometry.Barycentric
import Verif.Geometry.Expand
import Verif.Geometry.Distance
import Mathlib.Algebra.Order.BigOperators.Group.Finset

/-!
# `intersects(Box, Triangle)` (C35)

Exact arithmetic in any ordered field.
-/

namespace ArborX.Geometry

variable {K : Type} [Field K] [LinearOrder K] [IsStrictOrderedRing K] {D : ℕ}

/-! ## Model -/

/-- `fmin(p, q) > radius || fmax(p, q) < -radius`, the test repeated nine times. -/
def reject (radius p q : K) : Bool := decide (min p q > radius) || decide (max p q < -radius)

/-- The tests after the shift (`ArborX_Intersects.hpp` 207-315). The components `a 1`, `b 1` of the test of
`e_y x vector_bc` are those of the code (lines 278-279). -/
def satTests (a b c extents : Pt K 3) : Bool :=
  let ab : Pt K 3 := b - a
  let ac : Pt K 3 := c - a
  let normal := cross ab ac
  if |a 0 * normal 0 + a 1 * normal 1 + a 2 * normal 2| >
      extents 0 * |normal 0| + extents 1 * |normal 1| + extents 2 * |normal 2| then false
  else
    let bc : Pt K 3 := c - b
    if reject (extents 1 * |ab 2| + extents 2 * |ab 1|) (-a 1 * ab 2 + a 2 * ab 1) (-c 1 * ab 2 + c 2 * ab 1) then false
    else if reject (extents 1 * |ac 2| + extents 2 * |ac 1|) (-a 1 * ac 2 + a 2 * ac 1) (-b 1 * ac 2 + b 2 * ac 1) then false
    else if reject (extents 1 * |bc 2| + extents 2 * |bc 1|) (-a 1 * bc 2 + a 2 * bc 1) (-b 1 * bc 2 + b 2 * bc 1) then false
    else if reject (extents 0 * |ab 2| + extents 2 * |ab 0|) (a 0 * ab 2 - a 2 * ab 0) (c 0 * ab 2 - c 2 * ab 0) then false
    else if reject (extents 0 * |ac 2| + extents 2 * |ac 0|) (a 0 * ac 2 - a 2 * ac 0) (b 0 * ac 2 - b 2 * ac 0) then false
    else if reject (extents 0 * |bc 2| + extents 2 * |bc 0|) (a 1 * bc 2 - a 2 * bc 0) (b 1 * bc 2 - b 2 * bc 0) then false
    else if reject (extents 0 * |ab 1| + extents 1 * |ab 0|) (-a 0 * ab 1 + a 1 * ab 0) (-c 0 * ab 1 + c 1 * ab 0) then false
    else if reject (extents 0 * |ac 1| + extents 1 * |ac 0|) (-a 0 * ac 1 + a 1 * ac 0) (-b 0 * ac 1 + b 1 * ac 0) then false
    else if reject (extents 0 * |bc 1| + extents 1 * |bc 0|) (-a 0 * bc 1 + a 1 * bc 0) (-b 0 * bc 1 + b 1 * bc 0) then false
    else true

/-- `intersects(Box, Triangle)` (166-316) in three dimensions; `M` is the largest finite coordinate
(default box). -/
def intersectsBoxTriangle (M : K) (B : Box K 3) (T : Triangle K 3) : Bool :=
  let bounding_box := (Box.empty M).expandTriangle T
  if !intersectsBoxBox bounding_box B then false
  else
    let shift : Pt K 3 := fun i => -(B.hi i + B.lo i) / 2
    satTests (fun i => T.a i + shift i) (fun i => T.b i + shift i) (fun i => T.c i + shift i)
      ![(B.hi 0 - B.lo 0) / 2, (B.hi 1 - B.lo 1) / 2, (B.hi 2 - B.lo 2) / 2]

/-! ## Specification -/

/-- A plane with normal `w` separates the two sets strictly. -/
def SeparatedBy (w : Pt K 3) (A B : Set (Pt K 3)) : Prop :=
  ∀ x ∈ A, ∀ y ∈ B, w 0 * x 0 + w 1 * x 1 + w 2 * x 2 < w 0 * y 0 + w 1 * y 1 + w 2 * y 2

/-- The test of `e_y x vector_bc` as it was meant, with the component `0` of the vertices. -/
def rejectYbc (a b c e : Pt K 3) : Bool :=
  reject (e 0 * |(c - b) 2| + e 2 * |(c - b) 0|) (a 0 * (c - b) 2 - a 2 * (c - b) 0) (b 0 * (c - b) 2 - b 2 * (c - b) 0)

/-- The test of `e_y x vector_bc` in the code (`ArborX_Intersects.hpp` 275-283), with the component `1`. -/
def rejectYbcCode (a b c e : Pt K 3) : Bool :=
  reject (e 0 * |(c - b) 2| + e 2 * |(c - b) 0|) (a 1 * (c - b) 2 - a 2 * (c - b) 0) (b 1 * (c - b) 2 - b 2 * (c - b) 0)

/-- A point in coordinates relative to the centre of the box. -/
def relative (B : Box K 3) (x : Pt K 3) : Pt K 3 := fun i => x i + -(B.hi i + B.lo i) / 2

/-- Half the size of the box. -/
def halfSize (B : Box K 3) : Pt K 3 := ![(B.hi 0 - B.lo 0) / 2, (B.hi 1 - B.lo 1) / 2, (B.hi 2 - B.lo 2) / 2]

/-! ## Lemmas -/

/-- Projection of a point. -/
def pr (w x : Pt K 3) : K := w 0 * x 0 + w 1 * x 1 + w 2 * x 2

omit [Field K] [LinearOrder K] [IsStrictOrderedRing K] in
lemma vec3_eta (x : Pt K 3) : x = ![x 0, x 1, x 2] := by funext d; fin_cases d <;> rfl

/-- The projection of a centred box. -/
lemma box_radius (B : Box K 3) (w y : Pt K 3) (hy : y ∈ B.set) :
    |pr w (fun i => y i + -(B.hi i + B.lo i) / 2)| ≤
      (B.hi 0 - B.lo 0) / 2 * |w 0| + (B.hi 1 - B.lo 1) / 2 * |w 1| + (B.hi 2 - B.lo 2) / 2 * |w 2| := by
  unfold pr
  have h : ∀ d, |w d * (y d + -(B.hi d + B.lo d) / 2)| ≤ (B.hi d - B.lo d) / 2 * |w d| := by
    intro d
    rw [abs_mul, mul_comm]
    apply mul_le_mul_of_nonneg_right _ (abs_nonneg _)
    rw [abs_le]
    obtain ⟨h1, h2⟩ := hy d
    constructor <;> linarith
  exact (abs_add_three _ _ _).trans (add_le_add (add_le_add (h 0) (h 1)) (h 2))

lemma tri_above (T : Triangle K 3) (w s : Pt K 3) (r : K) (ha : r < pr w (fun i => T.a i + s i))
    (hb : r < pr w (fun i => T.b i + s i)) (hc : r < pr w (fun i => T.c i + s i)) (x : Pt K 3) (hx : x ∈ T.set) :
    r < pr w (fun i => x i + s i) := by
  obtain ⟨p, q, t, hp, hq, ht, h1, hx⟩ := hx
  have e : pr w (fun i => x i + s i) = p * pr w (fun i => T.a i + s i) + q * pr w (fun i => T.b i + s i) + t * pr w (fun i => T.c i + s i) := by
    unfold pr
    dsimp only
    rw [hx 0, hx 1, hx 2]
    have : p = 1 - q - t := by linear_combination h1
    rw [this]; ring
  rw [e]
  have hr : r = p * r + q * r + t * r := by rw [← add_mul, ← add_mul, h1, one_mul]
  have h2 := mul_le_mul_of_nonneg_left ha.le hp
  have h3 := mul_le_mul_of_nonneg_left hb.le hq
  have h4 := mul_le_mul_of_nonneg_left hc.le ht
  have h5 : 0 < p ∨ 0 < q ∨ 0 < t := by
    by_contra hn; push Not at hn; linarith [hn.1, hn.2.1, hn.2.2]
  rcases h5 with h | h | h
  · have := mul_lt_mul_of_pos_left ha h; linarith
  · have := mul_lt_mul_of_pos_left hb h; linarith
  · have := mul_lt_mul_of_pos_left hc h; linarith

/-- All three points are on the same side of the slab of half width `e 0 |w 0| + e 1 |w 1| + e 2 |w 2|`. -/
def Beyond (a b c e w : Pt K 3) : Prop :=
  e 0 * |w 0| + e 1 * |w 1| + e 2 * |w 2| < pr w a ∧ e 0 * |w 0| + e 1 * |w 1| + e 2 * |w 2| < pr w b ∧
    e 0 * |w 0| + e 1 * |w 1| + e 2 * |w 2| < pr w c

/-- One test of the separating axis theorem. -/
lemma axis_sound (a b c e w : Pt K 3) {r p q : K} (hr : r = e 0 * |w 0| + e 1 * |w 1| + e 2 * |w 2|)
    (ha : pr w a = p ∨ pr w a = q) (hb : pr w b = p ∨ pr w b = q) (hc : pr w c = p ∨ pr w c = q)
    (h : reject r p q = true) : ∃ w, Beyond a b c e w := by
  have hneg : ∀ x, pr (-w) x = -pr w x := by intro x; unfold pr; simp only [Pi.neg_apply]; ring
  unfold reject at h
  rw [Bool.or_eq_true, decide_eq_true_iff, decide_eq_true_iff] at h
  rcases h with h | h
  · obtain ⟨h1, h2⟩ := lt_min_iff.mp h
    rw [hr] at h1 h2
    exact ⟨w, by rcases ha with e | e <;> rw [e] <;> assumption,
      by rcases hb with e | e <;> rw [e] <;> assumption, by rcases hc with e | e <;> rw [e] <;> assumption⟩
  · obtain ⟨h1, h2⟩ := max_lt_iff.mp h
    rw [hr] at h1 h2
    refine ⟨-w, ?_⟩
    unfold Beyond
    simp only [Pi.neg_apply, abs_neg, hneg]
    exact ⟨by rcases ha with e | e <;> rw [e] <;> linarith,
      by rcases hb with e | e <;> rw [e] <;> linarith, by rcases hc with e | e <;> rw [e] <;> linarith⟩

set_option maxHeartbeats 2000000 in
/-- The tests after the shift are sound if the wrong component does not matter. -/
lemma sat_sound (a b c e : Pt K 3) (hy : rejectYbcCode a b c e = rejectYbc a b c e) (h : satTests a b c e = false) : ∃ w, Beyond a b c e w := by
  unfold satTests at h
  dsimp only at h
  split_ifs at h with h1 h2 h3 h4 h5 h6 h7 h8 h9 h10
  · refine axis_sound a b c e (cross (b - a) (c - a)) rfl (Or.inl rfl) (Or.inl ?_) (Or.inl ?_) (p := pr (cross (b - a) (c - a)) a)
      (q := pr (cross (b - a) (c - a)) a) ?_
    · simp [pr, cross]; ring
    · simp [pr, cross]; ring
    · unfold reject
      rw [Bool.or_eq_true, decide_eq_true_iff, decide_eq_true_iff, min_self, max_self]
      have e1 : a 0 * cross (b - a) (c - a) 0 + a 1 * cross (b - a) (c - a) 1 + a 2 * cross (b - a) (c - a) 2 = pr (cross (b - a) (c - a)) a := by
        unfold pr; ring
      rw [e1] at h1
      rcases lt_abs.mp h1 with h | h
      · left; exact h
      · right; linarith
  · exact axis_sound a b c e ![0, -(b - a) 2, (b - a) 1] (by simp [abs_sub_comm]) (Or.inl (by simp [pr]; ring)) (Or.inl (by simp [pr]; ring)) (Or.inr (by simp [pr]; ring)) h2
  · exact axis_sound a b c e ![0, -(c - a) 2, (c - a) 1] (by simp [abs_sub_comm]) (Or.inl (by simp [pr]; ring)) (Or.inr (by simp [pr]; ring)) (Or.inl (by simp [pr]; ring)) h3
  · exact axis_sound a b c e ![0, -(c - b) 2, (c - b) 1] (by simp [abs_sub_comm]) (Or.inl (by simp [pr]; ring)) (Or.inr (by simp [pr]; ring)) (Or.inr (by simp [pr]; ring)) h4
  · exact axis_sound a b c e ![(b - a) 2, 0, -(b - a) 0] (by simp [abs_sub_comm]) (Or.inl (by simp [pr]; ring)) (Or.inl (by simp [pr]; ring)) (Or.inr (by simp [pr]; ring)) h5
  · exact axis_sound a b c e ![(c - a) 2, 0, -(c - a) 0] (by simp [abs_sub_comm]) (Or.inl (by simp [pr]; ring)) (Or.inr (by simp [pr]; ring)) (Or.inl (by simp [pr]; ring)) h6
  · exact axis_sound a b c e ![(c - b) 2, 0, -(c - b) 0] (by simp [abs_sub_comm]) (Or.inl (by simp [pr]; ring)) (Or.inr (by simp [pr]; ring)) (Or.inr (by simp [pr]; ring)) (hy ▸ h7 : rejectYbc a b c e = true)
  · exact axis_sound a b c e ![-(b - a) 1, (b - a) 0, 0] (by simp [abs_sub_comm]) (Or.inl (by simp [pr]; ring)) (Or.inl (by simp [pr]; ring)) (Or.inr (by simp [pr]; ring)) h8
  · exact axis_sound a b c e ![-(c - a) 1, (c - a) 0, 0] (by simp [abs_sub_comm]) (Or.inl (by simp [pr]; ring)) (Or.inr (by simp [pr]; ring)) (Or.inl (by simp [pr]; ring)) h9
  · exact axis_sound a b c e ![-(c - b) 1, (c - b) 0, 0] (by simp [abs_sub_comm]) (Or.inl (by simp [pr]; ring)) (Or.inr (by simp [pr]; ring)) (Or.inr (by simp [pr]; ring)) h10

lemma vertex_mem (T : Triangle K D) : T.a ∈ T.set ∧ T.b ∈ T.set ∧ T.c ∈ T.set :=
  ⟨⟨1, 0, 0, zero_le_one, le_rfl, le_rfl, by ring, fun d => by ring⟩,
   ⟨0, 1, 0, le_rfl, zero_le_one, le_rfl, by ring, fun d => by ring⟩,
   ⟨0, 0, 1, le_rfl, le_rfl, zero_le_one, by ring, fun d => by ring⟩⟩

/-- The bounding box test is sound. -/
lemma bounding_sound (M : K) (B : Box K 3) (T : Triangle K 3)
    (h : (!intersectsBoxBox ((Box.empty M).expandTriangle T) B) = true) : ∃ w, SeparatedBy w T.set B.set := by
  rw [Bool.not_eq_true', ← Bool.not_eq_true, intersectsBoxBox_iff] at h
  push Not at h
  obtain ⟨d, hd⟩ := h
  have hle : ∀ x ∈ T.set, ((Box.empty M).expandTriangle T).lo d ≤ x d ∧ x d ≤ ((Box.empty M).expandTriangle T).hi d := by
    rintro x ⟨p, q, t, hp, hq, ht, h1, hx⟩
    rw [hx d]
    simp only [Box.expandTriangle, Box.expandPoint]
    generalize (Box.empty M : Box K 3).lo d = l
    generalize (Box.empty M : Box K 3).hi d = u
    have e1 : ∀ m : K, m = p * m + q * m + t * m := fun m => by rw [← add_mul, ← add_mul, h1, one_mul]
    constructor
    · rw [e1 (min _ _)]
      refine add_le_add (add_le_add (mul_le_mul_of_nonneg_left ?_ hp) (mul_le_mul_of_nonneg_left ?_ hq)) (mul_le_mul_of_nonneg_left ?_ ht)
      · exact (min_le_left _ _).trans ((min_le_left _ _).trans (min_le_right _ _))
      · exact (min_le_left _ _).trans (min_le_right _ _)
      · exact min_le_right _ _
    · rw [e1 (max _ (T.c d))]
      refine add_le_add (add_le_add (mul_le_mul_of_nonneg_left ?_ hp) (mul_le_mul_of_nonneg_left ?_ hq)) (mul_le_mul_of_nonneg_left ?_ ht)
      · exact (le_max_right _ _).trans ((le_max_left _ _).trans (le_max_left _ _))
      · exact (le_max_right _ _).trans (le_max_left _ _)
      · exact le_max_right _ _
  have key : ∀ s : K, (∀ x ∈ T.set, ∀ y ∈ B.set, s * x d < s * y d) → ∃ w, SeparatedBy w T.set B.set := by
    intro s hs
    refine ⟨fun i => if i = d then s else 0, fun x hx y hy => ?_⟩
    have := hs x hx y hy
    fin_cases d <;> simpa using this
  by_cases h1 : ((Box.empty M).expandTriangle T).lo d ≤ B.hi d
  · exact key 1 (fun x hx y hy => by linarith [(hle x hx).2, (hy d).1, hd h1])
  · push Not at h1
    exact key (-1) (fun x hx y hy => by linarith [(hle x hx).1, (hy d).2])

/-! ## Property theorems -/

/-- **C35** (partial). A negative answer is justified by a separating plane, if the test that reads the wrong component of the vertices
gives the answer of the right one. Missing: the other triangles, for which the claim is false (`intersects_box_triangle_wrong`). -/
theorem intersects_box_triangle_sound_partial (M : K) (B : Box K 3) (T : Triangle K 3)
    (hy : rejectYbcCode (relative B T.a) (relative B T.b) (relative B T.c) (halfSize B) =
      rejectYbc (relative B T.a) (relative B T.b) (relative B T.c) (halfSize B))
    (h : intersectsBoxTriangle M B T = false) : ∃ w, SeparatedBy w T.set B.set := by
  unfold intersectsBoxTriangle at h
  dsimp only at h
  split_ifs at h with h0
  · exact bounding_sound M B T h0
  · obtain ⟨w, ha, hb, hc⟩ := sat_sound _ _ _ _ hy h
    refine ⟨-w, fun x hx y hy => ?_⟩
    have hy' := (abs_le.mp (box_radius B w y hy)).2
    have hx' := tri_above T w (fun i => -(B.hi i + B.lo i) / 2) _ ha hb hc x hx
    have h3 := hy'.trans_lt hx'
    unfold pr at h3
    simp only [Pi.neg_apply]
    linarith

/-- **C35, refuted.** The triangle (2,-2,0), (0,-2,2), (0,0,0) has a vertex at the centre of the box
[-1,1]³ and is reported as not intersecting it. -/
theorem intersects_box_triangle_wrong :
    let B : Box ℚ 3 := ⟨![-1, -1, -1], ![1, 1, 1]⟩
    let T : Triangle ℚ 3 := ⟨![2, -2, 0], ![0, -2, 2], ![0, 0, 0]⟩
    (T.set ∩ B.set).Nonempty ∧ intersectsBoxTriangle 1000 B T = false := by
  refine ⟨⟨![0, 0, 0], (vertex_mem _).2.2, fun d => ?_⟩, by decide +kernel⟩
  fin_cases d <;> decide +kernel

/-- The same wrong component makes the test accept a triangle that a plane separates from the box. -/
theorem intersects_box_triangle_wrong_positive :
    let B : Box ℚ 3 := ⟨![-1, -1, -1], ![1, 1, 1]⟩
    let T : Triangle ℚ 3 := ⟨![-3, 0, -2], ![-1, 0, -2], ![-2, 0, -1]⟩
    (∃ w, SeparatedBy w T.set B.set) ∧ intersectsBoxTriangle 1000 B T = true := by
  refine ⟨⟨![1, 0, 1], ?_⟩, by decide +kernel⟩
  rintro x ⟨p, q, t, hp, hq, ht, h1, hx⟩ y hy
  have h0 := (hy 0).1
  have h2 := (hy 2).1
  have e0 := hx 0
  have e2 := hx 2
  simp at e0 e2 h0 h2 ⊢
  rw [e0, e2]
  linarith

/-! ## Non-vacuity -/

/-- A triangle that cuts a corner of the box, with all its vertices outside. -/
example : intersectsBoxTriangle (K := ℚ) 1000 ⟨![-1, -1, -1], ![1, 1, 1]⟩ ⟨![0, 0, 2], ![2, 0, 0], ![0, 2, 0]⟩ = true := by
  decide +kernel
/-- A triangle whose bounding box meets the box, separated by its own plane. -/
example : intersectsBoxTriangle (K := ℚ) 1000 ⟨![-1, -1, -1], ![1, 1, 1]⟩ ⟨![0, 0, 4], ![4, 0, 0], ![0, 4, 0]⟩ = false := by
  decide +kernel

end ArborX.Geometry
