import Verif.Geometry.Spec
import Mathlib.Analysis.InnerProductSpace.PiL2
import Mathlib.Tactic.Linarith
import Mathlib.Tactic.Ring
import Mathlib.Tactic.FieldSimp
import Mathlib.Tactic.Positivity

/-!
# Distances and intersection tests of points, boxes and spheres (C32, C33)

Real coordinates; `Kokkos::sqrt` is the real square root.
-/

namespace ArborX.Geometry

variable {D : ℕ}

/-! ## Specification -/

/-- Euclidean distance. -/
noncomputable def edist (x y : Pt ℝ D) : ℝ := Real.sqrt (dist2 x y)

/-- `r` is the distance of two sets: attained, and nothing is closer. -/
structure IsDistance (A B : Set (Pt ℝ D)) (r : ℝ) : Prop where
  attained : ∃ x ∈ A, ∃ y ∈ B, edist x y = r
  minimal : ∀ x ∈ A, ∀ y ∈ B, r ≤ edist x y

/-! ## Model -/

section order
variable {K : Type} [LinearOrder K]

/-- `closestPoint(Point, Box)` (`ArborX_ClosestPoint.hpp` 47-64). -/
def closestPointBox (p : Pt K D) (B : Box K D) : Pt K D := fun d =>
  if p d < B.lo d then B.lo d else if p d > B.hi d then B.hi d else p d

/-- `intersects(Box, Box)` (`ArborX_Intersects.hpp` 50-64); the loop returns early. -/
def intersectsBoxBox (B C : Box K D) : Bool :=
  (List.finRange D).all (fun d => !(decide (B.lo d > C.hi d) || decide (B.hi d < C.lo d)))

/-- `intersects(Point, Box)` (66-79). -/
def intersectsPointBox (p : Pt K D) (B : Box K D) : Bool :=
  (List.finRange D).all (fun d => !(decide (p d > B.hi d) || decide (p d < B.lo d)))

end order

/-- `distance(Point, Point)` (`ArborX_Distance.hpp` 52-69). -/
noncomputable def distancePoint (a b : Pt ℝ D) : ℝ := Real.sqrt (∑ d, (b d - a d) * (b d - a d))

/-- `distance(Point, Box)` (71-79). -/
noncomputable def distancePointBox (p : Pt ℝ D) (B : Box ℝ D) : ℝ := distancePoint p (closestPointBox p B)

/-- `distance(Point, Sphere)` (81-92). -/
noncomputable def distancePointSphere (p : Pt ℝ D) (S : Sphere ℝ D) : ℝ := max (distancePoint p S.center - S.radius) 0

/-- `distance(Sphere, Sphere)` (94-107). -/
noncomputable def distanceSphereSphere (S T : Sphere ℝ D) : ℝ :=
  max (distancePoint S.center T.center - S.radius - T.radius) 0

/-- `distance(Box, Box)` (162-196). -/
noncomputable def distanceBoxBox (B C : Box ℝ D) : ℝ :=
  Real.sqrt (∑ d, if B.lo d > C.hi d then (B.lo d - C.hi d) * (B.lo d - C.hi d)
    else if C.lo d > B.hi d then (C.lo d - B.hi d) * (C.lo d - B.hi d) else 0)

/-- `distance(Sphere, Box)` (198-210). -/
noncomputable def distanceSphereBox (S : Sphere ℝ D) (B : Box ℝ D) : ℝ := max (distancePointBox S.center B - S.radius) 0

/-- `intersects(Sphere, Box)` (`ArborX_Intersects.hpp` 81-90). -/
noncomputable def intersectsSphereBox (S : Sphere ℝ D) (B : Box ℝ D) : Bool := decide (distancePointBox S.center B ≤ S.radius)

/-- `intersects(Sphere, Sphere)` (92-102). -/
noncomputable def intersectsSphereSphere (S T : Sphere ℝ D) : Bool :=
  decide (distancePoint S.center T.center ≤ S.radius + T.radius)

/-- `intersects(Sphere, Point)` (104-113). -/
noncomputable def intersectsSpherePoint (S : Sphere ℝ D) (p : Pt ℝ D) : Bool := decide (distancePoint S.center p ≤ S.radius)

/-! ## Lemmas -/

lemma dist2_nonneg (x y : Pt ℝ D) : 0 ≤ dist2 x y := Finset.sum_nonneg (fun _ _ => sq_nonneg _)

lemma dist2_comm (x y : Pt ℝ D) : dist2 x y = dist2 y x :=
  Finset.sum_congr rfl (fun d _ => by ring)

lemma edist_comm (x y : Pt ℝ D) : edist x y = edist y x := by unfold edist; rw [dist2_comm]

lemma edist_nonneg (x y : Pt ℝ D) : 0 ≤ edist x y := Real.sqrt_nonneg _

lemma edist_self (x : Pt ℝ D) : edist x x = 0 := by
  unfold edist dist2
  simp

lemma edist_sq (x y : Pt ℝ D) : edist x y ^ 2 = dist2 x y := Real.sq_sqrt (dist2_nonneg x y)

lemma edist_le_iff {x y : Pt ℝ D} {r : ℝ} : edist x y ≤ r ↔ 0 ≤ r ∧ dist2 x y ≤ r ^ 2 := by
  constructor
  · intro h
    have h0 := (edist_nonneg x y).trans h
    refine ⟨h0, ?_⟩
    rw [← edist_sq]
    exact pow_le_pow_left₀ (edist_nonneg x y) h 2
  · rintro ⟨h0, h⟩
    exact Real.sqrt_le_iff.mpr ⟨h0, h⟩

lemma edist_mono {x y x' y' : Pt ℝ D} (h : dist2 x y ≤ dist2 x' y') : edist x y ≤ edist x' y' := Real.sqrt_le_sqrt h

lemma distancePoint_eq (a b : Pt ℝ D) : distancePoint a b = edist a b := by
  unfold distancePoint edist dist2
  congr 1
  exact Finset.sum_congr rfl (fun d _ => by ring)

lemma edist_eq_dist (x y : Pt ℝ D) : edist x y = dist (WithLp.toLp 2 x : EuclideanSpace ℝ (Fin D)) (WithLp.toLp 2 y) := by
  rw [EuclideanSpace.dist_eq]
  unfold edist dist2
  congr 1
  exact Finset.sum_congr rfl (fun d _ => by rw [Real.dist_eq, sq_abs])

lemma edist_triangle (x y z : Pt ℝ D) : edist x z ≤ edist x y + edist y z := by
  rw [edist_eq_dist, edist_eq_dist, edist_eq_dist]
  exact dist_triangle _ _ _

lemma edist_lerp_left (x y : Pt ℝ D) {t : ℝ} (ht : 0 ≤ t) : edist x (lerp x y t) = t * edist x y := by
  have : dist2 x (lerp x y t) = t ^ 2 * dist2 x y := by
    unfold dist2 lerp
    rw [Finset.mul_sum]
    exact Finset.sum_congr rfl (fun d _ => by ring)
  unfold edist
  rw [this, Real.sqrt_mul (sq_nonneg t), Real.sqrt_sq ht]

lemma edist_lerp_right (x y : Pt ℝ D) {t : ℝ} (ht : t ≤ 1) : edist (lerp x y t) y = (1 - t) * edist x y := by
  have : dist2 (lerp x y t) y = (1 - t) ^ 2 * dist2 x y := by
    unfold dist2 lerp
    rw [Finset.mul_sum]
    exact Finset.sum_congr rfl (fun d _ => by ring)
  unfold edist
  rw [this, Real.sqrt_mul (sq_nonneg _), Real.sqrt_sq (by linarith)]

lemma mem_sphere {S : Sphere ℝ D} {x : Pt ℝ D} : x ∈ S.set ↔ edist x S.center ≤ S.radius := edist_le_iff.symm

section order
variable {K : Type} [LinearOrder K]

lemma intersectsBoxBox_iff (B C : Box K D) : intersectsBoxBox B C = true ↔ ∀ d, B.lo d ≤ C.hi d ∧ C.lo d ≤ B.hi d := by
  unfold intersectsBoxBox
  rw [List.all_eq_true]
  simp only [List.mem_finRange, true_implies, Bool.not_eq_true', Bool.or_eq_false_iff, decide_eq_false_iff_not, not_lt, gt_iff_lt]

lemma intersectsPointBox_iff (p : Pt K D) (B : Box K D) : intersectsPointBox p B = true ↔ ∀ d, B.lo d ≤ p d ∧ p d ≤ B.hi d := by
  unfold intersectsPointBox
  rw [List.all_eq_true]
  simp only [List.mem_finRange, true_implies, Bool.not_eq_true', Bool.or_eq_false_iff, decide_eq_false_iff_not, not_lt, gt_iff_lt]
  exact forall_congr' (fun d => and_comm)

end order

lemma closestPointBox_mem (p : Pt ℝ D) {B : Box ℝ D} (hB : B.Valid) : closestPointBox p B ∈ B.set := by
  intro d
  have := hB d
  unfold closestPointBox
  split_ifs with h1 h2
  · exact ⟨le_rfl, this⟩
  · exact ⟨this, le_rfl⟩
  · exact ⟨not_lt.mp h1, not_lt.mp h2⟩

lemma closestPointBox_le (p : Pt ℝ D) {B : Box ℝ D} {y : Pt ℝ D} (hy : y ∈ B.set) :
    edist p (closestPointBox p B) ≤ edist p y := by
  apply edist_mono
  apply Finset.sum_le_sum
  intro d _
  obtain ⟨h3, h4⟩ := hy d
  unfold closestPointBox
  split_ifs with h1 h2
  · nlinarith
  · nlinarith
  · rw [sub_self, zero_pow two_ne_zero]; exact sq_nonneg _

/-! ## Property theorems -/

/-- **C32.** Two boxes with ordered corners intersect exactly if they have a common point. -/
theorem intersects_box_box (B C : Box ℝ D) (hB : B.Valid) (hC : C.Valid) :
    intersectsBoxBox B C = true ↔ (B.set ∩ C.set).Nonempty := by
  rw [intersectsBoxBox_iff]
  constructor
  · intro h
    refine ⟨fun d => max (B.lo d) (C.lo d), fun d => ?_, fun d => ?_⟩
    · exact ⟨le_max_left _ _, max_le (hB d) (h d).2⟩
    · exact ⟨le_max_right _ _, max_le (h d).1 (hC d)⟩
  · rintro ⟨x, hx, hy⟩ d
    exact ⟨(hx d).1.trans (hy d).2, (hy d).1.trans (hx d).2⟩

/-- **C32.** -/
theorem intersects_point_box (p : Pt ℝ D) (B : Box ℝ D) : intersectsPointBox p B = true ↔ p ∈ B.set :=
  intersectsPointBox_iff p B

/-- **C32.** -/
theorem intersects_sphere_box (S : Sphere ℝ D) (B : Box ℝ D) (hB : B.Valid) :
    intersectsSphereBox S B = true ↔ (S.set ∩ B.set).Nonempty := by
  unfold intersectsSphereBox distancePointBox
  rw [decide_eq_true_iff, distancePoint_eq]
  constructor
  · intro h
    exact ⟨_, mem_sphere.mpr ((edist_comm _ _).trans_le h), closestPointBox_mem _ hB⟩
  · rintro ⟨x, hx, hy⟩
    exact (closestPointBox_le S.center hy).trans ((edist_comm _ _).trans_le (mem_sphere.mp hx))

/-- **C32.** -/
theorem intersects_sphere_point (S : Sphere ℝ D) (p : Pt ℝ D) : intersectsSpherePoint S p = true ↔ p ∈ S.set := by
  unfold intersectsSpherePoint
  rw [decide_eq_true_iff, distancePoint_eq, mem_sphere, edist_comm]

/-- **C32.** -/
theorem intersects_sphere_sphere (S T : Sphere ℝ D) (hS : 0 ≤ S.radius) (hT : 0 ≤ T.radius) :
    intersectsSphereSphere S T = true ↔ (S.set ∩ T.set).Nonempty := by
  unfold intersectsSphereSphere
  rw [decide_eq_true_iff, distancePoint_eq]
  constructor
  · intro h
    rcases eq_or_lt_of_le (add_nonneg hS hT) with h0 | h0
    · refine ⟨S.center, mem_sphere.mpr (by rw [edist_self]; exact hS), mem_sphere.mpr ?_⟩
      linarith
    · -- the point dividing the line of the centres in the ratio of the radii
      have hne : S.radius + T.radius ≠ 0 := h0.ne'
      have ht0 : 0 ≤ S.radius / (S.radius + T.radius) := div_nonneg hS h0.le
      have ht1 : S.radius / (S.radius + T.radius) ≤ 1 := (div_le_one h0).mpr (by linarith)
      refine ⟨lerp S.center T.center (S.radius / (S.radius + T.radius)), mem_sphere.mpr ?_, mem_sphere.mpr ?_⟩
      · rw [edist_comm, edist_lerp_left _ _ ht0]
        calc S.radius / (S.radius + T.radius) * edist S.center T.center
            ≤ S.radius / (S.radius + T.radius) * (S.radius + T.radius) := mul_le_mul_of_nonneg_left h ht0
          _ = S.radius := div_mul_cancel₀ _ hne
      · rw [edist_lerp_right _ _ ht1]
        calc (1 - S.radius / (S.radius + T.radius)) * edist S.center T.center
            ≤ (1 - S.radius / (S.radius + T.radius)) * (S.radius + T.radius) := mul_le_mul_of_nonneg_left h (by linarith)
          _ = T.radius := by rw [sub_mul, div_mul_cancel₀ _ hne]; ring
  · rintro ⟨x, hx, hy⟩
    have h1 := mem_sphere.mp hx
    have h2 := mem_sphere.mp hy
    have := edist_triangle S.center x T.center
    rw [edist_comm S.center x] at this
    linarith

/-- **C33.** -/
theorem distance_point_point (p q : Pt ℝ D) : IsDistance {p} {q} (distancePoint p q) := by
  rw [distancePoint_eq]
  exact ⟨⟨p, rfl, q, rfl, rfl⟩, fun x hx y hy => by rw [Set.mem_singleton_iff.mp hx, Set.mem_singleton_iff.mp hy]⟩

/-- **C33.** The distance of a point and a box is attained and minimal. -/
theorem distance_point_box (p : Pt ℝ D) (B : Box ℝ D) (hB : B.Valid) : IsDistance {p} B.set (distancePointBox p B) := by
  unfold distancePointBox
  rw [distancePoint_eq]
  refine ⟨⟨p, rfl, _, closestPointBox_mem p hB, rfl⟩, fun x hx y hy => ?_⟩
  rw [Set.mem_singleton_iff.mp hx]
  exact closestPointBox_le p hy

/-- **C33.** The distance of two boxes is attained and minimal. -/
theorem distance_box_box (B C : Box ℝ D) (hB : B.Valid) (hC : C.Valid) : IsDistance B.set C.set (distanceBoxBox B C) := by
  have hform : ∀ d, (if B.lo d > C.hi d then (B.lo d - C.hi d) * (B.lo d - C.hi d)
      else if C.lo d > B.hi d then (C.lo d - B.hi d) * (C.lo d - B.hi d) else 0 : ℝ) =
      ((if B.lo d > C.hi d then B.lo d else if C.lo d > B.hi d then B.hi d else max (B.lo d) (C.lo d)) -
        (if B.lo d > C.hi d then C.hi d else if C.lo d > B.hi d then C.lo d else max (B.lo d) (C.lo d))) ^ 2 := by
    intro d
    split_ifs <;> ring
  have heq : distanceBoxBox B C = edist
      (fun d => if B.lo d > C.hi d then B.lo d else if C.lo d > B.hi d then B.hi d else max (B.lo d) (C.lo d))
      (fun d => if B.lo d > C.hi d then C.hi d else if C.lo d > B.hi d then C.lo d else max (B.lo d) (C.lo d)) := by
    unfold distanceBoxBox edist dist2
    congr 1
    exact Finset.sum_congr rfl (fun d _ => hform d)
  refine ⟨⟨_, fun d => ?_, _, fun d => ?_, heq.symm⟩, ?_⟩
  · have := hB d
    split_ifs with h1 h2
    · exact ⟨le_rfl, this⟩
    · exact ⟨this, le_rfl⟩
    · exact ⟨le_max_left _ _, max_le this (not_lt.mp h2)⟩
  · have := hC d
    split_ifs with h1 h2
    · exact ⟨this, le_rfl⟩
    · exact ⟨le_rfl, this⟩
    · exact ⟨le_max_right _ _, max_le (not_lt.mp h1) this⟩
  · intro x hx y hy
    unfold distanceBoxBox
    apply Real.sqrt_le_sqrt
    apply Finset.sum_le_sum
    intro d _
    obtain ⟨a1, a2⟩ := hx d
    obtain ⟨b1, b2⟩ := hy d
    split_ifs with h1 h2
    · nlinarith
    · nlinarith
    · exact sq_nonneg _

/-- Distance of a ball and a set, from the distance of its centre. -/
lemma IsDistance.sphere {S : Sphere ℝ D} (hS : 0 ≤ S.radius) {B : Set (Pt ℝ D)} {r : ℝ} (h : IsDistance {S.center} B r) :
    IsDistance S.set B (max (r - S.radius) 0) := by
  obtain ⟨⟨c, hc, y, hy, e⟩, hmin⟩ := h
  rw [Set.mem_singleton_iff.mp hc] at e
  have hr : 0 ≤ r := e ▸ edist_nonneg _ _
  constructor
  · rcases le_or_gt r S.radius with hle | hlt
    · rw [max_eq_right (by linarith)]
      exact ⟨y, mem_sphere.mpr (by rw [edist_comm, e]; exact hle), y, hy, edist_self y⟩
    · rw [max_eq_left (by linarith)]
      have hr0 : 0 < r := lt_of_le_of_lt hS hlt
      have ht0 : 0 ≤ S.radius / r := div_nonneg hS hr
      have ht1 : S.radius / r ≤ 1 := (div_le_one hr0).mpr hlt.le
      refine ⟨lerp S.center y (S.radius / r), mem_sphere.mpr ?_, y, hy, ?_⟩
      · rw [edist_comm, edist_lerp_left _ _ ht0, e, div_mul_cancel₀ _ hr0.ne']
      · rw [edist_lerp_right _ _ ht1, e, sub_mul, div_mul_cancel₀ _ hr0.ne', one_mul]
  · intro x hx z hz
    have h1 := mem_sphere.mp hx
    have h2 := hmin S.center rfl z hz
    have h3 := edist_triangle S.center x z
    rw [edist_comm S.center x] at h3
    exact max_le (by linarith) (edist_nonneg _ _)

/-- **C33.** The distance of a ball and a box is attained and minimal. -/
theorem distance_sphere_box (S : Sphere ℝ D) (B : Box ℝ D) (hS : 0 ≤ S.radius) (hB : B.Valid) :
    IsDistance S.set B.set (distanceSphereBox S B) :=
  (distance_point_box S.center B hB).sphere hS

lemma IsDistance.symm {A B : Set (Pt ℝ D)} {r : ℝ} (h : IsDistance A B r) : IsDistance B A r := by
  obtain ⟨⟨x, hx, y, hy, e⟩, hmin⟩ := h
  exact ⟨⟨y, hy, x, hx, by rw [edist_comm]; exact e⟩, fun a ha b hb => by rw [edist_comm]; exact hmin b hb a ha⟩

/-- **C33.** The distance of a point and a ball is attained and minimal. -/
theorem distance_point_sphere (p : Pt ℝ D) (S : Sphere ℝ D) (hS : 0 ≤ S.radius) :
    IsDistance {p} S.set (distancePointSphere p S) :=
  ((distance_point_point p S.center).symm.sphere hS).symm

/-- **C33.** The distance of two balls is attained and minimal. -/
theorem distance_sphere_sphere (S T : Sphere ℝ D) (hS : 0 ≤ S.radius) (hT : 0 ≤ T.radius) :
    IsDistance S.set T.set (distanceSphereSphere S T) := by
  have h := ((distance_point_point S.center T.center).symm.sphere hT).symm.sphere hS
  have e : max (max (distancePoint S.center T.center - T.radius) 0 - S.radius) 0 = distanceSphereSphere S T := by
    unfold distanceSphereSphere
    rcases le_total (distancePoint S.center T.center - T.radius) 0 with h0 | h0
    · rw [max_eq_right h0, max_eq_right (by linarith), max_eq_right (by linarith)]
    · rw [max_eq_left h0]
      congr 1
      ring
  rw [e] at h
  exact h

/-- **C33.** A bounding volume is never farther from a query than anything it contains. -/
theorem distance_lower_bound {A B C : Set (Pt ℝ D)} {r s : ℝ} (hr : IsDistance A B r) (hs : IsDistance A C s) (hBC : B ⊆ C) :
    s ≤ r := by
  obtain ⟨x, hx, y, hy, e⟩ := hr.attained
  rw [← e]
  exact hs.minimal x hx y (hBC hy)

/-! ## Non-vacuity -/

/-- The box `[0,1] × [0,1]`, the point `(4, 5)` and a ball around it. -/
noncomputable def exampleBox : Box ℝ 2 := ⟨fun _ => 0, fun _ => 1⟩

lemma exampleBox_valid : exampleBox.Valid := fun _ => zero_le_one

example : distancePointBox ![4, 5] exampleBox = 5 ∧ IsDistance {![4, 5]} exampleBox.set 5 := by
  have h : distancePointBox ![4, 5] exampleBox = 5 := by
    unfold distancePointBox distancePoint closestPointBox exampleBox
    rw [Fin.sum_univ_two]
    have : Real.sqrt 25 = 5 := by rw [show (25 : ℝ) = 5 ^ 2 by norm_num]; exact Real.sqrt_sq (by norm_num)
    norm_num [this]
  have h' := distance_point_box ![4, 5] exampleBox exampleBox_valid
  rw [h] at h'
  exact ⟨h, h'⟩

example : intersectsSphereBox ⟨![4, 5], 5⟩ exampleBox = true ↔
    ((⟨![4, 5], 5⟩ : Sphere ℝ 2).set ∩ exampleBox.set).Nonempty := intersects_sphere_box _ _ exampleBox_valid

end ArborX.Geometry
