import Verif.Euclid.Lemmas
import Verif.Traversal.Theorems

/-!
# Property theorems: queries on trees of geometries (C52, C53)

The specification is geometry alone: sets of points (`Verif/Geometry/Spec.lean`), common points, and the distance of two sets
(`IsDistance`).
-/

namespace ArborX.Euclid

open Geometry BVH

variable {D : ℕ}

/-- The library has a test for the query geometry against boxes and against all stored values. -/
def Scene.CanIntersect (S : Scene D) (Q : Geom ℝ D) : Prop :=
  (∀ B : Box ℝ D, (intersects Q (.box B)).isSome) ∧ ∀ g ∈ S.geo, (intersects Q (toReal g)).isSome

/-- The library has a distance of the query geometry to boxes and to all stored values. -/
def Scene.HasDistance (S : Scene D) (Q : Geom ℝ D) : Prop :=
  (∀ B : Box ℝ D, (distance Q (.box B)).isSome) ∧ ∀ g ∈ S.geo, (distance Q (toReal g)).isSome

lemma Scene.leafTest_iff {S : Scene D} (h : S.Valid) {Q : Geom ℝ D} (hQ : Regular Q) {i : ℕ} (hi : (intersects Q (toReal (S.at i))).isSome) :
    S.leafTest Q i = true ↔ (Q.set ∩ (toReal (S.at i)).set).Nonempty := by
  obtain ⟨b, hb⟩ := Option.isSome_iff_exists.mp hi
  rw [← intersects_exact hQ (h.at i) hb]
  unfold Scene.leafTest
  rw [hb, decide_eq_true_eq, Option.some_inj]

/-- The input restricted to its values: tests on indices that are not stored are irrelevant. -/
lemma Scene.monotone {S : Scene D} (h : S.Valid) {Q : Geom ℝ D} (hQ : Regular Q) (hc : S.CanIntersect Q) :
    Traversal.Monotone S.input.vol (S.leafTest Q) (nodeTest Q) := by
  intro i v hv ht
  obtain ⟨C, rfl, hC⟩ := leafBound_le (h.at i).valid hv
  have ht' : intersects Q (toReal (S.at i)) = some true := by
    unfold Scene.leafTest at ht
    exact of_decide_eq_true ht
  obtain ⟨x, hx, hx'⟩ := (intersects_exact hQ (h.at i) ht').mp rfl
  obtain ⟨b, hb⟩ := Option.isSome_iff_exists.mp (hc.1 C.1)
  have := (intersects_exact hQ (g := .box C.1) C.2 hb).mpr ⟨x, hx, hC hx'⟩
  show decide (intersects Q (.box C.1) = some true) = true
  rw [hb, this]
  exact decide_eq_true rfl

/-- **C52 (partial).** A spatial query `intersects(Q)` on a tree of geometries, built with the default space-filling curve under any schedule, calls
the callback exactly once for each stored geometry that has a point in common with `Q`, and for no other. Missing: boxes with triangles, for which it
is false (`box_query_triangle_missed`; see `box_query_triangles_partial` for what holds), segments with triangles, and degenerate triangles. -/
theorem spatial_query_geometry_partial (S : Scene D) (h : S.Valid) (Q : Geom ℝ D) (hQ : Regular Q) (hc : S.CanIntersect Q) (sched : List ℕ)
    (hf : S.input.Finished sched) (fuel : ℕ) (hfuel : 2 * S.geo.length ≤ fuel) :
    ∃ calls, Traversal.spatialQuery (S.input.build sched) (S.leafTest Q) (nodeTest Q) (fun _ => false) fuel = .done calls ∧
      calls.Nodup ∧ ∀ i, i ∈ calls ↔ i < S.geo.length ∧ (Q.set ∩ (toReal (S.at i)).set).Nonempty := by
  obtain ⟨calls, h1, h2⟩ := Traversal.spatial_query_exact S.input h.input (S.leafTest Q) (nodeTest Q) (S.monotone h hQ hc) sched hf fuel hfuel
  have hst : S.input.stored = List.range S.geo.length := by
    unfold Input.stored
    exact List.map_id _
  rw [hst] at h2
  refine ⟨calls, h1, h2.nodup_iff.mpr (List.nodup_range.filter _), fun i => ?_⟩
  rw [h2.mem_iff, List.mem_filter, List.mem_range]
  constructor
  · rintro ⟨hi, ht⟩
    exact ⟨hi, (S.leafTest_iff h hQ (hc.2 _ (S.at_mem hi))).mp ht⟩
  · rintro ⟨hi, ht⟩
    exact ⟨hi, (S.leafTest_iff h hQ (hc.2 _ (S.at_mem hi))).mpr ht⟩

/-! ## Nearest neighbours -/

/-- `calls` are the `k` values of the scene nearest to `Q`: distinct, in order of their distance, `min k n` of them, and no value left out is
nearer than one that is not. -/
structure NearestOf (S : Scene D) (Q : Geom ℝ D) (k : ℕ) (calls : List ℕ) : Prop where
  nodup : calls.Nodup
  stored : ∀ i ∈ calls, i < S.geo.length
  length : calls.length = min k S.geo.length
  sorted : calls.Pairwise (fun i j => ∀ r s, IsDistance Q.set (toReal (S.at i)).set r → IsDistance Q.set (toReal (S.at j)).set s → r ≤ s)
  nearest : ∀ i ∈ calls, ∀ j < S.geo.length, j ∉ calls → ∀ r s, IsDistance Q.set (toReal (S.at i)).set r →
    IsDistance Q.set (toReal (S.at j)).set s → r ≤ s

/-- The distance of two sets is unique. -/
lemma IsDistance.unique {A B : Set (Pt ℝ D)} {r s : ℝ} (hr : IsDistance A B r) (hs : IsDistance A B s) : r = s := by
  obtain ⟨x, hx, y, hy, e⟩ := hr.attained
  obtain ⟨x', hx', y', hy', e'⟩ := hs.attained
  exact le_antisymm (e' ▸ hr.minimal _ hx' _ hy') (e ▸ hs.minimal _ hx _ hy)

lemma IsDistance.nonneg {A B : Set (Pt ℝ D)} {r : ℝ} (hr : IsDistance A B r) : 0 ≤ r := by
  obtain ⟨x, -, y, -, e⟩ := hr.attained
  exact e ▸ edist_nonneg x y

/-- The scene with its values only (indices beyond are the point at the origin). -/
lemma Scene.dl_eq {S : Scene D} (h : S.Valid) {Q : Geom ℝ D} (hQ : Regular Q) (k : ℕ) {i : ℕ}
    (hs : (distance Q (toReal (S.at i))).isSome) : ∃ r : ℝ, (S.nearest Q k).dl i = (r : WithTop ℝ) ∧ IsDistance Q.set (toReal (S.at i)).set r := by
  obtain ⟨r, hr⟩ := Option.isSome_iff_exists.mp hs
  exact ⟨r, by simp only [Scene.nearest, hr, asDistance], distance_exact hQ (h.at i) hr⟩

lemma Scene.admissible {S : Scene D} (h : S.Valid) {Q : Geom ℝ D} (hQ : Regular Q) (hd : S.HasDistance Q) (k : ℕ) :
    Nearest.Admissible (S.nearest Q k) S.input.vol := by
  intro i v hv
  obtain ⟨C, rfl, hC⟩ := leafBound_le (h.at i).valid hv
  obtain ⟨s, hs⟩ := Option.isSome_iff_exists.mp (hd.1 C.1)
  have hdv : (S.nearest Q k).dv (C : Bound D) = (s : WithTop ℝ) := by
    show asDistance (distance Q (.box C.1)) = _
    rw [hs]; rfl
  rw [hdv]
  cases hi : distance Q (toReal (S.at i)) with
  | none =>
    have : (S.nearest Q k).dl i = ⊤ := by simp only [Scene.nearest, hi, asDistance]
    rw [this]; exact le_top
  | some r =>
    have : (S.nearest Q k).dl i = (r : WithTop ℝ) := by simp only [Scene.nearest, hi, asDistance]
    rw [this, WithTop.coe_le_coe]
    exact distance_lower_bound (distance_exact hQ (h.at i) hi) (distance_exact hQ (g := .box C.1) C.2 hs) hC

/-- **C53 (partial).** The stack of the traversal is large enough if there are at most 129 geometries, or if no more than `max (2 t + 3) (2 ^ t + 1)`
of them have their centroids in the same cell of the grid of `2 ^ (63 / D)` cells per dimension, where `t` is 63 minus the number of bits of the codes
(three geometries in three, five in two, nine in four dimensions). Missing: more geometries in one cell; without a limit it is false, see
`Nearest.stack_overflow`. -/
theorem stack_fits_partial (S : Scene D) (h : S.Valid) (hs : S.geo.length ≤ 129 ∨ ∃ t, D * (63 / D) + t = 63 ∧ ∀ i < S.geo.length,
    (List.range S.geo.length).countP (fun j => decide (S.code j = S.code i)) ≤ max (2 * t + 3) (2 ^ t + 1)) : Nearest.StackFits S.input 64 := by
  rcases hs with hs | ⟨t, h1, h2⟩
  · exact Nearest.stack_suffices_small S.input (by norm_num) hs
  · suffices H : Nearest.StackFits S.input (D * (63 / D) + t + 1) by
      rwa [h1] at H
    refine Nearest.stack_suffices_groups S.input h.input (by omega) (fun i hi => ?_) h2
    have := h.dim2
    exact (Morton.morton64_interleaves D h.dim2 h.dim10 S.prec h.prec _).1.lt (by omega)

/-- The numbers of the comment above. -/
example : (3 * (63 / 3) + 0 = 63 ∧ max (2 * 0 + 3) (2 ^ 0 + 1) = 3) ∧ (2 * (63 / 2) + 1 = 63 ∧ max (2 * 1 + 3) (2 ^ 1 + 1) = 5) ∧
    (4 * (63 / 4) + 3 = 63 ∧ max (2 * 3 + 3) (2 ^ 3 + 1) = 9) := by decide

/-- **C53.** A query `nearest(Q, k)` on a tree of geometries, built with the default space-filling curve under any schedule, calls the callback on
the `min k n` stored geometries nearest to `Q`, once each and in the order of their Euclidean distances, if the stack is large enough for the tree. -/
theorem nearest_query_geometry (S : Scene D) (h : S.Valid) (Q : Geom ℝ D) (hQ : Regular Q) (hd : S.HasDistance Q) (k : ℕ)
    (hcap : Nearest.StackFits S.input 64) (sched : List ℕ) (hf : S.input.Finished sched) (fuel : ℕ) (hfuel : 2 * S.geo.length ≤ fuel) :
    ∃ calls, Nearest.nearestQuery (S.input.build sched) (S.nearest Q k) fuel = .done calls ∧ NearestOf S Q k calls := by
  have hz : ∀ i, (S.nearest Q k).zero ≤ (S.nearest Q k).dl i := by
    intro i
    show (0 : WithTop ℝ) ≤ asDistance (distance Q (toReal (S.at i)))
    cases hi : distance Q (toReal (S.at i)) with
    | none => exact le_top
    | some r => exact WithTop.coe_le_coe.mpr (IsDistance.nonneg (distance_exact hQ (h.at i) hi))
  have hfin : ∀ i < S.input.n, (S.nearest Q k).dl (S.input.values i) < (S.nearest Q k).inf := by
    intro i hi
    obtain ⟨r, e, -⟩ := S.dl_eq h hQ k (hd.2 _ (S.at_mem hi))
    show (S.nearest Q k).dl i < ⊤
    rw [e]; exact WithTop.coe_lt_top r
  obtain ⟨calls, h1, h2, om, h3, h4, -, -, h7, -⟩ := Nearest.nearest_query_finite S.input h.input (S.nearest Q k) (S.admissible h hQ hd k) hz hcap hfin
    sched hf fuel hfuel
  have hst : S.input.stored = List.range S.geo.length := by
    unfold Input.stored
    exact List.map_id _
  rw [hst] at h3
  have hnd : (calls ++ om).Nodup := h3.nodup_iff.mpr List.nodup_range
  have hlt : ∀ i ∈ calls ++ om, i < S.geo.length := fun i hi => List.mem_range.mp (h3.mem_iff.mp hi)
  have hle : ∀ i < S.geo.length, ∀ j < S.geo.length, (S.nearest Q k).dl i ≤ (S.nearest Q k).dl j → ∀ r s,
      IsDistance Q.set (toReal (S.at i)).set r → IsDistance Q.set (toReal (S.at j)).set s → r ≤ s := by
    intro i hi j hj hij r s hr hs
    obtain ⟨r', e1, hr'⟩ := S.dl_eq h hQ k (hd.2 _ (S.at_mem hi))
    obtain ⟨s', e2, hs'⟩ := S.dl_eq h hQ k (hd.2 _ (S.at_mem hj))
    rw [e1, e2, WithTop.coe_le_coe] at hij
    rw [IsDistance.unique hr hr', IsDistance.unique hs hs']
    exact hij
  refine ⟨calls, h1, (List.nodup_append.mp hnd).1, fun i hi => hlt i (List.mem_append_left _ hi), h2, ?_, ?_⟩
  · refine List.Pairwise.imp_of_mem (fun {i j} hi hj hij => ?_) h4
    exact hle i (hlt i (List.mem_append_left _ hi)) j (hlt j (List.mem_append_left _ hj)) hij
  · intro i hi j hj hjn
    have hjo : j ∈ om := by
      have : j ∈ calls ++ om := h3.mem_iff.mpr (List.mem_range.mpr hj)
      exact (List.mem_append.mp this).resolve_left hjn
    exact hle i (hlt i (List.mem_append_left _ hi)) j hj (h7 i hi j hjo)

/-! ## Non-vacuity -/

/-- Three values: a point, a box and a ball in the plane. -/
def exampleScene : Scene 2 where
  geo := [.point ![0, 0], .box ⟨![1, 1], ![2, 3]⟩, .sphere ⟨![5, 5], 1⟩]
  M := 1000
  prec := 24
  red := .iter (.iter (.iter .init 0) 1) 2
  perm := fun i => i

example : exampleScene.code 0 = 0 ∧ exampleScene.code 0 < exampleScene.code 1 ∧ exampleScene.code 1 < exampleScene.code 2 := by decide +kernel

theorem exampleScene_valid : exampleScene.Valid where
  dim2 := le_rfl
  dim10 := by norm_num
  prec := le_rfl
  fits := by decide
  sorted := by
    refine ⟨?_, ?_⟩
    · show ((List.range 3).map (fun i => i)).Perm (List.range 3)
      rw [List.map_id']
    · intro i hi
      have hi' : i + 1 < 3 := hi
      have h01 : exampleScene.code 0 ≤ exampleScene.code 1 := by decide +kernel
      have h12 : exampleScene.code 1 ≤ exampleScene.code 2 := by decide +kernel
      rcases (by omega : i = 0 ∨ i = 1) with rfl | rfl
      · exact h01
      · exact h12
  regular := by
    intro g hg
    simp only [exampleScene, List.mem_cons, List.not_mem_nil, or_false] at hg
    rcases hg with rfl | rfl | rfl
    · trivial
    · intro d; fin_cases d <;> simp [toRealPt] <;> norm_num
    · simp [toReal, Regular]

/-- A ball can be asked for, and a box has a distance to all values. -/
example : exampleScene.CanIntersect (.sphere ⟨![0, 0], 1⟩) ∧ Regular (.sphere ⟨![0, 0], 1⟩ : Geom ℝ 2) := by
  refine ⟨⟨fun B => rfl, fun g hg => ?_⟩, zero_le_one⟩
  simp only [exampleScene, List.mem_cons, List.not_mem_nil, or_false] at hg
  rcases hg with rfl | rfl | rfl <;> rfl

/-- The second condition of `stack_fits_partial` holds. -/
example : 2 * (63 / 2) + 1 = 63 ∧ ∀ i < exampleScene.geo.length,
    (List.range exampleScene.geo.length).countP (fun j => decide (exampleScene.code j = exampleScene.code i)) ≤ max (2 * 1 + 3) (2 ^ 1 + 1) :=
  ⟨by norm_num, fun _ _ => List.countP_le_length.trans (by decide)⟩

example : exampleScene.HasDistance (.box ⟨![0, 0], ![1, 1]⟩) ∧ Nearest.StackFits exampleScene.input 64 := by
  refine ⟨⟨fun B => rfl, fun g hg => ?_⟩, ?_⟩
  · simp only [exampleScene, List.mem_cons, List.not_mem_nil, or_false] at hg
    rcases hg with rfl | rfl | rfl <;> rfl
  · intro T hT
    exact Nearest.stack_suffices_small exampleScene.input (by decide) (by decide) T hT

end ArborX.Euclid
