import Verif.Euclid.Lemmas
import Verif.Geometry.Ray
import Verif.Geometry.RayTriangleTheorems
import Verif.Ordered.Theorems
import Verif.Traversal.AnyPredicate

/-!
# Rays cast into trees of boxes and triangles (C71)

`intersects(ray)`, `nearest(ray, k)` and `ordered_intersects(ray)` on a tree in three dimensions, built with the default space-filling curve. The
specification is `Ray.hits`: the parameters `t ≥ 0` at which the ray is in the stored geometry.
-/

namespace ArborX.Euclid

open Geometry BVH

/-! ## Model -/

/-- `intersects(Ray, Box)` and `intersects(Ray, Triangle)` (`src/geometry/ArborX_Ray.hpp` 161-170, 419-427) as called by `Intersects::operator()`
(`src/spatial/detail/ArborX_Predicates.hpp` 95-101). There are no tests of rays against other geometries. -/
noncomputable def rayTest (tol : Tol) (R : Ray ℝ) : Geom ℝ 3 → Bool
  | .box B => intersectsRayBox R B
  | .triangle T => decide (intersectsRayTriangle tol R T = some true)
  | _ => false

/-- The same on the bounding box of an internal node. -/
noncomputable def rayNode (R : Ray ℝ) : Bound 3 → Bool := WithBot.recBotCoe false (fun B => intersectsRayBox R B.1)

/-- `distance(Ray, Box)` (`src/geometry/ArborX_Ray.hpp` 431-442), the only distance of a ray. -/
noncomputable def rayDistance (R : Ray ℝ) : Geom ℝ 3 → Ext ℝ
  | .box B => distanceRayBox R B
  | _ => ⊤

/-- The same on the bounding box of an internal node. -/
noncomputable def rayNodeDistance (R : Ray ℝ) : Bound 3 → Ext ℝ := WithBot.recBotCoe ⊤ (fun B => distanceRayBox R B.1)

/-- `nearest(ray, k)` (`ArborX_Predicates.hpp` 71-76); 64 entries on the stack (`ArborX_TreeTraversal.hpp` 218). -/
noncomputable def Scene.rayNearest (S : Scene 3) (R : Ray ℝ) (k : ℕ) : Nearest.Query ℕ (Bound 3) (Ext ℝ) where
  k := k
  dl := fun i => rayDistance R (toReal (S.at i))
  dv := rayNodeDistance R
  zero := fin 0
  inf := ⊤
  cap := 64

/-- `ordered_intersects(ray)` (`ArborX_Predicates.hpp` 105-125); 64 entries in the buffer (`ArborX_TreeTraversal.hpp` 424). -/
noncomputable def Scene.rayOrdered (S : Scene 3) (R : Ray ℝ) : Ordered.Query ℕ (Bound 3) (Ext ℝ) where
  dl := fun i => rayDistance R (toReal (S.at i))
  dv := rayNodeDistance R
  inf := ⊤
  cap := 64

/-! ## Specification -/

/-- The stored values are boxes. -/
def Scene.Boxes (S : Scene 3) : Prop := ∀ g ∈ S.geo, ∃ B, g = .box B

/-- The ray meets value `i`. -/
def Scene.Hit (S : Scene 3) (R : Ray ℝ) (i : ℕ) : Prop := (R.hits (toReal (S.at i)).set).Nonempty

/-- The ray enters value `i` no later than value `j`. -/
def Scene.NoLater (S : Scene 3) (R : Ray ℝ) (i j : ℕ) : Prop :=
  ∀ r s, IsLeast (R.hits (toReal (S.at i)).set) r → IsLeast (R.hits (toReal (S.at j)).set) s → r ≤ s

open Classical in
/-- `calls` are the first `k` values on the way of the ray, in order. -/
structure FirstHits (S : Scene 3) (R : Ray ℝ) (k : ℕ) (calls : List ℕ) : Prop where
  nodup : calls.Nodup
  hit : ∀ i ∈ calls, i < S.geo.length ∧ S.Hit R i
  length : calls.length = min k ((Finset.range S.geo.length).filter (S.Hit R)).card
  sorted : calls.Pairwise (S.NoLater R)
  first : ∀ i ∈ calls, ∀ j < S.geo.length, j ∉ calls → S.NoLater R i j

/-! ## Lemmas -/

lemma hits_mono {R : Ray ℝ} {A B : Set (Pt ℝ 3)} (h : A ⊆ B) : R.hits A ⊆ R.hits B := fun _ ht => ⟨ht.1, h ht.2⟩

lemma zero_le_distanceRayBox (R : Ray ℝ) (B : Box ℝ 3) : fin 0 ≤ distanceRayBox R B := by
  unfold distanceRayBox
  dsimp only
  split_ifs
  · exact le_max_right _ _
  · exact le_top

/-- The distance is infinite or the least parameter. -/
lemma distance_cases (R : Ray ℝ) (hR : R.Valid) (B : Box ℝ 3) (hB : B.Valid) :
    (distanceRayBox R B = ⊤ ∧ R.hits B.set = ∅) ∨ ∃ r, distanceRayBox R B = fin r ∧ IsLeast (R.hits B.set) r := by
  obtain ⟨h1, h2⟩ := distance_ray_box_partial R hR B hB
  by_cases ht : distanceRayBox R B = ⊤
  · exact .inl ⟨ht, h2.mp ht⟩
  · right
    have h0 := zero_le_distanceRayBox R B
    generalize distanceRayBox R B = e at *
    induction e using WithBot.recBotCoe with
    | bot => exact absurd h0 not_fin_le_bot
    | coe e =>
      induction e using WithTop.recTopCoe with
      | top => exact absurd rfl ht
      | coe r => exact ⟨r, rfl, (h1 r).mp rfl⟩

lemma distance_antitone (R : Ray ℝ) (hR : R.Valid) {B C : Box ℝ 3} (hB : B.Valid) (hC : C.Valid) (h : B.set ⊆ C.set) :
    distanceRayBox R C ≤ distanceRayBox R B := by
  rcases distance_cases R hR B hB with ⟨e, -⟩ | ⟨r, e, hr⟩
  · rw [e]; exact le_top
  · rcases distance_cases R hR C hC with ⟨-, hs⟩ | ⟨s, e', hs⟩
    · exact absurd (hits_mono h hr.1) (by rw [hs]; exact Set.notMem_empty r)
    · rw [e, e', fin_le_fin]
      exact hs.2 (hits_mono h hr.1)

lemma fin_lt_top (r : ℝ) : fin r < (⊤ : Ext ℝ) := lt_of_le_of_ne le_top (fun h => not_top_le_fin (x := r) (by rw [h]))

variable {S : Scene 3}

lemma Scene.rayDistance_cases (h : S.Valid) (hb : S.Boxes) {R : Ray ℝ} (hR : R.Valid) {i : ℕ} (hi : i < S.geo.length) :
    (rayDistance R (toReal (S.at i)) = ⊤ ∧ ¬ S.Hit R i) ∨
      ∃ r, rayDistance R (toReal (S.at i)) = fin r ∧ IsLeast (R.hits (toReal (S.at i)).set) r := by
  obtain ⟨B, e⟩ := hb _ (S.at_mem hi)
  have hreg := h.at i
  unfold Scene.Hit
  rw [e] at hreg ⊢
  rcases distance_cases R hR ⟨toRealPt B.lo, toRealPt B.hi⟩ hreg with ⟨h1, h2⟩ | h1
  · exact .inl ⟨h1, by rw [Set.not_nonempty_iff_eq_empty]; exact h2⟩
  · exact .inr h1

lemma Scene.rayDistance_lt (h : S.Valid) (hb : S.Boxes) {R : Ray ℝ} (hR : R.Valid) {i : ℕ} (hi : i < S.geo.length) :
    rayDistance R (toReal (S.at i)) < ⊤ ↔ S.Hit R i := by
  rcases S.rayDistance_cases h hb hR hi with ⟨e, hn⟩ | ⟨r, e, hr⟩
  · rw [e]; exact ⟨fun h => absurd h (lt_irrefl _), fun h => absurd h hn⟩
  · rw [e]; exact ⟨fun _ => ⟨r, hr.1⟩, fun _ => fin_lt_top r⟩

lemma Scene.noLater (h : S.Valid) (hb : S.Boxes) {R : Ray ℝ} (hR : R.Valid) {i j : ℕ} (hi : i < S.geo.length) (hj : j < S.geo.length)
    (hij : rayDistance R (toReal (S.at i)) ≤ rayDistance R (toReal (S.at j))) : S.NoLater R i j := by
  intro r s hr hs
  rcases S.rayDistance_cases h hb hR hi with ⟨-, hn⟩ | ⟨r', e, hr'⟩
  · exact absurd ⟨r, hr.1⟩ hn
  rcases S.rayDistance_cases h hb hR hj with ⟨-, hn⟩ | ⟨s', e', hs'⟩
  · exact absurd ⟨s, hs.1⟩ hn
  rw [e, e', fin_le_fin, hr'.unique hr, hs'.unique hs] at hij
  exact hij

lemma zero_le_rayDistance (R : Ray ℝ) (g : Geom ℝ 3) : fin 0 ≤ rayDistance R g := by
  cases g <;> first | exact zero_le_distanceRayBox R _ | exact le_top

/-- Nodes are no farther than the values in them. -/
lemma Scene.rayNode_le (h : S.Valid) {R : Ray ℝ} (hR : R.Valid) (i : ℕ) (v : Bound 3) (hv : S.input.vol i ≤ v) :
    rayNodeDistance R v ≤ rayDistance R (toReal (S.at i)) := by
  obtain ⟨C, rfl, hC⟩ := leafBound_le (h.at i).valid hv
  cases hg : toReal (S.at i) with
  | box B =>
    have hreg := h.at i
    rw [hg] at hC hreg
    exact distance_antitone R hR hreg C.2 hC
  | _ => exact le_top

lemma rayNode_anti {R : Ray ℝ} (hR : R.Valid) (u v : Bound 3) (huv : u ≤ v) : rayNodeDistance R v ≤ rayNodeDistance R u := by
  induction u using WithBot.recBotCoe with
  | bot => exact le_top
  | coe B =>
    induction v using WithBot.recBotCoe with
    | bot => exact absurd huv (by simp)
    | coe C => exact distance_antitone R hR B.2 C.2 ((VBox.le_iff B C).mp (WithBot.coe_le_coe.mp huv))

lemma Scene.stored (S : Scene 3) : S.input.stored = List.range S.geo.length := by
  unfold Input.stored
  exact List.map_id _

/-- A node is entered if the ray meets a value in it. -/
lemma Scene.rayNode_of_hit (h : S.Valid) {R : Ray ℝ} (hR : R.Valid) {i : ℕ} (hit : S.Hit R i) {v : Bound 3} (hv : S.input.vol i ≤ v) :
    rayNode R v = true := by
  obtain ⟨C, rfl, hC⟩ := leafBound_le (h.at i).valid hv
  exact (intersects_ray_box_partial R hR C.1 C.2).mpr (hit.mono (hits_mono hC))

/-! ## Property theorems -/

/-- **C71 (partial).** A query `intersects(ray)` on a tree of boxes calls the callback exactly once for each box which the ray meets, and for no other.
(Missing: directions with a negative zero, for which it is false; see `Geometry.intersects_ray_box_negative_zero`.) -/
theorem ray_query_boxes_partial (S : Scene 3) (h : S.Valid) (hb : S.Boxes) (tol : Tol) (R : Ray ℝ) (hR : R.Valid) (sched : List ℕ)
    (hf : S.input.Finished sched) (fuel : ℕ) (hfuel : 2 * S.geo.length ≤ fuel) :
    ∃ calls, Traversal.spatialQuery (S.input.build sched) (fun i => rayTest tol R (toReal (S.at i))) (rayNode R) (fun _ => false) fuel = .done calls ∧
      calls.Nodup ∧ ∀ i, i ∈ calls ↔ i < S.geo.length ∧ S.Hit R i := by
  have hiff : ∀ i < S.geo.length, (rayTest tol R (toReal (S.at i)) = true ↔ S.Hit R i) := by
    intro i hi
    obtain ⟨B, e⟩ := hb _ (S.at_mem hi)
    have hreg := h.at i
    unfold Scene.Hit
    rw [e] at hreg ⊢
    exact intersects_ray_box_partial R hR _ hreg
  obtain ⟨calls, h1, h2, h3⟩ := Traversal.spatial_query_any S.input h.input (fun i => rayTest tol R (toReal (S.at i))) (rayNode R)
  rw [S.stored] at h2 h3
  refine ⟨calls, h1 sched hf fuel hfuel, ?_, fun i => ⟨fun hi => ?_, fun ⟨hi, hit⟩ => ?_⟩⟩
  · obtain ⟨l, hl, hs⟩ := h2
    exact hl.nodup_iff.mp (hs.nodup (List.nodup_range.filter _))
  · have := h2.subset hi
    rw [List.mem_filter, List.mem_range] at this
    exact ⟨this.1, (hiff i this.1).mp this.2⟩
  · refine (h3 (fun j => decide (j = i)) (fun a ha => ?_)).subset ?_
    · obtain rfl := of_decide_eq_true ha
      exact ⟨(hiff a hi).mpr hit, fun v hv => S.rayNode_of_hit h hR hit hv⟩
    · rw [List.mem_filter, List.mem_range]
      exact ⟨hi, decide_eq_true rfl⟩

/-- **C71 (partial).** A query `intersects(ray)` on a tree of triangles and boxes calls the callback on no value twice, and misses no triangle which the ray
crosses or which it meets in the plane of the triangle, whatever the tolerances of the code. (Missing: triangles within the tolerance of the ray,
rays which start on an edge of a triangle, negative zeros, and the exclusion of triangles which the ray misses by a tolerance; see
`Geometry.ray_triangle_defect_small` and `Geometry.ray_triangle_defect_edge`.) -/
theorem ray_query_triangles_partial (S : Scene 3) (h : S.Valid) (tol : Tol) (ht1 : 0 ≤ tol.plane) (ht2 : 0 ≤ tol.edge) (R : Ray ℝ) (hR : R.Valid)
    (hu : dot R.dir R.dir = 1) (sched : List ℕ) (hf : S.input.Finished sched) (fuel : ℕ) (hfuel : 2 * S.geo.length ≤ fuel) :
    ∃ calls, Traversal.spatialQuery (S.input.build sched) (fun i => rayTest tol R (toReal (S.at i))) (rayNode R) (fun _ => false) fuel = .done calls ∧
      calls.Nodup ∧ (∀ i ∈ calls, i < S.geo.length ∧ rayTest tol R (toReal (S.at i)) = true) ∧
      ∀ i < S.geo.length, ∀ T, toReal (S.at i) = .triangle T → ¬ T.onEdge R.origin →
        (tol.plane * T.meanDistance R.origin ^ 2 < |dot T.normal R.dir| ∨ dot T.normal R.dir = 0) → S.Hit R i → i ∈ calls := by
  obtain ⟨calls, h1, h2, h3⟩ := Traversal.spatial_query_any S.input h.input (fun i => rayTest tol R (toReal (S.at i))) (rayNode R)
  rw [S.stored] at h2 h3
  refine ⟨calls, h1 sched hf fuel hfuel, ?_, fun i hi => ?_, fun i hi T hT ho hcase hit => ?_⟩
  · obtain ⟨l, hl, hs⟩ := h2
    exact hl.nodup_iff.mp (hs.nodup (List.nodup_range.filter _))
  · have := h2.subset hi
    rw [List.mem_filter, List.mem_range] at this
    exact this
  · refine (h3 (fun j => decide (j = i)) (fun a ha => ?_)).subset ?_
    · obtain rfl := of_decide_eq_true ha
      refine ⟨?_, fun v hv => S.rayNode_of_hit h hR hit hv⟩
      have hreg := h.at a
      unfold Scene.Hit at hit
      rw [hT] at hreg hit ⊢
      exact decide_eq_true (ray_triangle_no_miss_partial tol ht1 ht2 R hu T hreg ho hcase hit)
    · rw [List.mem_filter, List.mem_range]
      exact ⟨hi, decide_eq_true rfl⟩

/-- Without the tolerances, the result is exact for triangles and boxes. (Missing: the tolerances of the code; rays which start on an edge.) -/
theorem ray_query_exact_partial (S : Scene 3) (h : S.Valid) (hg : ∀ g ∈ S.geo, (∃ B, g = .box B) ∨ ∃ T, g = .triangle T) (R : Ray ℝ) (hR : R.Valid)
    (ho : ∀ i T, toReal (S.at i) = .triangle T → ¬ T.onEdge R.origin) (sched : List ℕ) (hf : S.input.Finished sched) (fuel : ℕ)
    (hfuel : 2 * S.geo.length ≤ fuel) :
    ∃ calls, Traversal.spatialQuery (S.input.build sched) (fun i => rayTest ⟨0, 0⟩ R (toReal (S.at i))) (rayNode R) (fun _ => false) fuel = .done calls ∧
      calls.Nodup ∧ ∀ i, i ∈ calls ↔ i < S.geo.length ∧ S.Hit R i := by
  have hd : ∃ d, R.dir d ≠ 0 := by
    by_contra hn
    push Not at hn
    exact hR.nonzero (funext hn)
  have hiff : ∀ i < S.geo.length, (rayTest ⟨0, 0⟩ R (toReal (S.at i)) = true ↔ S.Hit R i) := by
    intro i hi
    have hreg := h.at i
    have ho' := ho i
    unfold Scene.Hit
    rcases hg _ (S.at_mem hi) with ⟨B, e⟩ | ⟨T, e⟩ <;> rw [e] at hreg ho' ⊢
    · exact intersects_ray_box_partial R hR _ hreg
    · obtain ⟨r, e1, e2⟩ := ray_triangle_exact_partial R hd ⟨toRealPt T.a, toRealPt T.b, toRealPt T.c⟩ hreg (ho' _ rfl)
      show decide (intersectsRayTriangle ⟨0, 0⟩ R ⟨toRealPt T.a, toRealPt T.b, toRealPt T.c⟩ = some true) = true ↔ _
      rw [e1, decide_eq_true_eq, Option.some_inj]
      exact e2
  obtain ⟨calls, h1, h2, h3⟩ := Traversal.spatial_query_any S.input h.input (fun i => rayTest ⟨0, 0⟩ R (toReal (S.at i))) (rayNode R)
  rw [S.stored] at h2 h3
  refine ⟨calls, h1 sched hf fuel hfuel, ?_, fun i => ⟨fun hi => ?_, fun ⟨hi, hit⟩ => ?_⟩⟩
  · obtain ⟨l, hl, hs⟩ := h2
    exact hl.nodup_iff.mp (hs.nodup (List.nodup_range.filter _))
  · have := h2.subset hi
    rw [List.mem_filter, List.mem_range] at this
    exact ⟨this.1, (hiff i this.1).mp this.2⟩
  · refine (h3 (fun j => decide (j = i)) (fun a ha => ?_)).subset ?_
    · obtain rfl := of_decide_eq_true ha
      exact ⟨(hiff a hi).mpr hit, fun v hv => S.rayNode_of_hit h hR hit hv⟩
    · rw [List.mem_filter, List.mem_range]
      exact ⟨hi, decide_eq_true rfl⟩

/-- **C71 (partial).** A query `nearest(ray, k)` on a tree of boxes, of which there is not exactly one, calls the callback on the first `k` boxes on the way
of the ray, in the order in which the ray enters them, and on fewer only if the ray meets fewer. (Missing: a tree of one box, where it is
false, see `ray_nearest_single`; negative zeros; trees too deep for the stack.) -/
theorem ray_nearest_partial (S : Scene 3) (h : S.Valid) (hb : S.Boxes) (hn : S.geo.length ≠ 1) (R : Ray ℝ) (hR : R.Valid) (k : ℕ)
    (hcap : Nearest.StackFits S.input 64) (sched : List ℕ) (hf : S.input.Finished sched) (fuel : ℕ) (hfuel : 2 * S.geo.length ≤ fuel) :
    ∃ calls, Nearest.nearestQuery (S.input.build sched) (S.rayNearest R k) fuel = .done calls ∧ FirstHits S R k calls := by
  classical
  obtain ⟨calls, h1, hk⟩ := Nearest.nearest_query S.input h.input hn (S.rayNearest R k) (fun i v hv => S.rayNode_le h hR i v hv)
    (fun i => zero_le_rayDistance R _) hcap sched hf fuel hfuel
  have hlen := hk.length
  obtain ⟨om, h3, h4, h5, -, h7, -⟩ := hk
  rw [S.stored] at h3 hlen
  have hnd : (calls ++ om).Nodup := h3.nodup_iff.mpr List.nodup_range
  have hlt : ∀ i ∈ calls ++ om, i < S.geo.length := fun i hi => List.mem_range.mp (h3.mem_iff.mp hi)
  refine ⟨calls, h1, (List.nodup_append.mp hnd).1, fun i hi => ?_, ?_, ?_, fun i hi j hj hjn => ?_⟩
  · have := hlt i (List.mem_append_left _ hi)
    exact ⟨this, (S.rayDistance_lt h hb hR this).mp (h5 i hi)⟩
  · rw [hlen]
    congr 1
    rw [List.countP_eq_length_filter, ← List.toFinset_card_of_nodup (List.nodup_range.filter _)]
    congr 1
    ext i
    rw [List.mem_toFinset, List.mem_filter, List.mem_range, Finset.mem_filter, Finset.mem_range, decide_eq_true_eq]
    exact and_congr_right (fun hi => S.rayDistance_lt h hb hR hi)
  · exact List.Pairwise.imp_of_mem (fun {i j} hi hj hij =>
      S.noLater h hb hR (hlt i (List.mem_append_left _ hi)) (hlt j (List.mem_append_left _ hj)) hij) h4
  · have hjo : j ∈ om := by
      have : j ∈ calls ++ om := h3.mem_iff.mpr (List.mem_range.mpr hj)
      exact (List.mem_append.mp this).resolve_left hjn
    exact S.noLater h hb hR (hlt i (List.mem_append_left _ hi)) hj (h7 i hi j hjo)

/-- **C71 (partial).** A query `ordered_intersects(ray)` on a tree of boxes of which the ray meets no more than 65 disjoint subtrees (any ray if
there are at most 65 boxes, `Ordered.ordered_small`, and any ray that meets at most 130 nodes, `Ordered.ordered_few_hits`) calls the callback on
the boxes which the ray meets, all of them, in the order in which it enters them, followed by at most one box which it misses, until the callback
asks to stop. (Missing: the exclusion of the last call, and other trees; both are false, see `Ordered.ordered_spurious_call` and `Ordered.ordered_buffer_overflow`.) -/
theorem ray_ordered_partial (S : Scene 3) (h : S.Valid) (hb : S.Boxes) (R : Ray ℝ) (hR : R.Valid) (hcap : Ordered.BufferFits S.input (S.rayOrdered R)) :
    ∃ near extra : List ℕ, near.Nodup ∧ (∀ i, i ∈ near ↔ i < S.geo.length ∧ S.Hit R i) ∧ near.Pairwise (S.NoLater R) ∧
      extra.length ≤ 1 ∧ (∀ i ∈ extra, i < S.geo.length ∧ ¬ S.Hit R i) ∧
      ∀ sched, S.input.Finished sched → ∀ (stop : List ℕ → Bool) (fuel : ℕ), 2 * S.geo.length ≤ fuel →
      ∃ calls, Ordered.orderedQuery (S.input.build sched) (S.rayOrdered R) stop fuel = .done calls ∧ calls <+: near ++ extra ∧
        (∀ p, p <+: calls → p ≠ [] → p ≠ calls → stop p = false) ∧ (calls = near ++ extra ∨ stop calls = true) := by
  obtain ⟨near, extra, h1, h2, h3, h4, h5⟩ := Ordered.ordered_query_partial S.input h.input (S.rayOrdered R)
    ⟨fun i v hv => S.rayNode_le h hR i v hv, rayNode_anti hR⟩ (fun _ => le_top) hcap
  rw [S.stored] at h1 h4
  have hmem : ∀ i, i ∈ near ↔ i < S.geo.length ∧ S.Hit R i := by
    intro i
    rw [h1.mem_iff, List.mem_filter, List.mem_range, decide_eq_true_eq]
    exact and_congr_right (fun hi => S.rayDistance_lt h hb hR hi)
  refine ⟨near, extra, h1.nodup_iff.mpr (List.nodup_range.filter _), hmem, ?_, h3, fun i hi => ?_, h5⟩
  · exact List.Pairwise.imp_of_mem (fun {i j} hi hj hij => S.noLater h hb hR ((hmem i).mp hi).1 ((hmem j).mp hj).1 hij) h2
  · obtain ⟨h6, h7⟩ := h4 i hi
    rw [List.mem_range] at h6
    refine ⟨h6, fun hit => ?_⟩
    have h8 := (S.rayDistance_lt h hb hR h6).mpr hit
    exact (ne_of_lt h8) h7

/-! ## One box -/

/-- One box beside the ray. -/
def besideScene : Scene 3 where
  geo := [.box ⟨![1, 0, 0], ![2, 1, 1]⟩]
  M := 1000
  prec := 24
  red := .iter .init 0
  perm := fun i => i

/-- A ray from the origin along the third axis. -/
noncomputable def axisRay : Ray ℝ := ⟨![0, 0, 0], ![0, 0, 1], fun _ => false⟩

lemma axisRay_valid : axisRay.Valid :=
  ⟨fun h => by have := congrFun h 2; simp [axisRay] at this, fun _ _ => rfl⟩

theorem besideScene_valid : besideScene.Valid where
  dim2 := by norm_num
  dim10 := by norm_num
  prec := le_rfl
  fits := by decide
  sorted := by
    refine ⟨?_, ?_⟩
    · show ((List.range 1).map (fun i => i)).Perm (List.range 1)
      rw [List.map_id']
    · intro i hi
      have hi' : i + 1 < 1 := hi
      omega
  regular := by
    intro g hg
    simp only [besideScene, List.mem_cons, List.not_mem_nil, or_false] at hg
    subst hg
    intro d; fin_cases d <;> simp [toRealPt]

/-- **C71 is false of a tree of one box**: the ray misses the box, and `nearest(ray, 1)` returns it. -/
theorem ray_nearest_single : besideScene.Valid ∧ besideScene.Boxes ∧ axisRay.Valid ∧ ¬ besideScene.Hit axisRay 0 ∧
    ∀ sched fuel, Nearest.nearestQuery (besideScene.input.build sched) (besideScene.rayNearest axisRay 1) fuel = .done [0] := by
  refine ⟨besideScene_valid, fun g hg => ?_, axisRay_valid, ?_, fun sched fuel => ?_⟩
  · simp only [besideScene, List.mem_cons, List.not_mem_nil, or_false] at hg
    exact ⟨_, hg⟩
  · rintro ⟨t, -, ht⟩
    have := (ht 0).1
    simp [axisRay, toRealPt] at this
    linarith
  · rw [Nearest.nearest_query_single besideScene.input rfl]
    rfl

/-! ## Non-vacuity -/

/-- A box behind another one. -/
def rayScene : Scene 3 where
  geo := [.box ⟨![-1, -1, 1], ![1, 1, 2]⟩, .box ⟨![-1, -1, 5], ![1, 1, 6]⟩]
  M := 1000
  prec := 24
  red := .iter (.iter .init 0) 1
  perm := fun i => i

example : rayScene.code 0 < rayScene.code 1 := by decide +kernel

theorem rayScene_valid : rayScene.Valid where
  dim2 := by norm_num
  dim10 := by norm_num
  prec := le_rfl
  fits := by decide
  sorted := by
    refine ⟨?_, ?_⟩
    · show ((List.range 2).map (fun i => i)).Perm (List.range 2)
      rw [List.map_id']
    · intro i hi
      have hi' : i + 1 < 2 := hi
      have h01 : rayScene.code 0 ≤ rayScene.code 1 := by decide +kernel
      obtain rfl : i = 0 := by omega
      exact h01
  regular := by
    intro g hg
    simp only [rayScene, List.mem_cons, List.not_mem_nil, or_false] at hg
    rcases hg with rfl | rfl <;> (intro d; fin_cases d <;> simp [toRealPt] <;> norm_num)

/-- The hypotheses of the theorems on boxes are met, and the ray meets both boxes, one at 1 and one at 5. -/
example : rayScene.Boxes ∧ rayScene.geo.length ≠ 1 ∧ Nearest.StackFits rayScene.input 64 ∧ rayScene.Hit axisRay 0 ∧ rayScene.Hit axisRay 1 := by
  refine ⟨fun g hg => ?_, by decide, fun T hT => Nearest.stack_suffices_small rayScene.input (by decide) (by decide) T hT, ⟨1, by norm_num, fun d => ?_⟩,
    ⟨5, by norm_num, fun d => ?_⟩⟩
  · simp only [rayScene, List.mem_cons, List.not_mem_nil, or_false] at hg
    rcases hg with rfl | rfl <;> exact ⟨_, rfl⟩
  · fin_cases d <;> simp [axisRay, toRealPt]
  · fin_cases d <;> simp [axisRay, toRealPt] <;> norm_num

end ArborX.Euclid
