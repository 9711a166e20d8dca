import Verif.Euclid.Rays
import Verif.Geometry.RayExact

/-!
# Rays with negative zeros cast into trees of boxes (C71)
-/

namespace ArborX.Euclid

open Geometry BVH

/-- **C71, negative zeros.** A query `intersects(ray)` on a tree of boxes, for every direction that is not null: each box reported is met by the ray
and reported once, but no box is reported for which a component of the direction is a negative zero and the origin is not on the lower face of the
box in this dimension, although the ray may meet it. -/
theorem ray_query_negative_zero (S : Scene 3) (h : S.Valid) (hb : S.Boxes) (tol : Tol) (R : Ray ℝ) (hR : R.dir ≠ 0) (sched : List ℕ)
    (hf : S.input.Finished sched) (fuel : ℕ) (hfuel : 2 * S.geo.length ≤ fuel) :
    ∃ calls, Traversal.spatialQuery (S.input.build sched) (fun i => rayTest tol R (toReal (S.at i))) (rayNode R) (fun _ => false) fuel = .done calls ∧
      calls.Nodup ∧ ∀ i ∈ calls, i < S.geo.length ∧ S.Hit R i ∧
        ∀ B, toReal (S.at i) = .box B → ∀ d, R.dir d = 0 → R.negZero d = true → R.origin d = B.lo d := by
  obtain ⟨calls, h1, h2, -⟩ := Traversal.spatial_query_any S.input h.input (fun i => rayTest tol R (toReal (S.at i))) (rayNode R)
  rw [S.stored] at h2
  refine ⟨calls, h1 sched hf fuel hfuel, ?_, fun i hi => ?_⟩
  · obtain ⟨l, hl, hs⟩ := h2
    exact hl.nodup_iff.mp (hs.nodup (List.nodup_range.filter _))
  · have hm := h2.subset hi
    rw [List.mem_filter, List.mem_range] at hm
    obtain ⟨hlt, ht⟩ := hm
    obtain ⟨B, e⟩ := hb _ (S.at_mem hlt)
    have hreg := h.at i
    unfold Scene.Hit
    rw [e] at hreg ht ⊢
    obtain ⟨hh, hn⟩ := (intersects_ray_box_exact R hR _ hreg).mp ht
    refine ⟨hlt, hh, fun C hC d h0 hs => ?_⟩
    obtain rfl := Geom.box.inj hC
    by_contra hne
    exact hn ⟨d, h0, hs, hne⟩

/-- **C71 is false for negative zeros.** If no box has its lower face through the origin of the ray in a dimension where the direction is a negative zero,
the query finds nothing, whatever the ray meets. -/
theorem ray_query_negative_zero_nothing (S : Scene 3) (h : S.Valid) (hb : S.Boxes) (tol : Tol) (R : Ray ℝ) (hR : R.dir ≠ 0) (d : Fin 3)
    (h0 : R.dir d = 0) (hs : R.negZero d = true) (ho : ∀ i B, toReal (S.at i) = .box B → R.origin d ≠ B.lo d) (sched : List ℕ)
    (hf : S.input.Finished sched) (fuel : ℕ) (hfuel : 2 * S.geo.length ≤ fuel) :
    Traversal.spatialQuery (S.input.build sched) (fun i => rayTest tol R (toReal (S.at i))) (rayNode R) (fun _ => false) fuel = .done [] := by
  obtain ⟨calls, h1, -, h3⟩ := ray_query_negative_zero S h hb tol R hR sched hf fuel hfuel
  rw [h1]
  congr 1
  refine List.eq_nil_iff_forall_not_mem.mpr (fun i hi => ?_)
  obtain ⟨hlt, -, h5⟩ := h3 i hi
  obtain ⟨B, e⟩ := hb _ (S.at_mem hlt)
  have e' : toReal (S.at i) = .box ⟨toRealPt B.lo, toRealPt B.hi⟩ := by
    show toReal (S.at i) = _
    rw [e]; rfl
  exact ho i _ e' (h5 _ e' d h0 hs)

/-! ## Non-vacuity -/

/-- The ray along the third axis with a negative zero: it meets both boxes of `rayScene`, and the hypotheses of both theorems are met. -/
example : let R : Ray ℝ := ⟨![0, 0, 0], ![0, 0, 1], ![true, false, false]⟩
    R.dir ≠ 0 ∧ R.dir 0 = 0 ∧ R.negZero 0 = true ∧ rayScene.Hit R 0 ∧ rayScene.Hit R 1 ∧ ∀ i B, toReal (rayScene.at i) = .box B → R.origin 0 ≠ B.lo 0 := by
  refine ⟨fun h => by have := congrFun h 2; simp at this, rfl, rfl, ⟨1, by norm_num, fun d => ?_⟩, ⟨5, by norm_num, fun d => ?_⟩, fun i B e => ?_⟩
  · fin_cases d <;> simp [toRealPt]
  · fin_cases d <;> simp [toRealPt] <;> norm_num
  · rcases (by omega : i = 0 ∨ i = 1 ∨ 2 ≤ i) with rfl | rfl | hi
    · obtain rfl := Geom.box.inj e
      simp [toRealPt]
    · obtain rfl := Geom.box.inj e
      simp [toRealPt]
    · have : rayScene.at i = .point 0 := List.getD_eq_default _ _ hi
      rw [this] at e
      cases e

end ArborX.Euclid
