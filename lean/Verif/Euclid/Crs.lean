import Verif.Euclid.Theorems
import Verif.Crs.Theorems

/-!
# Property theorems: queries with storage on trees of geometries (C63)
-/

namespace ArborX.Euclid

open Geometry BVH

variable {D : ℕ}

/-- **C63.** `bvh.query(space, predicates, values, offset)` with `n` predicates `intersects(Q j)` on a tree of geometries, built under any schedule:
one row for each predicate, in the order of the predicates, that holds each stored geometry with a point in common with `Q j` once and nothing
else; with any buffer size and previous content of `values`, with and without sorting of the predicates, whatever the order in which the threads
write. -/
theorem crs_spatial_geometry (S : Scene D) (h : S.Valid) (bsched : List ℕ) (hf : S.input.Finished bsched) (n : ℕ) (Q : ℕ → Geom ℝ D)
    (hQ : ∀ j < n, Regular (Q j) ∧ S.CanIntersect (Q j)) {permute : ℕ → ℕ} (hp : Crs.IsPerm n permute) (bufferSize : ℤ) (hb : 0 ≤ bufferSize)
    (ks : ℕ → ℕ) (userLen : ℕ) (userOut : ℕ → Option ℕ) (fuel : ℕ) (hfuel : 2 * S.geo.length ≤ fuel) :
    ∃ calls : ℕ → List ℕ,
      (∀ j < n, Traversal.spatialQuery (S.input.build bsched) (S.leafTest (Q j)) (nodeTest (Q j)) (fun _ => false) fuel = .done (calls j)) ∧
      ∀ sched1 sched2, Crs.Fair n (fun i => (calls (permute i)).map (fun v => (i, v))) sched1 →
        Crs.Fair n (fun i => (calls (permute i)).map (fun v => (i, v))) sched2 →
      ∃ rows offset out, Crs.query .spatial bufferSize ks userLen userOut n (fun i => (calls (permute i)).map (fun v => (i, v))) n permute
          sched1 sched2 = .done offset out ∧
        Crs.IsCrs n rows offset out ∧
        ∀ j < n, (rows j).Nodup ∧ ∀ i, i ∈ rows j ↔ i < S.geo.length ∧ ((Q j).set ∩ (toReal (S.at i)).set).Nonempty := by
  obtain ⟨calls, h1, h2⟩ := Crs.crs_spatial S.input h.input bsched hf n (fun j => S.leafTest (Q j)) (fun j => nodeTest (Q j))
    (fun j hj => S.monotone h (hQ j hj).1 (hQ j hj).2) hp bufferSize hb ks userLen userOut fuel hfuel
  refine ⟨calls, h1, fun sched1 sched2 f1 f2 => ?_⟩
  obtain ⟨rows, offset, out, h3, h4, h5⟩ := h2 sched1 sched2 f1 f2
  refine ⟨rows, offset, out, h3, h4, fun j hj => ?_⟩
  have h6 := h5 j hj
  have hst : S.input.stored = List.range S.geo.length := by
    unfold Input.stored
    exact List.map_id _
  rw [hst] at h6
  refine ⟨h6.nodup_iff.mpr (List.nodup_range.filter _), fun i => ?_⟩
  rw [h6.mem_iff, List.mem_filter, List.mem_range]
  exact and_congr_right (fun hi => S.leafTest_iff h (hQ j hj).1 ((hQ j hj).2.2 _ (S.at_mem hi)))

/-- **C63.** The same with predicates `nearest(Q j, k j)`: row `j` holds the `min (k j) m` nearest of the `m` stored geometries, nearest first. -/
theorem crs_nearest_geometry (S : Scene D) (h : S.Valid) (hcap : Nearest.StackFits S.input 64) (bsched : List ℕ)
    (hf : S.input.Finished bsched) (n : ℕ) (Q : ℕ → Geom ℝ D) (k : ℕ → ℕ) (hQ : ∀ j < n, Regular (Q j) ∧ S.HasDistance (Q j))
    {permute : ℕ → ℕ} (hp : Crs.IsPerm n permute) (bufferSize : ℤ) (userLen : ℕ) (userOut : ℕ → Option ℕ) (fuel : ℕ)
    (hfuel : 2 * S.geo.length ≤ fuel) :
    ∃ calls : ℕ → List ℕ,
      (∀ j < n, Nearest.nearestQuery (S.input.build bsched) (S.nearest (Q j) (k j)) fuel = .done (calls j)) ∧
      ∀ sched1 sched2, Crs.Fair n (fun i => (calls (permute i)).map (fun v => (i, v))) sched1 →
        Crs.Fair n (fun i => (calls (permute i)).map (fun v => (i, v))) sched2 →
      ∃ rows offset out, Crs.query .nearest bufferSize k userLen userOut n (fun i => (calls (permute i)).map (fun v => (i, v))) n permute
          sched1 sched2 = .done offset out ∧
        Crs.IsCrs n rows offset out ∧ ∀ j < n, NearestOf S (Q j) (k j) (rows j) := by
  have : ∀ j, ∃ c : List ℕ, j < n → Nearest.nearestQuery (S.input.build bsched) (S.nearest (Q j) (k j)) fuel = .done c ∧ NearestOf S (Q j) (k j) c := by
    intro j
    by_cases hj : j < n
    · obtain ⟨c, hc⟩ := nearest_query_geometry S h (Q j) (hQ j hj).1 (hQ j hj).2 (k j) hcap bsched hf fuel hfuel
      exact ⟨c, fun _ => hc⟩
    · exact ⟨[], fun h => absurd h hj⟩
  choose calls hc using this
  refine ⟨calls, fun j hj => (hc j hj).1, fun sched1 sched2 f1 f2 => ?_⟩
  obtain ⟨offset, out, e1, e2⟩ := Crs.crs_query_bvh calls hp .nearest bufferSize k userLen userOut sched1 sched2 f1 f2 (by rintro ⟨h, -⟩; cases h)
  exact ⟨calls, offset, out, e1, e2, fun j hj => (hc j hj).2⟩

/-! ## Non-vacuity: two balls as queries, in exchanged order -/

/-- the queries of the example -/
noncomputable def exampleQueries (j : ℕ) : Geom ℝ 2 := .sphere ⟨![0, 0], if j = 0 then 1 else 2⟩

example : Crs.IsPerm 2 (fun i => 1 - i) ∧
    ∀ j < 2, Regular (exampleQueries j) ∧ exampleScene.CanIntersect (exampleQueries j) := by
  refine ⟨by unfold Crs.IsPerm; decide, fun j _ => ⟨?_, fun B => rfl, fun g hg => ?_⟩⟩
  · show (0 : ℝ) ≤ if j = 0 then 1 else 2
    split <;> norm_num
  · simp only [exampleScene, List.mem_cons, List.not_mem_nil, or_false] at hg
    rcases hg with rfl | rfl | rfl <;> rfl

example : ∀ j : ℕ, j < 2 → Regular (Geom.box ⟨![0, 0], ![1, (j : ℝ)]⟩ : Geom ℝ 2) ∧ exampleScene.HasDistance (.box ⟨![0, 0], ![1, (j : ℝ)]⟩) := by
  refine fun j _ => ⟨fun d => by fin_cases d <;> simp, fun B => rfl, fun g hg => ?_⟩
  simp only [exampleScene, List.mem_cons, List.not_mem_nil, or_false] at hg
  rcases hg with rfl | rfl | rfl <;> rfl

end ArborX.Euclid
