import Verif.DistDbscan.Assemble
import Verif.DistDbscan.Euclid

/-!
# Property theorems: the distributed DBSCAN (C48)
-/

namespace ArborX.DistDbscan

open Distributed BVH Traversal Dbscan Views

variable {X V : Type} {w : ℕ} [SemilatticeSup V] [OrderBot V]

/-- **C48, partial.** For every number of processes, every distribution of the points and every execution in which the noise ghosts are dropped
without a race (C49): the function ends, and gives a label to every point. The points labelled -1 are exactly those that are noise among the points of all
processes; points with the same other label belong to the same cluster of all points (`Anchor`: a core point belongs to itself, another
point to the core points near it). Missing: points of the same cluster may have different labels, see `distributed_dbscan_defect`. -/
theorem distributed_dbscan_sound_partial (D : In X V) (hD : D.Geometry) (h2 : 2 ≤ D.minPts) (star : Bool) (E : XEnv X w) (hE : E.Valid D)
    (hL : E.Local D star) (hc : ∀ r n, InOrder (E.csched r n)) (queryFuel : ℕ) (hq : 2 * D.P ≤ queryFuel) :
    ∃ N, ∀ fuel ≥ N, ∃ res, D.dbscan E queryFuel fuel = some res ∧ (∀ r < D.P, (res r).length = (D.points r).length) ∧
      let lab := labelAt ((List.range D.P).flatMap res)
      let near := nearOf D.near D.all
      (∀ g < D.all.length, lab g = -1 ↔ ¬ Core D.all.length near D.minPts g ∧ (star = true ∨ ¬ NearCore D.all.length near D.minPts g)) ∧
      (∀ g < D.all.length, Core D.all.length near D.minPts g → 0 ≤ lab g) ∧
      ∀ g < D.all.length, ∀ h < D.all.length, lab g ≠ -1 → lab g = lab h →
        ∃ b b', Anchor D.all.length near D.minPts g b ∧ Anchor D.all.length near D.minPts h b' ∧ Chained D.all.length near D.minPts b b' := by
  obtain ⟨N, res, h1, h2', h3, h4, h5, -⟩ := dbscan_run D hD h2 star E hE hL hc queryFuel hq
  refine ⟨N, fun fuel hf => ?_⟩
  obtain ⟨res', k1, k2⟩ := h1 fuel hf
  have hcat : (List.range D.P).flatMap res' = (List.range D.P).flatMap res :=
    List.flatMap_congr (fun r hr => k2 r (List.mem_range.mp hr))
  refine ⟨res', k1, fun r hr => by rw [k2 r hr]; exact h2' r hr, ?_⟩
  simp only [hcat]
  exact ⟨h3, h4, h5⟩

/-- **C48, partial.** If in addition every cluster of all points has at most three different labels before the merge (in particular if no cluster extends
over more than three processes that each see one part of it), then the result is a DBSCAN (DBSCAN*) clustering of the points of all processes.
Missing: this is false without the additional condition, see `distributed_dbscan_defect`. -/
theorem distributed_dbscan_partial (D : In X V) (hD : D.Geometry) (h2 : 2 ≤ D.minPts) (star : Bool) (E : XEnv X w) (hE : E.Valid D)
    (hL : E.Local D star) (hc : ∀ r n, InOrder (E.csched r n)) (queryFuel : ℕ) (hq : 2 * D.P ≤ queryFuel) (hfew : D.FewLabels E queryFuel) :
    ∃ N, ∀ fuel ≥ N, ∃ res, D.dbscan E queryFuel fuel = some res ∧ (∀ r < D.P, (res r).length = (D.points r).length) ∧
      IsClustering star D.all.length (nearOf D.near D.all) D.minPts (labelAt ((List.range D.P).flatMap res)) := by
  obtain ⟨N, res, h1, h2', -, -, -, h6⟩ := dbscan_run D hD h2 star E hE hL hc queryFuel hq
  refine ⟨N, fun fuel hf => ?_⟩
  obtain ⟨res', k1, k2⟩ := h1 fuel hf
  have hcat : (List.range D.P).flatMap res' = (List.range D.P).flatMap res :=
    List.flatMap_congr (fun r hr => k2 r (List.mem_range.mp hr))
  refine ⟨res', k1, fun r hr => by rw [k2 r hr]; exact h2' r hr, ?_⟩
  rw [hcat]
  exact h6 hfew

end ArborX.DistDbscan
