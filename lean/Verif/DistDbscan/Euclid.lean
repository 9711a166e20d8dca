import Verif.DistDbscan.Ghosts
import Verif.Geometry.Lattice

/-!
# The distributed DBSCAN for points with real coordinates (C48)
-/

namespace ArborX.DistDbscan

open Geometry

/-- The arguments of `dbscan` for points of the `d`-dimensional space; `radius` is the forwarding radius
(`ArborX_DistributedDBSCAN.hpp` 74-77). -/
noncomputable def euclid (d P : ℕ) (points : ℕ → List (Pt ℝ d)) (eps radius : ℝ) (minPts : ℕ) : In (Pt ℝ d) (Bound d) where
  P := P
  points := points
  near p q := decide (distancePoint p q ≤ eps)
  hit p v := v.hits p radius
  close u v := Bound.close radius u v
  boxOf p := (ptBox p : Bound d)
  minPts := minPts

/-- The conditions on the geometry are met if the forwarding radius is at least `eps`, and at least `2 eps` if `core_min_size > 2`. -/
theorem euclid_geometry (d P : ℕ) (points : ℕ → List (Pt ℝ d)) (eps radius : ℝ) (minPts : ℕ) (h0 : 0 ≤ eps) (h1 : eps ≤ radius)
    (h2 : minPts ≠ 2 → 2 * eps ≤ radius) : (euclid d P points eps radius minPts).Geometry where
  symm p q := by
    simp only [euclid, distancePoint_eq, edist_comm]
  refl p := by
    simp only [euclid, distancePoint_eq, edist_self, decide_eq_true_eq]
    exact h0
  hit_mono p u v huv h := by
    simp only [euclid, Bound.hits_iff] at *
    obtain ⟨x, hx, hr⟩ := h
    exact ⟨x, Bound.set_mono huv hx, hr⟩
  close p u v hp h := by
    simp only [euclid, Bound.hits_iff, Bound.close_iff] at *
    obtain ⟨x, hx, hr⟩ := h
    exact ⟨x, hx, p, mem_of_ptBox_le hp, by rw [edist_comm]; exact hr⟩
  one p q v hpq hq := by
    simp only [euclid, Bound.hits_iff, distancePoint_eq, decide_eq_true_eq] at *
    exact ⟨q, mem_of_ptBox_le hq, hpq.trans h1⟩
  two hne p _ q _ x _ v hpq hqx hx := by
    simp only [euclid, Bound.hits_iff, distancePoint_eq, decide_eq_true_eq] at *
    refine ⟨x, mem_of_ptBox_le hx, (Geometry.edist_triangle p q x).trans ?_⟩
    have := h2 hne
    linarith

end ArborX.DistDbscan
