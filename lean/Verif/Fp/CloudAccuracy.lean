import Verif.Fp.Cloud

/-!
# Clusters and spanning trees computed in floating-point arithmetic, compared with the Euclidean ones (C67, C68)
-/

namespace ArborX.Dbscan

variable {n : ℕ} {near near' : ℕ → ℕ → Bool} {minPts : ℕ}

lemma core_congr (h : ∀ i < n, ∀ j < n, near i j = near' i j) {i : ℕ} (hi : i < n) : Core n near minPts i ↔ Core n near' minPts i := by
  unfold Core
  rw [List.filter_congr (fun j hj => h i hi j (List.mem_range.mp hj))]

lemma linked_congr (h : ∀ i < n, ∀ j < n, near i j = near' i j) : Linked n near minPts = Linked n near' minPts := by
  funext i j
  unfold Linked
  refine propext (and_congr_right fun hi => and_congr_right fun hj => ?_)
  rw [core_congr h hi, core_congr h hj, h i hi j hj]

lemma nearCore_congr (h : ∀ i < n, ∀ j < n, near i j = near' i j) {i : ℕ} (hi : i < n) : NearCore n near minPts i ↔ NearCore n near' minPts i := by
  unfold NearCore
  refine exists_congr fun j => and_congr_right fun hj => ?_
  rw [core_congr h hj, h i hi j hj]

/-- Neighbourhoods that agree on the points have the same clusterings. -/
lemma IsDBSCAN.congr_near (h : ∀ i < n, ∀ j < n, near i j = near' i j) {lab : ℕ → ℤ} (H : IsDBSCAN n near minPts lab) : IsDBSCAN n near' minPts lab where
  core i hi hc := H.core i hi ((core_congr h hi).mpr hc)
  clusters i hi j hj hci hcj := by
    rw [H.clusters i hi j hj ((core_congr h hi).mpr hci) ((core_congr h hj).mpr hcj)]
    unfold Chained
    rw [linked_congr h]
  border i hi hc hn := by
    obtain ⟨j, hj, h1, h2, h3⟩ := H.border i hi (fun hc' => hc ((core_congr h hi).mp hc')) ((nearCore_congr h hi).mpr hn)
    exact ⟨j, hj, (core_congr h hj).mp h1, by rw [← h i hi j hj]; exact h2, h3⟩
  noise i hi hc hn := H.noise i hi (fun hc' => hc ((core_congr h hi).mp hc')) (fun hn' => hn ((nearCore_congr h hi).mp hn'))

lemma IsDBSCANStar.congr_near (h : ∀ i < n, ∀ j < n, near i j = near' i j) {lab : ℕ → ℤ} (H : IsDBSCANStar n near minPts lab) :
    IsDBSCANStar n near' minPts lab where
  core i hi hc := H.core i hi ((core_congr h hi).mpr hc)
  clusters i hi j hj hci hcj := by
    rw [H.clusters i hi j hj ((core_congr h hi).mpr hci) ((core_congr h hj).mpr hcj)]
    unfold Chained
    rw [linked_congr h]
  noise i hi hc := H.noise i hi (fun hc' => hc ((core_congr h hi).mp hc'))

end ArborX.Dbscan

namespace ArborX.Fp

open Geometry BVH Euclid

variable {D : ℕ}

/-- **C67.** If no distance of two points is within rounding of `eps`, then `dbscan` in floating-point arithmetic returns a clustering for the Euclidean
distances. -/
theorem dbscan_float_clear (A : Cloud D) (hA : A.Valid) {F : Format} {u lo hi : ℝ} (hF : F.Accurate u lo hi) (eps : ℝ) (heps : 0 < eps)
    (hclear : A.Clear u lo hi eps) (minPts : ℕ) (hmin : 2 ≤ minPts)
    (chunks : List (List ℕ)) (hchunks : chunks.flatten.Perm (List.range A.pts.length)) (serial : Bool) (hserial : serial = true → chunks.length ≤ 1)
    (star : Bool) (schedB : List ℕ) (hB : A.scene.input.Finished schedB) (fuel : ℕ) (hfuel : 2 * A.pts.length ≤ fuel) (schedU schedF : List ℕ) :
    (A.dbscan F eps minPts star chunks serial).fdbscan fuel schedB schedU schedF = .running ∨
    ∃ l, (A.dbscan F eps minPts star chunks serial).fdbscan fuel schedB schedU schedF = .labels l ∧ l.length = A.pts.length ∧
      (star = false → Dbscan.IsDBSCAN A.pts.length (A.ewithin eps) minPts (Dbscan.labelOf l)) ∧
      (star = true → Dbscan.IsDBSCANStar A.pts.length (A.ewithin eps) minPts (Dbscan.labelOf l)) := by
  have hw : ∀ i < A.pts.length, ∀ j < A.pts.length, A.within F eps i j = A.ewithin eps i j := fun i hi' j hj => hclear.within heps.le hF hi' hj
  rcases dbscan_float A hA F eps heps minPts hmin chunks hchunks serial hserial star schedB hB fuel hfuel schedU schedF with h | ⟨l, h1, h2, h3, h4, -⟩
  · exact .inl h
  · exact .inr ⟨l, h1, h2, fun hs => (h3 hs).congr_near hw, fun hs => (h4 hs).congr_near hw⟩

lemma sum_ofReal_mono {ι : Type} (l : List ι) {f : ι → EReal} {g : ι → ℝ} (h : ∀ x ∈ l, ENNReal.ofReal (g x) ≤ (f x).toENNReal) :
    (l.map (fun x => ENNReal.ofReal (g x))).sum ≤ (l.map (fun x => (f x).toENNReal)).sum := by
  induction l with
  | nil => exact le_rfl
  | cons a l ih =>
    simp only [List.map_cons, List.sum_cons]
    exact add_le_add (h a List.mem_cons_self) (ih fun x hx => h x (List.mem_cons_of_mem _ hx))

lemma sum_ofReal_mono' {ι : Type} (l : List ι) {f : ι → EReal} {g : ι → ℝ} (h : ∀ x ∈ l, (f x).toENNReal ≤ ENNReal.ofReal (g x)) :
    (l.map (fun x => (f x).toENNReal)).sum ≤ (l.map (fun x => ENNReal.ofReal (g x))).sum := by
  induction l with
  | nil => exact le_rfl
  | cons a l ih =>
    simp only [List.map_cons, List.sum_cons]
    exact add_le_add (h a List.mem_cons_self) (ih fun x hx => h x (List.mem_cons_of_mem _ hx))

/-- **C68.** A minimum spanning tree for the computed distances has, up to rounding, the smallest total Euclidean length: the squares of the two factors
are `(1 - u) ^ (D + 5)` and `(1 + u) ^ (D + 5)`. -/
theorem mst_float_accuracy (A : Cloud D) {F : Format} {u lo hi : ℝ} (hF : F.Accurate u lo hi)
    (hrange : ∀ i < A.pts.length, ∀ j < A.pts.length, InRange u lo hi (A.pt i) (A.pt j))
    (E : List (Mst.WeightedEdge EReal)) (hE : Mst.IsMst A.pts.length (A.dist F) E)
    (T : List (ℕ × ℕ)) (hT : ∀ e ∈ T, e.1 < A.pts.length ∧ e.2 < A.pts.length) (hconn : Graph.Connects A.pts.length T) :
    Real.sqrt ((1 - u) ^ (D + 5)) * (E.map (fun e => A.edist e.source e.target)).sum ≤
      Real.sqrt ((1 + u) ^ (D + 5)) * (T.map (fun e => A.edist e.1 e.2)).sum := by
  have hu0 := hF.u0
  have hu1 := hF.u1
  have key : ∀ i < A.pts.length, ∀ j < A.pts.length, ∃ x : ℝ, A.dist F i j = x ∧ 0 ≤ x ∧
      Real.sqrt ((1 - u) ^ (D + 5)) * A.edist i j ≤ x ∧ x ≤ Real.sqrt ((1 + u) ^ (D + 5)) * A.edist i j := by
    intro i hi' j hj
    obtain ⟨x, ex, x0, l1, l2⟩ := distance_accuracy hF _ _ (hrange i hi' j hj)
    have hd : 0 ≤ A.edist i j := Geometry.edist_nonneg _ _
    refine ⟨x, ex, x0, ?_, ?_⟩
    · refine (abs_le_of_sq_le_sq' ?_ x0).2
      rw [mul_pow, Real.sq_sqrt (pow_nonneg (by linarith) _)]
      exact l1
    · refine (abs_le_of_sq_le_sq' ?_ (mul_nonneg (Real.sqrt_nonneg _) hd)).2
      rw [mul_pow, Real.sq_sqrt (pow_nonneg (by linarith) _)]
      exact l2
  have hmono : Monotone (fun x : EReal => x.toENNReal) := fun x y hxy => EReal.toENNReal_le_toENNReal hxy
  have h := hE.minimal T hT hconn ENNReal (fun x => x.toENNReal) hmono (fun _ => zero_le)
  have hEv : ∀ e ∈ E, e.source < A.pts.length ∧ e.target < A.pts.length := by
    intro e he
    exact hE.tree.1 (e.source, e.target) (List.mem_map.mpr ⟨e, he, rfl⟩)
  have h1 := sum_ofReal_mono E (f := fun e => e.weight) (g := fun e => Real.sqrt ((1 - u) ^ (D + 5)) * A.edist e.source e.target) (by
    intro e he
    obtain ⟨hs, ht⟩ := hEv e he
    obtain ⟨x, ex, -, l1, -⟩ := key _ hs _ ht
    rw [(hE.weights e he).2, ex, EReal.real_coe_toENNReal]
    exact ENNReal.ofReal_le_ofReal l1)
  have h2 := sum_ofReal_mono' T (f := fun e => A.dist F e.1 e.2) (g := fun e => Real.sqrt ((1 + u) ^ (D + 5)) * A.edist e.1 e.2) (by
    intro e he
    obtain ⟨hs, ht⟩ := hT e he
    obtain ⟨x, ex, -, -, l2⟩ := key _ hs _ ht
    rw [ex, EReal.real_coe_toENNReal]
    exact ENNReal.ofReal_le_ofReal l2)
  have h3 := (h1.trans h).trans h2
  have hd : ∀ i j, 0 ≤ A.edist i j := fun i j => Geometry.edist_nonneg _ _
  rw [ofReal_sum E _ (fun e => mul_nonneg (Real.sqrt_nonneg _) (hd _ _)), ofReal_sum T _ (fun e => mul_nonneg (Real.sqrt_nonneg _) (hd _ _)),
    ENNReal.ofReal_le_ofReal_iff, List.sum_map_mul_left, List.sum_map_mul_left] at h3
  · exact h3
  · refine List.sum_nonneg ?_
    simp only [List.mem_map]
    rintro _ ⟨e, -, rfl⟩
    exact mul_nonneg (Real.sqrt_nonneg _) (hd _ _)

end ArborX.Fp
