import Verif.Euclid.Hdbscan
import Verif.Fp.Examples

/-!
# Property theorems: the relations between clusterings (C88)

`dbscan` and `hdbscan` on the same points, and `dbscan` with different parameters.
-/

namespace ArborX.Hdbscan

open Dendrogram (Above)

variable {W : Type} [LinearOrder W] {n : ℕ} {d : ℕ → ℕ → W} {core : ℕ → W} {k : ℕ} {eps : W}

/-! ## Specification -/

/-- The points `u` and `v` are merged in the dendrogram at a height of at most `t`. -/
def Merged (n : ℕ) (parents : ℕ → Option ℤ) (heights : ℕ → Option W) (t : W) (u v : ℕ) : Prop :=
  ∃ e < n - 1, ∃ a ≤ t, heights e = some a ∧ Above parents e (n - 1 + u) ∧ Above parents e (n - 1 + v)

/-! ## Lemmas -/

/-- The core distance is at most `eps` exactly for the core points. -/
lemma core_iff {p : ℕ} {r : W} (hkn : k ≤ n) (hc : Mst.IsCore d n k p r) : r ≤ eps ↔ Dbscan.Core n (fun i j => decide (d i j ≤ eps)) k p := by
  obtain ⟨h1, h2⟩ := hc
  rw [min_eq_left hkn] at h1 h2
  unfold Dbscan.Core
  rw [← List.countP_eq_length_filter]
  constructor
  · intro hr
    refine h1.trans ?_
    unfold Mst.within
    exact List.countP_mono_left fun q _ hq => by
      rw [decide_eq_true_eq] at hq ⊢
      exact hq.trans hr
  · intro hk
    by_contra hn
    exact absurd (h2 eps (not_le.mp hn)) (not_lt.mpr hk)

/-- One step of single linkage for the mutual reachability distance. -/
lemma reach_iff (hkn : k ≤ n) (hc : ∀ p < n, Mst.IsCore d n k p (core p)) (a b : ℕ) :
    (a < n ∧ b < n ∧ Mst.mutualReach d core a b ≤ eps) ↔ Dbscan.Linked n (fun i j => decide (d i j ≤ eps)) k a b := by
  unfold Dbscan.Linked Mst.mutualReach
  constructor
  · rintro ⟨h1, h2, h3⟩
    rw [max_le_iff, max_le_iff, core_iff hkn (hc a h1), core_iff hkn (hc b h2)] at h3
    exact ⟨h1, h2, h3.1.1, h3.1.2, decide_eq_true h3.2⟩
  · rintro ⟨h1, h2, h3, h4, h5⟩
    refine ⟨h1, h2, ?_⟩
    rw [max_le_iff, max_le_iff, core_iff hkn (hc a h1), core_iff hkn (hc b h2)]
    exact ⟨⟨h3, h4⟩, of_decide_eq_true h5⟩

/-- Single linkage up to `eps` joins the core points that a chain of core points joins. -/
lemma linked_iff (hs : ∀ p q, d p q = d q p) (hkn : k ≤ n) (hc : ∀ p < n, Mst.IsCore d n k p (core p)) {u v : ℕ} (huv : u ≠ v) :
    Linked n (Mst.mutualReach d core) eps u v ↔ Dbscan.Core n (fun i j => decide (d i j ≤ eps)) k u ∧ Dbscan.Core n (fun i j => decide (d i j ≤ eps)) k v ∧
      Dbscan.Chained n (fun i j => decide (d i j ≤ eps)) k u v := by
  have hsym : ∀ a b, Dbscan.Linked n (fun i j => decide (d i j ≤ eps)) k a b → Dbscan.Linked n (fun i j => decide (d i j ≤ eps)) k b a := by
    rintro a b ⟨h1, h2, h3, h4, h5⟩
    exact ⟨h2, h1, h4, h3, by show decide (d b a ≤ eps) = true; rw [hs b a]; exact h5⟩
  have hsymc : ∀ a b, Dbscan.Chained n (fun i j => decide (d i j ≤ eps)) k a b → Dbscan.Chained n (fun i j => decide (d i j ≤ eps)) k b a := by
    intro a b h
    induction h with
    | refl => exact .refl
    | tail _ h2 ih => exact .head (hsym _ _ h2) ih
  constructor
  · intro h
    have key : ∀ a b, Linked n (Mst.mutualReach d core) eps a b → (a = b ∨ (Dbscan.Core n (fun i j => decide (d i j ≤ eps)) k a ∧
        Dbscan.Core n (fun i j => decide (d i j ≤ eps)) k b)) ∧ Dbscan.Chained n (fun i j => decide (d i j ≤ eps)) k a b := by
      intro a b h
      induction h with
      | rel a b h =>
        have h' := (reach_iff hkn hc a b).mp h
        exact ⟨.inr ⟨h'.2.2.1, h'.2.2.2.1⟩, .single h'⟩
      | refl a => exact ⟨.inl rfl, .refl⟩
      | symm a b _ ih => exact ⟨ih.1.imp Eq.symm And.symm, hsymc _ _ ih.2⟩
      | trans a b c _ _ ih1 ih2 =>
        refine ⟨?_, ih1.2.trans ih2.2⟩
        rcases ih1.1 with rfl | h1
        · exact ih2.1
        · rcases ih2.1 with rfl | h2
          · exact .inr h1
          · exact .inr ⟨h1.1, h2.2⟩
    obtain ⟨h1, h2⟩ := key u v h
    have h1 := h1.resolve_left huv
    exact ⟨h1.1, h1.2, h2⟩
  · rintro ⟨-, -, h⟩
    clear huv
    induction h with
    | refl => exact .refl _
    | tail _ h2 ih => exact .trans _ _ _ ih (.rel _ _ ((reach_iff hkn hc _ _).mpr h2))

/-- The cut of a dendrogram. -/
lemma cut_iff {parents : ℕ → Option ℤ} {heights : ℕ → Option W} {lab : ℕ → ℤ} (hs : ∀ p q, d p q = d q p) (hkn : k ≤ n)
    (hc : ∀ p < n, Mst.IsCore d n k p (core p)) (hD : IsDendrogram n (Mst.mutualReach d core) parents heights) :
    (Dbscan.IsDBSCANStar n (fun i j => decide (d i j ≤ eps)) k lab → ∀ u < n, ∀ v < n, u ≠ v →
      ((0 ≤ lab u ∧ lab u = lab v) ↔ Merged n parents heights eps u v)) ∧
    (Dbscan.IsDBSCAN n (fun i j => decide (d i j ≤ eps)) k lab → ∀ u < n, ∀ v < n, u ≠ v →
      Dbscan.Core n (fun i j => decide (d i j ≤ eps)) k u → Dbscan.Core n (fun i j => decide (d i j ≤ eps)) k v →
      (lab u = lab v ↔ Merged n parents heights eps u v)) := by
  constructor
  · intro hl u hu v hv huv
    unfold Merged
    rw [← hD.linkage u hu v hv huv eps, linked_iff hs hkn hc huv]
    constructor
    · rintro ⟨h0, he⟩
      have cu : Dbscan.Core n (fun i j => decide (d i j ≤ eps)) k u := by
        by_contra hn
        rw [hl.noise u hu hn] at h0
        exact absurd h0 (by norm_num)
      have cv : Dbscan.Core n (fun i j => decide (d i j ≤ eps)) k v := by
        by_contra hn
        rw [he, hl.noise v hv hn] at h0
        exact absurd h0 (by norm_num)
      exact ⟨cu, cv, (hl.clusters u hu v hv cu cv).mp he⟩
    · rintro ⟨cu, cv, h⟩
      exact ⟨hl.core u hu cu, (hl.clusters u hu v hv cu cv).mpr h⟩
  · intro hl u hu v hv huv cu cv
    unfold Merged
    rw [← hD.linkage u hu v hv huv eps, linked_iff hs hkn hc huv, hl.clusters u hu v hv cu cv]
    exact ⟨fun h => ⟨cu, cv, h⟩, fun h => h.2.2⟩

end ArborX.Hdbscan

namespace ArborX.Dbscan

variable {n : ℕ} {near near' : ℕ → ℕ → Bool} {m m' : ℕ}

lemma Core.mono (hn : ∀ i j, near i j = true → near' i j = true) (hm : m' ≤ m) {i : ℕ} (h : Core n near m i) : Core n near' m' i := by
  unfold Core at *
  rw [← List.countP_eq_length_filter] at *
  exact hm.trans (h.trans (List.countP_mono_left fun j _ hj => hn i j hj))

lemma Chained.mono (hn : ∀ i j, near i j = true → near' i j = true) (hm : m' ≤ m) {i j : ℕ} (h : Chained n near m i j) : Chained n near' m' i j := by
  induction h with
  | refl => exact .refl
  | tail _ h2 ih =>
    obtain ⟨h1, h2, h3, h4, h5⟩ := h2
    exact .tail ih ⟨h1, h2, h3.mono hn hm, h4.mono hn hm, hn _ _ h5⟩

/-- A larger radius or a smaller number of points only joins clusters. -/
lemma star_mono {lab lab' : ℕ → ℤ} (hn : ∀ i j, near i j = true → near' i j = true) (hm : m' ≤ m) (h : IsDBSCANStar n near m lab)
    (h' : IsDBSCANStar n near' m' lab') {u v : ℕ} (hu : u < n) (hv : v < n) (h0 : 0 ≤ lab u) (he : lab u = lab v) : 0 ≤ lab' u ∧ lab' u = lab' v := by
  have cu : Core n near m u := by
    by_contra hc
    rw [h.noise u hu hc] at h0
    exact absurd h0 (by norm_num)
  have cv : Core n near m v := by
    by_contra hc
    rw [he, h.noise v hv hc] at h0
    exact absurd h0 (by norm_num)
  have cu' := cu.mono hn hm
  exact ⟨h'.core u hu cu', (h'.clusters u hu v hv cu' (cv.mono hn hm)).mpr (((h.clusters u hu v hv cu cv).mp he).mono hn hm)⟩

lemma dbscan_mono {lab lab' : ℕ → ℤ} (hn : ∀ i j, near i j = true → near' i j = true) (hm : m' ≤ m) (h : IsDBSCAN n near m lab)
    (h' : IsDBSCAN n near' m' lab') :
    (∀ u < n, 0 ≤ lab u → 0 ≤ lab' u) ∧
    (∀ u < n, ∀ v < n, Core n near m u → Core n near m v → lab u = lab v → lab' u = lab' v) := by
  constructor
  · intro u hu h0
    by_cases cu' : Core n near' m' u
    · exact h'.core u hu cu'
    have cu : ¬ Core n near m u := fun c => cu' (c.mono hn hm)
    have hN : NearCore n near m u := by
      by_contra hN
      rw [h.noise u hu cu hN] at h0
      exact absurd h0 (by norm_num)
    obtain ⟨j, hj, cj, nj⟩ := hN
    obtain ⟨i, hi, ci, -, e⟩ := h'.border u hu cu' ⟨j, hj, cj.mono hn hm, hn _ _ nj⟩
    rw [e]
    exact h'.core i hi ci
  · intro u hu v hv cu cv he
    exact (h'.clusters u hu v hv (cu.mono hn hm) (cv.mono hn hm)).mpr (((h.clusters u hu v hv cu cv).mp he).mono hn hm)

end ArborX.Dbscan

namespace ArborX.Euclid

open Hdbscan (hdbscan HSched Reorder BitsOk Merged)

variable {D : ℕ}

/-- **C88 (partial).** `dbscan` with radius `eps` and `hdbscan`, with either implementation, on the same at least `k ≥ 2` points, with the same `k` as `core_min_size`,
under any schedules of all kernels. If both return, then two different points have the same label, not that of noise, from DBSCAN* exactly if the dendrogram merges
them at a height of at most `eps`. The same holds for the core points with DBSCAN.

Partial: as for C60. -/
theorem dbscan_is_cut_partial (A : Cloud D) (hA : A.Valid) (hbig : A.pts.length ≤ 2 ^ 30) (k : ℕ) (hk : 2 ≤ k) (hkn : k ≤ A.pts.length)
    (eps : ℝ) (heps : 0 < eps) (star : Bool) (chunks : List (List ℕ)) (hchunks : chunks.flatten.Perm (List.range A.pts.length)) (serial : Bool)
    (hserial : serial = true → chunks.length ≤ 1)
    (schedB : List ℕ) (hB : A.scene.input.Finished schedB) (fuel : ℕ) (hfuel : 2 * A.pts.length ≤ fuel) (schedU schedF : List ℕ)
    (boruvka : Bool) (shared : Bool) (bits : ENNReal → ℕ) (hbits : BitsOk A.pts.length (fun p q => ENNReal.ofReal (A.dist p q)) bits)
    (hcap : Nearest.StackFits A.scene.input 64) (schedB' : List ℕ) (hB' : A.scene.input.Finished schedB')
    (ordP : List ℕ) (hoP : ordP.Perm (List.range (2 * A.pts.length - 2)))
    (sc : ℕ → HSched) (hsc : ∀ it, (sc it).Valid A.pts.length) (ro : Reorder ENNReal) (hro : ro.Valid (A.pts.length - 1))
    (fuel' : ℕ) (hfuel' : 2 * A.pts.length ≤ fuel') (iters : ℕ)
    {l : List ℤ} (h : (A.dbscan eps k star chunks serial).fdbscan fuel schedB schedU schedF = .labels l)
    {parents : ℕ → Option ℤ} {heights : ℕ → Option ENNReal}
    (h' : hdbscan boruvka (A.geo shared) bits k A.scene.input schedB' ordP sc ro fuel' iters = .ok (parents, heights)) :
    ∀ u < A.pts.length, ∀ v < A.pts.length, u ≠ v →
      (star = true →
        ((0 ≤ Dbscan.labelOf l u ∧ Dbscan.labelOf l u = Dbscan.labelOf l v) ↔
          Merged A.pts.length parents (fun e => (heights e).map ENNReal.toReal) eps u v)) ∧
      (star = false → Dbscan.Core A.pts.length (A.within eps) k u → Dbscan.Core A.pts.length (A.within eps) k v →
        (Dbscan.labelOf l u = Dbscan.labelOf l v ↔ Merged A.pts.length parents (fun e => (heights e).map ENNReal.toReal) eps u v)) := by
  obtain ⟨weight, -, hw, hd, -⟩ := hdbscan_points_partial boruvka A hA (by omega) hbig shared k bits hbits hcap schedB' hB' ordP hoP sc hsc ro hro fuel'
    hfuel' iters
  obtain ⟨core, hc, rfl⟩ := hw (by omega)
  rw [h'] at hd
  rcases hd with hd | ⟨p, t, e, hD⟩
  · exact absurd hd (by simp)
  obtain ⟨rfl, rfl⟩ : parents = p ∧ heights = t := by
    simpa using e
  have hs : ∀ p q, A.dist p q = A.dist q p := fun p q => Geometry.edist_comm _ _
  have hcut := fun lab => Hdbscan.cut_iff (eps := eps) (lab := lab) hs hkn hc hD
  rcases dbscan_points A hA eps heps k hk chunks hchunks serial hserial star schedB hB fuel hfuel schedU schedF with g | ⟨l', g, -, g1, g2, -⟩
  · rw [h] at g; exact absurd g (by simp)
  · rw [h] at g
    obtain rfl : l = l' := by simpa using g
    intro u hu v hv huv
    exact ⟨fun st => (hcut _).1 (g2 st) u hu v hv huv, fun st cu cv => (hcut _).2 (g1 st) u hu v hv huv cu cv⟩

/-- **C88.** Two calls of `dbscan` on the same points, the second with a larger or equal radius and a smaller or equal `core_min_size`, under any schedules. For DBSCAN*,
points which are in one cluster in the first result are in one cluster in the second. For DBSCAN, a point that is not noise in the first result is not noise in the second,
and core points which are in one cluster in the first result are in one cluster in the second. -/
theorem dbscan_monotone (A : Cloud D) (hA : A.Valid) (eps eps' : ℝ) (heps : 0 < eps) (hle : eps ≤ eps') (k k' : ℕ) (hk' : 2 ≤ k') (hkk : k' ≤ k) (star : Bool)
    (chunks chunks' : List (List ℕ)) (hchunks : chunks.flatten.Perm (List.range A.pts.length)) (hchunks' : chunks'.flatten.Perm (List.range A.pts.length))
    (serial serial' : Bool) (hserial : serial = true → chunks.length ≤ 1) (hserial' : serial' = true → chunks'.length ≤ 1)
    (schedB schedB' : List ℕ) (hB : A.scene.input.Finished schedB) (hB' : A.scene.input.Finished schedB')
    (fuel fuel' : ℕ) (hfuel : 2 * A.pts.length ≤ fuel) (hfuel' : 2 * A.pts.length ≤ fuel') (schedU schedU' schedF schedF' : List ℕ)
    {l l' : List ℤ} (h : (A.dbscan eps k star chunks serial).fdbscan fuel schedB schedU schedF = .labels l)
    (h' : (A.dbscan eps' k' star chunks' serial').fdbscan fuel' schedB' schedU' schedF' = .labels l') :
    (star = true → ∀ u < A.pts.length, ∀ v < A.pts.length, 0 ≤ Dbscan.labelOf l u → Dbscan.labelOf l u = Dbscan.labelOf l v →
      0 ≤ Dbscan.labelOf l' u ∧ Dbscan.labelOf l' u = Dbscan.labelOf l' v) ∧
    (star = false → (∀ u < A.pts.length, 0 ≤ Dbscan.labelOf l u → 0 ≤ Dbscan.labelOf l' u) ∧
      (∀ u < A.pts.length, ∀ v < A.pts.length, Dbscan.Core A.pts.length (A.within eps) k u → Dbscan.Core A.pts.length (A.within eps) k v →
        Dbscan.labelOf l u = Dbscan.labelOf l v → Dbscan.labelOf l' u = Dbscan.labelOf l' v)) := by
  have hmono : ∀ i j, A.within eps i j = true → A.within eps' i j = true := by
    intro i j hij
    unfold Cloud.within at *
    rw [decide_eq_true_eq] at *
    exact hij.trans hle
  rcases dbscan_points A hA eps heps k (by omega) chunks hchunks serial hserial star schedB hB fuel hfuel schedU schedF with g | ⟨m, g, -, g1, g2, -⟩
  · rw [h] at g; exact absurd g (by simp)
  rw [h] at g
  obtain rfl : l = m := by simpa using g
  rcases dbscan_points A hA eps' (by linarith) k' hk' chunks' hchunks' serial' hserial' star schedB' hB' fuel' hfuel' schedU' schedF' with
    g' | ⟨m', g', -, g1', g2', -⟩
  · rw [h'] at g'; exact absurd g' (by simp)
  rw [h'] at g'
  obtain rfl : l' = m' := by simpa using g'
  exact ⟨fun st u hu v hv h0 he => Dbscan.star_mono hmono hkk (g2 st) (g2' st) hu hv h0 he, fun st => Dbscan.dbscan_mono hmono hkk (g1 st) (g1' st)⟩

/-- `dbscan_is_cut_partial` applies: both functions return. -/
example (star boruvka : Bool) : ∃ bits schedB schedU schedF l ordP sc ro iters parents heights,
    (exampleCloud.dbscan (3 / 2) 3 star [[2, 0], [1, 3]] false).fdbscan 8 schedB schedU schedF = .labels l ∧
    hdbscan boruvka (exampleCloud.geo true) bits 3 exampleCloud.scene.input schedB ordP sc ro 8 iters = .ok (parents, heights) ∧
    (star = true → ∀ u < 4, ∀ v < 4, u ≠ v → ((0 ≤ Dbscan.labelOf l u ∧ Dbscan.labelOf l u = Dbscan.labelOf l v) ↔
      Merged 4 parents (fun e => (heights e).map ENNReal.toReal) (3 / 2) u v)) := by
  obtain ⟨schedB, hB⟩ := Construction.exists_complete exampleCloud.scene.input.params (exampleCloud_valid.scene.input.keys (by decide))
  have hch : ([[2, 0], [1, 3]] : List (List ℕ)).flatten.Perm (List.range exampleCloud.pts.length) := by decide
  obtain ⟨steps, hsteps⟩ := dbscan_points_terminates exampleCloud exampleCloud_valid (3 / 2) (by norm_num) 3 (by norm_num) _ hch false (by simp) star
    schedB (fun _ => hB) 8 le_rfl
  obtain ⟨schedU, hU⟩ := exists_counts 2 steps
  obtain ⟨schedF, hF⟩ := exists_counts 4 (fun _ => 9)
  obtain ⟨sc, h1, h2⟩ := Boruvka.exists_sched 4
  obtain ⟨ro, hro⟩ := Hdbscan.exists_reorder (W := ENNReal) 3
  obtain ⟨bits, hbits⟩ := exists_bits (show 4 * 4 < 2 ^ 31 by norm_num) (fun p q => ENNReal.ofReal (exampleCloud.dist p q))
  have hcap : Nearest.StackFits exampleCloud.scene.input 64 := by
    intro T hT
    exact Nearest.stack_suffices_small exampleCloud.scene.input (by decide) (by decide) T hT
  have hsc : ∀ _ : ℕ, (⟨sc, List.range 4, List.range 4⟩ : HSched).Valid exampleCloud.pts.length := fun _ => ⟨h1, List.Perm.refl _, List.Perm.refl _⟩
  obtain ⟨weight, -, -, h, h'⟩ := hdbscan_points_partial boruvka exampleCloud exampleCloud_valid (by decide) (by decide) true 3 bits hbits hcap schedB
    (fun _ => hB) (List.range (2 * 4 - 2)) (List.Perm.refl _) (fun _ => ⟨sc, List.range 4, List.range 4⟩) hsc ro hro 8 le_rfl 3
  rcases h with h | ⟨p, t, h, -⟩
  · exact absurd h (h' (fun _ => h2) (by decide))
  rcases dbscan_points exampleCloud exampleCloud_valid (3 / 2) (by norm_num) 3 (by norm_num) _ hch false (by simp) star
    schedB (fun _ => hB) 8 le_rfl schedU schedF with g | ⟨l, g, -⟩
  · exact absurd g (hsteps schedU schedF hU hF)
  refine ⟨bits, schedB, schedU, schedF, l, _, _, ro, _, p, t, g, h, fun st u hu v hv huv => ?_⟩
  exact (dbscan_is_cut_partial exampleCloud exampleCloud_valid (by decide) 3 (by norm_num) (by decide) (3 / 2) (by norm_num) star _ hch false (by simp) schedB
    (fun _ => hB) 8 le_rfl schedU schedF boruvka true bits hbits hcap schedB (fun _ => hB) _ (List.Perm.refl _) _ hsc ro hro 8 le_rfl 3 g h u hu v hv huv).1 st

end ArborX.Euclid

namespace ArborX.Fp

open Hdbscan (hdbscan HSched Reorder Merged)

variable {D : ℕ}

/-- **C88 (partial).** The same in floating-point arithmetic: `float` coordinates, at distances which do not overflow. -/
theorem dbscan_is_cut_float_partial (A : Cloud D) (hA : A.Valid) (hbig : A.pts.length ≤ 2 ^ 30) (fma : Bool)
    (hfin : ∀ p < A.pts.length, ∀ q < A.pts.length, A.dist (Ieee.float fma) p q < ⊤) (k : ℕ) (hk : 2 ≤ k) (hkn : k ≤ A.pts.length)
    (eps : ℝ) (heps : 0 < eps) (star : Bool) (chunks : List (List ℕ)) (hchunks : chunks.flatten.Perm (List.range A.pts.length)) (serial : Bool)
    (hserial : serial = true → chunks.length ≤ 1)
    (schedB : List ℕ) (hB : A.scene.input.Finished schedB) (fuel : ℕ) (hfuel : 2 * A.pts.length ≤ fuel) (schedU schedF : List ℕ)
    (boruvka : Bool) (shared : Bool) (hcap : Nearest.StackFits A.scene.input 64) (schedB' : List ℕ) (hB' : A.scene.input.Finished schedB')
    (ordP : List ℕ) (hoP : ordP.Perm (List.range (2 * A.pts.length - 2)))
    (sc : ℕ → HSched) (hsc : ∀ it, (sc it).Valid A.pts.length) (ro : Reorder EReal) (hro : ro.Valid (A.pts.length - 1))
    (fuel' : ℕ) (hfuel' : 2 * A.pts.length ≤ fuel') (iters : ℕ)
    {l : List ℤ} (h : (A.dbscan (Ieee.float fma) eps k star chunks serial).fdbscan fuel schedB schedU schedF = .labels l)
    {parents : ℕ → Option ℤ} {heights : ℕ → Option EReal}
    (h' : hdbscan boruvka (A.geo (Ieee.float fma) shared) Ieee.bits k A.scene.input schedB' ordP sc ro fuel' iters = .ok (parents, heights)) :
    ∀ u < A.pts.length, ∀ v < A.pts.length, u ≠ v →
      (star = true →
        ((0 ≤ Dbscan.labelOf l u ∧ Dbscan.labelOf l u = Dbscan.labelOf l v) ↔ Merged A.pts.length parents heights (eps : EReal) u v)) ∧
      (star = false → Dbscan.Core A.pts.length (A.within (Ieee.float fma) eps) k u → Dbscan.Core A.pts.length (A.within (Ieee.float fma) eps) k v →
        (Dbscan.labelOf l u = Dbscan.labelOf l v ↔ Merged A.pts.length parents heights (eps : EReal) u v)) := by
  obtain ⟨weight, -, hw, hd, -⟩ := hdbscan_float_partial boruvka A hA (by omega) hbig fma hfin shared k hcap schedB' hB' ordP hoP sc hsc ro hro fuel'
    hfuel' iters
  obtain ⟨core, hc, rfl⟩ := hw (by omega)
  rw [h'] at hd
  rcases hd with hd | ⟨p, t, e, hD⟩
  · exact absurd hd (by simp)
  obtain ⟨rfl, rfl⟩ : parents = p ∧ heights = t := by
    simpa using e
  have hs : ∀ p q, A.dist (Ieee.float fma) p q = A.dist (Ieee.float fma) q p := fun p q => Format.distPoint_comm _ _ _
  have hcut := fun lab => Hdbscan.cut_iff (eps := (eps : EReal)) (lab := lab) hs hkn hc hD
  rcases dbscan_float A hA (Ieee.float fma) eps heps k hk chunks hchunks serial hserial star schedB hB fuel hfuel schedU schedF with g | ⟨l', g, -, g1, g2, -⟩
  · rw [h] at g; exact absurd g (by simp)
  · rw [h] at g
    obtain rfl : l = l' := by simpa using g
    intro u hu v hv huv
    exact ⟨fun st => (hcut _).1 (g2 st) u hu v hv huv, fun st cu cv => (hcut _).2 (g1 st) u hu v hv huv cu cv⟩

/-- **C88.** The same in floating-point arithmetic of any format: two calls of `dbscan` on the same points, the second with a larger or equal radius and a smaller or equal `core_min_size`, under any schedules. For DBSCAN*,
points which are in one cluster in the first result are in one cluster in the second. For DBSCAN, a point that is not noise in the first result is not noise in the second,
and core points which are in one cluster in the first result are in one cluster in the second. -/
theorem dbscan_float_monotone (A : Cloud D) (hA : A.Valid) (F : Format) (eps eps' : ℝ) (heps : 0 < eps) (hle : eps ≤ eps') (k k' : ℕ) (hk' : 2 ≤ k') (hkk : k' ≤ k) (star : Bool)
    (chunks chunks' : List (List ℕ)) (hchunks : chunks.flatten.Perm (List.range A.pts.length)) (hchunks' : chunks'.flatten.Perm (List.range A.pts.length))
    (serial serial' : Bool) (hserial : serial = true → chunks.length ≤ 1) (hserial' : serial' = true → chunks'.length ≤ 1)
    (schedB schedB' : List ℕ) (hB : A.scene.input.Finished schedB) (hB' : A.scene.input.Finished schedB')
    (fuel fuel' : ℕ) (hfuel : 2 * A.pts.length ≤ fuel) (hfuel' : 2 * A.pts.length ≤ fuel') (schedU schedU' schedF schedF' : List ℕ)
    {l l' : List ℤ} (h : (A.dbscan F eps k star chunks serial).fdbscan fuel schedB schedU schedF = .labels l)
    (h' : (A.dbscan F eps' k' star chunks' serial').fdbscan fuel' schedB' schedU' schedF' = .labels l') :
    (star = true → ∀ u < A.pts.length, ∀ v < A.pts.length, 0 ≤ Dbscan.labelOf l u → Dbscan.labelOf l u = Dbscan.labelOf l v →
      0 ≤ Dbscan.labelOf l' u ∧ Dbscan.labelOf l' u = Dbscan.labelOf l' v) ∧
    (star = false → (∀ u < A.pts.length, 0 ≤ Dbscan.labelOf l u → 0 ≤ Dbscan.labelOf l' u) ∧
      (∀ u < A.pts.length, ∀ v < A.pts.length, Dbscan.Core A.pts.length (A.within F eps) k u → Dbscan.Core A.pts.length (A.within F eps) k v →
        Dbscan.labelOf l u = Dbscan.labelOf l v → Dbscan.labelOf l' u = Dbscan.labelOf l' v)) := by
  have hmono : ∀ i j, A.within F eps i j = true → A.within F eps' i j = true := by
    intro i j hij
    unfold Cloud.within at *
    rw [decide_eq_true_eq] at *
    exact hij.trans (EReal.coe_le_coe_iff.mpr hle)
  rcases dbscan_float A hA F eps heps k (by omega) chunks hchunks serial hserial star schedB hB fuel hfuel schedU schedF with g | ⟨m, g, -, g1, g2, -⟩
  · rw [h] at g; exact absurd g (by simp)
  rw [h] at g
  obtain rfl : l = m := by simpa using g
  rcases dbscan_float A hA F eps' (by linarith) k' hk' chunks' hchunks' serial' hserial' star schedB' hB' fuel' hfuel' schedU' schedF' with
    g' | ⟨m', g', -, g1', g2', -⟩
  · rw [h'] at g'; exact absurd g' (by simp)
  rw [h'] at g'
  obtain rfl : l' = m' := by simpa using g'
  exact ⟨fun st u hu v hv h0 he => Dbscan.star_mono hmono hkk (g2 st) (g2' st) hu hv h0 he, fun st => Dbscan.dbscan_mono hmono hkk (g1 st) (g1' st)⟩

end ArborX.Fp
