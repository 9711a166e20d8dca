import Verif.Euclid.Cloud
import Verif.Hdbscan.Theorems

/-!
# HDBSCAN of points in Euclidean space, end to end

`Hdbscan.hdbscan` run on the points of a `Cloud` with the distance functions of the library.
-/

namespace ArborX.Euclid

open Geometry (Pt)
open Hdbscan

variable {D : ℕ}

/-! ## Lemmas -/

lemma linked_real {n : ℕ} {w : ℕ → ℕ → ℝ} {w' : ℕ → ℕ → ENNReal} (hw : ∀ p < n, ∀ q < n, w' p q = ENNReal.ofReal (w p q))
    {h : ℝ} (hh : 0 ≤ h) (a b : ℕ) : Linked n w' (ENNReal.ofReal h) a b ↔ Linked n w h a b := by
  unfold Linked
  have : (fun a b => a < n ∧ b < n ∧ w' a b ≤ ENNReal.ofReal h) = (fun a b => a < n ∧ b < n ∧ w a b ≤ h) := by
    funext a b
    refine propext ⟨fun ⟨ha, hb, hle⟩ => ⟨ha, hb, ?_⟩, fun ⟨ha, hb, hle⟩ => ⟨ha, hb, ?_⟩⟩
    · rw [hw a ha b hb] at hle
      exact (ENNReal.ofReal_le_ofReal_iff hh).mp hle
    · rw [hw a ha b hb]
      exact ENNReal.ofReal_le_ofReal hle
  rw [this]

lemma not_linked_neg {n : ℕ} {w : ℕ → ℕ → ℝ} (h0 : ∀ p q, 0 ≤ w p q) {h : ℝ} (hh : h < 0) {a b : ℕ} (hl : Linked n w h a b) : a = b := by
  unfold Linked at hl
  induction hl with
  | rel x y h =>
    have := h0 x y
    have := h.2.2
    linarith
  | refl => rfl
  | symm _ _ _ ih => exact ih.symm
  | trans _ _ _ _ _ ih1 ih2 => exact ih1.trans ih2

/-- A dendrogram for the distances as extended reals is one for the distances as reals. -/
lemma isDendrogram_real {n : ℕ} {w : ℕ → ℕ → ℝ} {w' : ℕ → ℕ → ENNReal} (h0 : ∀ p q, 0 ≤ w p q)
    (hw : ∀ p < n, ∀ q < n, w' p q = ENNReal.ofReal (w p q))
    {parents : ℕ → Option ℤ} {heights : ℕ → Option ENNReal} (H : IsDendrogram n w' parents heights) :
    IsDendrogram n w parents (fun e => (heights e).map ENNReal.toReal) := by
  have hval : ∀ e < n - 1, ∃ r : ℝ, 0 ≤ r ∧ heights e = some (ENNReal.ofReal r) := by
    intro e he
    obtain ⟨u, hu, v, hv, e'⟩ := H.heights e he
    exact ⟨w u v, h0 _ _, by rw [e', hw u hu v hv]⟩
  refine ⟨?_, H.root, H.inner, H.rooted, H.binary, ?_, ?_⟩
  · intro e he
    obtain ⟨u, hu, v, hv, e'⟩ := H.heights e he
    refine ⟨u, hu, v, hv, ?_⟩
    rw [e', hw u hu v hv, Option.map_some, ENNReal.toReal_ofReal (h0 _ _)]
  · intro c hc e he hp a b ha hb
    obtain ⟨x, hx, ex⟩ := hval c hc
    obtain ⟨y, hy, ey⟩ := hval e he
    rw [ex, Option.map_some, ENNReal.toReal_ofReal hx, Option.some.injEq] at ha
    rw [ey, Option.map_some, ENNReal.toReal_ofReal hy, Option.some.injEq] at hb
    subst ha hb
    exact (ENNReal.ofReal_le_ofReal_iff hy).mp (H.monotone c hc e he hp _ _ ex ey)
  · intro u hu v hv huv h
    rcases lt_or_ge h 0 with hneg | hpos
    · constructor
      · intro hl
        exact absurd (not_linked_neg h0 hneg hl) huv
      · rintro ⟨e, he, a, hle, ha, -⟩
        obtain ⟨x, hx, ex⟩ := hval e he
        rw [ex, Option.map_some, ENNReal.toReal_ofReal hx, Option.some.injEq] at ha
        linarith
    · rw [← linked_real hw hpos, H.linkage u hu v hv huv]
      constructor
      · rintro ⟨e, he, a, hle, ha, h1, h2⟩
        obtain ⟨x, hx, ex⟩ := hval e he
        rw [ex, Option.some.injEq] at ha
        refine ⟨e, he, x, (ENNReal.ofReal_le_ofReal_iff hpos).mp (by rw [ha]; exact hle), ?_, h1, h2⟩
        rw [ex, Option.map_some, ENNReal.toReal_ofReal hx]
      · rintro ⟨e, he, a, hle, ha, h1, h2⟩
        obtain ⟨x, hx, ex⟩ := hval e he
        rw [ex, Option.map_some, ENNReal.toReal_ofReal hx, Option.some.injEq] at ha
        exact ⟨e, he, _, ENNReal.ofReal_le_ofReal hle, by rw [ex, ha], h1, h2⟩

/-! ## Property theorem -/

/-- **C60 (partial), in Euclidean space.** `hdbscan` on at least two points, for any `k` and both implementations: whatever the schedules of all kernels
and the behaviour of the library sort on equal keys, no out-of-bounds access, and when it returns, parents and heights are a binary dendrogram of the
single-linkage clusters for the Euclidean distances (`k ≤ 1`) or for the mutual reachability distances of the Euclidean core distances (`k > 1`). It
returns if every thread gets enough steps.

Partial: the stacks of 64 entries are assumed to be large enough for the tree (`stack_fits_partial` says when); the distances are real numbers, whose order `bits` reflects. -/
theorem hdbscan_points_partial (boruvka : Bool) (A : Cloud D) (hA : A.Valid) (hn : 2 ≤ A.pts.length) (hbig : A.pts.length ≤ 2 ^ 30) (shared : Bool)
    (k : ℕ) (bits : ENNReal → ℕ) (hbits : BitsOk A.pts.length (fun p q => ENNReal.ofReal (A.dist p q)) bits)
    (hcap : Nearest.StackFits A.scene.input 64) (schedB : List ℕ) (hB : A.scene.input.Finished schedB)
    (ordP : List ℕ) (hoP : ordP.Perm (List.range (2 * A.pts.length - 2)))
    (sc : ℕ → HSched) (hsc : ∀ it, (sc it).Valid A.pts.length) (ro : Reorder ENNReal) (hro : ro.Valid (A.pts.length - 1))
    (fuel : ℕ) (hfuel : 2 * A.pts.length ≤ fuel) (iters : ℕ) :
    ∃ weight : ℕ → ℕ → ℝ,
      (k ≤ 1 → weight = A.dist) ∧
      (1 < k → ∃ core : ℕ → ℝ, (∀ p < A.pts.length, Mst.IsCore A.dist A.pts.length k p (core p)) ∧ weight = Mst.mutualReach A.dist core) ∧
      (hdbscan boruvka (A.geo shared) bits k A.scene.input schedB ordP sc ro fuel iters = .running ∨
        ∃ parents heights, hdbscan boruvka (A.geo shared) bits k A.scene.input schedB ordP sc ro fuel iters = .ok (parents, heights) ∧
          IsDendrogram A.pts.length weight parents (fun e => (heights e).map ENNReal.toReal)) ∧
      ((∀ it, (sc it).toSched.Fair A.pts.length) → A.pts.length ≤ 2 ^ iters →
        hdbscan boruvka (A.geo shared) bits k A.scene.input schedB ordP sc ro fuel iters ≠ .running) := by
  have hlen : A.scene.input.n = A.pts.length := by simp [Scene.input, Cloud.scene]
  have hdp : (A.geo shared).dp = fun p q => ENNReal.ofReal (A.dist p q) := by
    funext p q
    show ENNReal.ofReal (Geometry.distancePoint _ _) = _
    rw [Geometry.distancePoint_eq]; rfl
  have hd0 : ∀ p q, 0 ≤ A.dist p q := fun p q => Geometry.edist_nonneg _ _
  obtain ⟨weight, h1, h2, h3, h4⟩ := hdbscan_correct_partial boruvka (A.geo shared) bits k A.scene.input hA.scene.input (by omega) (by omega)
    (fun _ _ => rfl) (A.box_le shared)
    (fun p q => by rw [hdp]; show ENNReal.ofReal (Geometry.edist _ _) = ENNReal.ofReal (Geometry.edist _ _); rw [Geometry.edist_comm])
    (fun p _ q _ => ENNReal.ofReal_lt_top) (by rw [hlen, hdp]; exact hbits) hcap schedB hB ordP (by rw [hlen]; exact hoP) sc (by rw [hlen]; exact hsc)
    ro (by rw [hlen]; exact hro) fuel (by omega) iters
  rw [hlen] at h3 h4
  by_cases hk : 1 < k
  · obtain ⟨core, hc, rfl⟩ := h2 hk
    rw [hlen, hdp] at hc
    have hc' := fun p hp => isCore_real hd0 (by omega : 1 ≤ A.pts.length) (by omega : 1 ≤ k) (hc p hp)
    refine ⟨Mst.mutualReach A.dist (fun p => (core p).toReal), fun h => by omega, fun _ => ⟨_, fun p hp => (hc' p hp).2, rfl⟩, ?_, h4⟩
    rcases h3 with h3 | ⟨parents, heights, hE, hM⟩
    · exact .inl h3
    refine .inr ⟨parents, heights, hE, isDendrogram_real (fun p q => (hd0 p q).trans (le_max_right _ _)) ?_ hM⟩
    intro p hp q hq
    unfold Mst.mutualReach
    rw [hdp, ENNReal.ofReal_max, ENNReal.ofReal_max, ENNReal.ofReal_toReal (hc' p hp).1, ENNReal.ofReal_toReal (hc' q hq).1]
  · rw [h1 (by omega)] at h3
    refine ⟨A.dist, fun _ => rfl, fun h => absurd h hk, ?_, h4⟩
    rcases h3 with h3 | ⟨parents, heights, hE, hM⟩
    · exact .inl h3
    · rw [hdp] at hM
      exact .inr ⟨parents, heights, hE, isDendrogram_real hd0 (fun _ _ _ _ => rfl) hM⟩

/-! ## Non-vacuity -/

/-- Numbers that reflect the order of the distances exist for up to 46340 points (few enough pairs for an `int`): the number of pairs at a smaller distance. -/
lemma exists_bits {W : Type} [LinearOrder W] {n : ℕ} (hn : n * n < 2 ^ 31) (w : ℕ → ℕ → W) : ∃ bits, BitsOk n w bits := by
  classical
  let S : Finset (ℕ × ℕ) := Finset.range n ×ˢ Finset.range n
  have hS : S.card = n * n := by simp [S]
  refine ⟨fun x => (S.filter (fun p => w p.1 p.2 < x)).card, ?_, ?_⟩
  · intro p _ q _
    exact (Finset.card_filter_le _ _).trans_lt (by rw [hS]; exact hn)
  · intro p hp q hq a _ b _ hlt
    refine Finset.card_lt_card (Finset.ssubset_iff_subset_ne.mpr ⟨fun y hy => ?_, fun e => ?_⟩)
    · rw [Finset.mem_filter] at hy ⊢
      exact ⟨hy.1, hy.2.trans hlt⟩
    · have : (p, q) ∈ S.filter (fun y => w y.1 y.2 < w a b) := by
        rw [Finset.mem_filter, Finset.mem_product, Finset.mem_range, Finset.mem_range]
        exact ⟨⟨hp, hq⟩, hlt⟩
      rw [← e, Finset.mem_filter] at this
      exact lt_irrefl _ this.2

/-- `hdbscan_points_partial` applies. -/
example (boruvka : Bool) (k : ℕ) : ∃ bits schedB ordP sc ro fuel iters parents heights, ∃ weight : ℕ → ℕ → ℝ,
    hdbscan boruvka (exampleCloud.geo true) bits k exampleCloud.scene.input schedB ordP sc ro fuel iters = .ok (parents, heights) ∧
    IsDendrogram 4 weight parents (fun e => (heights e).map ENNReal.toReal) := by
  obtain ⟨schedB, hB⟩ := Construction.exists_complete exampleCloud.scene.input.params (exampleCloud_valid.scene.input.keys (by decide))
  obtain ⟨sc, h1, h2⟩ := Boruvka.exists_sched 4
  obtain ⟨ro, hro⟩ := exists_reorder (W := ENNReal) 3
  obtain ⟨bits, hbits⟩ := exists_bits (show 4 * 4 < 2 ^ 31 by norm_num) (fun p q => ENNReal.ofReal (exampleCloud.dist p q))
  have hcap : Nearest.StackFits exampleCloud.scene.input 64 := by
    intro T hT
    exact Nearest.stack_suffices_small exampleCloud.scene.input (by decide) (by decide) T hT
  obtain ⟨weight, -, -, h, h'⟩ := hdbscan_points_partial boruvka exampleCloud exampleCloud_valid (by decide) (by decide) true k bits hbits hcap schedB
    (fun _ => hB) (List.range (2 * 4 - 2)) (List.Perm.refl _) (fun _ => ⟨sc, List.range 4, List.range 4⟩)
    (fun _ => ⟨h1, List.Perm.refl _, List.Perm.refl _⟩) ro hro 8 le_rfl 3
  rcases h with h | ⟨p, t, h, hE⟩
  · exact absurd h (h' (fun _ => h2) (by decide))
  · exact ⟨_, _, _, _, _, _, _, p, t, weight, h, hE⟩

end ArborX.Euclid
