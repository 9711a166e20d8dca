import Verif.Euclid.Theorems
import Verif.Dbscan.Theorems
import Verif.Boruvka.Core
import Verif.Neighbor.Theorems
import Mathlib.Data.ENNReal.Real

/-!
# Points: clustering, minimum spanning trees and neighbour lists, with nothing left abstract (C55, C56, C57)

The inputs are lists of points with rational coordinates; the results are stated in terms of Euclidean distances.
-/

namespace ArborX.Euclid

open Geometry BVH

variable {D : ℕ}

/-! ## Model -/

/-- The points given to `dbscan`, `MinimumSpanningTree` or `findHalfNeighborList`, with what the construction of the tree depends on (see `Scene`). -/
structure Cloud (D : ℕ) where
  pts : List (Pt ℚ D)
  M : ℚ
  prec : ℕ
  red : Reduction
  perm : ℕ → ℕ

/-- The tree is built on the points with their indices (`src/cluster/ArborX_DBSCAN.hpp` 273-274, `src/cluster/ArborX_MinimumSpanningTree.hpp` 66,
`src/spatial/detail/ArborX_NeighborList.hpp` 75). -/
def Cloud.scene (A : Cloud D) : Scene D := ⟨A.pts.map .point, A.M, A.prec, A.red, A.perm⟩

/-- Point `i`. -/
def Cloud.pt (A : Cloud D) (i : ℕ) : Pt ℝ D := toRealPt (A.pts.getD i 0)

/-- `dbscan(space, points, eps, core_min_size)` (`src/cluster/ArborX_DBSCAN.hpp` 219-327, 489-522): the predicates are balls around the points with
radius `eps` (55-70, 299); the rest as in `Dbscan.In`. -/
noncomputable def Cloud.dbscan (A : Cloud D) (eps : ℝ) (minPts : ℕ) (star : Bool) (chunks : List (List ℕ)) (serial : Bool) :
    Dbscan.In (Bound D) 64 where
  n := A.pts.length
  near i j := intersectsSpherePoint ⟨A.pt i, eps⟩ (A.pt j)
  pv i := nodeTest (.sphere ⟨A.pt i, eps⟩)
  vol := A.scene.input.vol
  code := A.scene.input.code
  perm := A.scene.input.perm
  minPts := minPts
  star := star
  chunks := chunks
  serial := serial

/-- The distances of `MinimumSpanningTree` (`src/cluster/detail/ArborX_BoruvkaHelpers.hpp` 166-175): points to points and points to boxes. -/
noncomputable def Cloud.geo (A : Cloud D) (shared : Bool) : Boruvka.Geo (Bound D) ENNReal where
  dp p q := ENNReal.ofReal (distancePoint (A.pt p) (A.pt q))
  dv p := WithBot.recBotCoe ⊤ (fun B => ENNReal.ofReal (distancePointBox (A.pt p) B.1))
  shared := shared

/-- The tree of `findHalfNeighborList` and `findFullNeighborList` (`src/spatial/detail/ArborX_NeighborList.hpp` 75, 135): the values are the points
with their indices. -/
noncomputable def Cloud.indexed (A : Cloud D) : Input (Pt ℝ D × ℕ) (Bound D) 64 where
  n := A.pts.length
  values i := (A.pt i, i)
  vol a := leafBound A.M (.point a.1)
  code := A.scene.input.code
  perm := A.scene.input.perm

/-- `NeighborListPredicateGetter` (`ArborX_NeighborList.hpp` 27-46) on a leaf. -/
noncomputable def ballTest (r : ℝ) (a b : Pt ℝ D) : Bool := intersectsSpherePoint ⟨a, r⟩ b

/-- The same on an internal node. -/
noncomputable def ballNodeTest (r : ℝ) (a : Pt ℝ D × ℕ) : Bound D → Bool := nodeTest (.sphere ⟨a.1, r⟩)

/-! ## Specification -/

/-- Points `i` and `j` are at most `r` apart. -/
noncomputable def Cloud.within (A : Cloud D) (r : ℝ) (i j : ℕ) : Bool := decide (Geometry.edist (A.pt i) (A.pt j) ≤ r)

/-- The Euclidean distance of points `i` and `j`. -/
noncomputable def Cloud.dist (A : Cloud D) (i j : ℕ) : ℝ := Geometry.edist (A.pt i) (A.pt j)

/-- A minimum spanning tree for real weights: the edges have the weights of the graph, there are `n - 1` of them, they join all vertices, and no edges that
join all vertices have a smaller total. -/
structure RealMst (n : ℕ) (weight : ℕ → ℕ → ℝ) (E : List (Mst.WeightedEdge ENNReal)) : Prop where
  weights : ∀ e ∈ E, e.source ≠ e.target ∧ e.weight = ENNReal.ofReal (weight e.source e.target)
  tree : Graph.SpanningTree n (E.map (fun e => (e.source, e.target)))
  minimal : ∀ T : List (ℕ × ℕ), (∀ e ∈ T, e.1 < n ∧ e.2 < n) → Graph.Connects n T →
    (E.map (fun e => weight e.source e.target)).sum ≤ (T.map (fun e => weight e.1 e.2)).sum

/-! ## Lemmas -/

/-- What the construction of the tree needs, see `Scene.Valid`. -/
structure Cloud.Valid (A : Cloud D) : Prop where
  dim2 : 2 ≤ D
  dim10 : D ≤ 10
  prec : 24 ≤ A.prec
  fits : A.pts.length ≤ 2 ^ 63
  sorted : A.scene.input.Sorted

lemma Cloud.at_eq (A : Cloud D) (i : ℕ) : toReal (A.scene.at i) = .point (A.pt i) := by
  unfold Scene.at Cloud.scene Cloud.pt
  simp only [List.getD_eq_getElem?_getD, List.getElem?_map]
  cases A.pts[i]? <;> rfl

lemma Cloud.Valid.scene {A : Cloud D} (h : A.Valid) : A.scene.Valid where
  dim2 := h.dim2
  dim10 := h.dim10
  prec := h.prec
  fits := by simpa [Cloud.scene] using h.fits
  sorted := h.sorted
  regular := by
    intro g hg
    obtain ⟨p, -, rfl⟩ := List.mem_map.mp hg
    exact trivial

lemma ball_mono (M : ℝ) (r : ℝ) (p q : Pt ℝ D) {v : Bound D} (hv : leafBound M (.point q) ≤ v)
    (h : intersectsSpherePoint ⟨p, r⟩ q = true) : nodeTest (.sphere ⟨p, r⟩) v = true := by
  obtain ⟨C, rfl, hC⟩ := leafBound_le (g := .point q) trivial hv
  show decide (intersects (.sphere ⟨p, r⟩) (.box C.1) = some true) = true
  refine decide_eq_true (congrArg some ?_)
  rw [intersects_sphere_box _ _ C.2]
  exact ⟨q, (intersects_sphere_point _ _).mp h, hC rfl⟩

lemma ball_eq (r : ℝ) (p q : Pt ℝ D) : intersectsSpherePoint ⟨p, r⟩ q = decide (Geometry.edist p q ≤ r) := by
  unfold intersectsSpherePoint
  rw [distancePoint_eq]

lemma ofReal_sum {ι : Type} (l : List ι) (f : ι → ℝ) (h : ∀ x, 0 ≤ f x) :
    (l.map (fun x => ENNReal.ofReal (f x))).sum = ENNReal.ofReal (l.map f).sum := by
  induction l with
  | nil => simp
  | cons a l ih =>
    rw [List.map_cons, List.map_cons, List.sum_cons, List.sum_cons, ih, ENNReal.ofReal_add (h a)]
    exact List.sum_nonneg (by simp only [List.mem_map]; rintro _ ⟨x, -, rfl⟩; exact h x)

lemma realMst {n : ℕ} {weight : ℕ → ℕ → ℝ} (h0 : ∀ p q, 0 ≤ weight p q) {E : List (Mst.WeightedEdge ENNReal)}
    (h : Mst.IsMst n (fun p q => ENNReal.ofReal (weight p q)) E) : RealMst n weight E where
  weights := h.weights
  tree := h.tree
  minimal T hT hc := by
    have := h.minimal T hT hc ENNReal id monotone_id (fun _ => bot_le)
    simp only [id] at this
    rw [ofReal_sum T (fun e => weight e.1 e.2) (fun _ => h0 _ _),
      List.map_congr_left (fun e he => (h.weights e he).2), ofReal_sum E (fun e => weight e.source e.target) (fun _ => h0 _ _)] at this
    refine (ENNReal.ofReal_le_ofReal_iff ?_).mp this
    exact List.sum_nonneg (by simp only [List.mem_map]; rintro _ ⟨x, -, rfl⟩; exact h0 _ _)

/-- Core distances as real numbers. -/
lemma isCore_real {d : ℕ → ℕ → ℝ} (h0 : ∀ p q, 0 ≤ d p q) {n k p : ℕ} (hn : 1 ≤ n) (hk : 1 ≤ k) {r : ENNReal}
    (h : Mst.IsCore (fun p q => ENNReal.ofReal (d p q)) n k p r) : r ≠ ⊤ ∧ Mst.IsCore d n k p r.toReal := by
  have htop : r ≠ ⊤ := by
    rintro rfl
    have := h.least (ENNReal.ofReal ((List.range n).map (d p)).sum) ENNReal.ofReal_lt_top
    unfold Mst.within at this
    rw [List.countP_eq_length.mpr, List.length_range] at this
    · omega
    · intro q hq
      refine decide_eq_true (ENNReal.ofReal_le_ofReal ?_)
      exact List.single_le_sum (by simp only [List.mem_map]; rintro _ ⟨x, -, rfl⟩; exact h0 _ _) _ (List.mem_map_of_mem hq)
  refine ⟨htop, ?_, ?_⟩
  · refine h.enough.trans (le_of_eq ?_)
    unfold Mst.within
    refine List.countP_congr (fun q _ => ?_)
    simp only [decide_eq_true_eq]
    exact ENNReal.ofReal_le_iff_le_toReal htop
  · intro r' hr'
    rcases lt_or_ge r' 0 with hneg | hpos
    · have : Mst.within d n p r' = 0 := by
        unfold Mst.within
        rw [List.countP_eq_zero]
        intro q _ hq
        have := of_decide_eq_true hq
        have := h0 p q
        linarith
      rw [this]; omega
    · have h1 := h.least (ENNReal.ofReal r') ((ENNReal.ofReal_lt_iff_lt_toReal hpos htop).mpr hr')
      refine lt_of_le_of_lt (le_of_eq ?_) h1
      unfold Mst.within
      refine List.countP_congr (fun q _ => ?_)
      simp only [decide_eq_true_eq]
      exact (ENNReal.ofReal_le_ofReal_iff hpos).symm

lemma Cloud.box_le (A : Cloud D) (shared : Bool) (p q : ℕ) (v : Bound D) (hv : A.scene.input.vol q ≤ v) :
    (A.geo shared).dv p v ≤ (A.geo shared).dp p q := by
  have hv' : leafBound A.M (.point (A.pt q)) ≤ v := by
    rw [← A.at_eq]; exact hv
  obtain ⟨C, rfl, hC⟩ := leafBound_le (g := .point (A.pt q)) trivial hv'
  refine ENNReal.ofReal_le_ofReal ?_
  have h1 := distance_point_box (A.pt p) C.1 C.2
  have h2 := h1.minimal (A.pt p) rfl (A.pt q) (hC rfl)
  rw [distancePoint_eq]
  exact h2

/-! ## Property theorems -/

section Dbscan

variable (A : Cloud D) (hA : A.Valid) (eps : ℝ) (heps : 0 < eps) (minPts : ℕ) (hmin : 2 ≤ minPts)
  (chunks : List (List ℕ)) (hchunks : chunks.flatten.Perm (List.range A.pts.length)) (serial : Bool) (hserial : serial = true → chunks.length ≤ 1)

include hA heps hmin hchunks hserial

omit hA heps hmin hchunks hserial in
lemma Cloud.dbscan_tree (star : Bool) : (A.dbscan eps minPts star chunks serial).tree = A.scene.input := by
  unfold Dbscan.In.tree Cloud.dbscan
  have : A.scene.input.n = A.pts.length := by simp [Scene.input, Cloud.scene]
  rw [← this]
  rfl

lemma Cloud.dbscan_valid (star : Bool) : (A.dbscan eps minPts star chunks serial).Valid where
  tree := by rw [A.dbscan_tree]; exact hA.scene.input
  symm i j := by
    show intersectsSpherePoint _ _ = intersectsSpherePoint _ _
    rw [ball_eq, ball_eq, Geometry.edist_comm]
  refl i _ _ := by
    show intersectsSpherePoint _ _ = true
    rw [ball_eq, Geometry.edist_self]
    exact decide_eq_true heps.le
  mono i j v hv h := by
    refine ball_mono A.M eps (A.pt i) (A.pt j) ?_ h
    rw [← A.at_eq]; exact hv
  minPts := hmin
  chunks := hchunks
  serial := hserial

/-- **C55.** `dbscan` on points, with the implementation FDBSCAN, a positive `eps` and `core_min_size ≥ 2`: whatever the schedules of the construction of
the tree, of the clustering and of the finalisation, there is no out-of-bounds access, and when the kernels have finished the labels are a DBSCAN
clustering (or, for the algorithm DBSCAN*, a DBSCAN* clustering) of the points for the Euclidean distance, and the labels of core points do not depend on
the schedules. -/
theorem dbscan_points (star : Bool) (schedB : List ℕ) (hB : A.scene.input.Finished schedB) (fuel : ℕ) (hfuel : 2 * A.pts.length ≤ fuel)
    (schedU schedF : List ℕ) :
    (A.dbscan eps minPts star chunks serial).fdbscan fuel schedB schedU schedF = .running ∨
    ∃ l, (A.dbscan eps minPts star chunks serial).fdbscan fuel schedB schedU schedF = .labels l ∧ l.length = A.pts.length ∧
      (star = false → Dbscan.IsDBSCAN A.pts.length (A.within eps) minPts (Dbscan.labelOf l)) ∧
      (star = true → Dbscan.IsDBSCANStar A.pts.length (A.within eps) minPts (Dbscan.labelOf l)) ∧
      Dbscan.Canonical A.pts.length (A.within eps) minPts (Dbscan.labelOf l) := by
  have hV := A.dbscan_valid hA eps heps minPts hmin chunks hchunks serial hserial star
  have hnear : (A.dbscan eps minPts star chunks serial).near = A.within eps := by
    funext i j
    exact ball_eq eps _ _
  cases star with
  | false =>
    rcases Dbscan.fdbscan_correct (A.dbscan eps minPts false chunks serial) hV schedB (by rw [A.dbscan_tree]; exact hB) fuel hfuel rfl schedU schedF with h | ⟨l, h1, h2, h3, h4⟩
    · exact .inl h
    · rw [hnear] at h3 h4
      exact .inr ⟨l, h1, h2, fun _ => h3, fun h => by simp at h, h4⟩
  | true =>
    rcases Dbscan.fdbscan_star_correct (A.dbscan eps minPts true chunks serial) hV schedB (by rw [A.dbscan_tree]; exact hB) fuel hfuel rfl schedU schedF with h | ⟨l, h1, h2, h3, h4⟩
    · exact .inl h
    · rw [hnear] at h3 h4
      exact .inr ⟨l, h1, h2, fun h => by simp at h, fun _ => h3, h4⟩

/-- **C55 (termination).** `dbscan` finishes if every thread gets enough steps, whatever the others do. -/
theorem dbscan_points_terminates (star : Bool) (schedB : List ℕ) (hB : A.scene.input.Finished schedB) (fuel : ℕ) (hfuel : 2 * A.pts.length ≤ fuel) :
    ∃ steps : ℕ → ℕ, ∀ schedU schedF : List ℕ, (∀ c < chunks.length, steps c ≤ schedU.count c) →
      (∀ i < A.pts.length, A.pts.length + 5 ≤ schedF.count i) →
      (A.dbscan eps minPts star chunks serial).fdbscan fuel schedB schedU schedF ≠ .running :=
  ⟨_, fun schedU schedF hU hF => Dbscan.fdbscan_terminates (A.dbscan eps minPts star chunks serial)
    (A.dbscan_valid hA eps heps minPts hmin chunks hchunks serial hserial star) schedB (by rw [A.dbscan_tree]; exact hB) fuel hfuel schedU schedF hU hF⟩

end Dbscan

/-- **C56 (partial).** `MinimumSpanningTree` on at least two points, for any `k`: whatever the schedules of all kernels, no out-of-bounds access, and
when it returns, the edges are a minimum spanning tree for the Euclidean distances (`k ≤ 1`) or for the mutual reachability distances of the Euclidean
core distances (`k > 1`). It returns if every thread gets enough steps.

Partial: the stacks of 64 entries are assumed to be large enough for the tree (`stack_fits_partial` says when). -/
theorem mst_points_partial (A : Cloud D) (hA : A.Valid) (hn : 2 ≤ A.pts.length) (hbig : A.pts.length ≤ 2 ^ 31) (shared : Bool) (k : ℕ)
    (hcap : Nearest.StackFits A.scene.input 64) (schedB : List ℕ) (hB : A.scene.input.Finished schedB)
    (ordP : List ℕ) (hoP : ordP.Perm (List.range (2 * A.pts.length - 2)))
    (sc : ℕ → Boruvka.Sched) (hsc : ∀ it, (sc it).Valid A.pts.length) (fuel : ℕ) (hfuel : 2 * A.pts.length ≤ fuel) (iters : ℕ) :
    ∃ weight : ℕ → ℕ → ℝ,
      (k ≤ 1 → weight = A.dist) ∧
      (1 < k → ∃ core : ℕ → ℝ, (∀ p < A.pts.length, Mst.IsCore A.dist A.pts.length k p (core p)) ∧ weight = Mst.mutualReach A.dist core) ∧
      (Boruvka.mstK (A.geo shared) k A.scene.input schedB ordP sc fuel iters = .running ∨
        ∃ E, Boruvka.mstK (A.geo shared) k A.scene.input schedB ordP sc fuel iters = .ok E ∧ RealMst A.pts.length weight E) ∧
      ((∀ it, (sc it).Fair A.pts.length) → A.pts.length ≤ 2 ^ iters →
        Boruvka.mstK (A.geo shared) k A.scene.input schedB ordP sc fuel iters ≠ .running) := by
  have hlen : A.scene.input.n = A.pts.length := by simp [Scene.input, Cloud.scene]
  have hdp : (A.geo shared).dp = fun p q => ENNReal.ofReal (A.dist p q) := by
    funext p q
    show ENNReal.ofReal (distancePoint _ _) = _
    rw [distancePoint_eq]; rfl
  have hd0 : ∀ p q, 0 ≤ A.dist p q := fun p q => Geometry.edist_nonneg _ _
  obtain ⟨weight, h1, h2, h3, h4⟩ := Boruvka.mst_k_correct_partial (A.geo shared) k A.scene.input hA.scene.input (by omega) (by omega)
    (fun _ _ => rfl) (A.box_le shared)
    (fun p q => by rw [hdp]; show ENNReal.ofReal (Geometry.edist _ _) = ENNReal.ofReal (Geometry.edist _ _); rw [Geometry.edist_comm])
    (fun p _ q _ => ENNReal.ofReal_lt_top) hcap schedB hB ordP (by rw [hlen]; exact hoP) sc (by rw [hlen]; exact hsc) fuel (by omega) iters
  rw [hlen] at h3 h4
  by_cases hk : 1 < k
  · obtain ⟨core, hc, rfl⟩ := h2 hk
    rw [hlen, hdp] at hc
    have hc' := fun p hp => isCore_real hd0 (by omega : 1 ≤ A.pts.length) (by omega : 1 ≤ k) (hc p hp)
    refine ⟨Mst.mutualReach A.dist (fun p => (core p).toReal), fun h => by omega, fun _ => ⟨_, fun p hp => (hc' p hp).2, rfl⟩, ?_, h4⟩
    rcases h3 with h3 | ⟨E, hE, hM⟩
    · exact .inl h3
    refine .inr ⟨E, hE, realMst (fun p q => (hd0 p q).trans (le_max_right _ _)) ?_⟩
    have hw : ∀ p < A.pts.length, ∀ q < A.pts.length, Mst.mutualReach (A.geo shared).dp core p q =
        ENNReal.ofReal (Mst.mutualReach A.dist (fun p => (core p).toReal) p q) := by
      intro p hp q hq
      unfold Mst.mutualReach
      rw [hdp, ENNReal.ofReal_max, ENNReal.ofReal_max, ENNReal.ofReal_toReal (hc' p hp).1, ENNReal.ofReal_toReal (hc' q hq).1]
    refine ⟨fun e he => ?_, hM.tree, fun T hT hc K _ _ _ val hv h0 => ?_⟩
    · have hr := hM.tree.range _ (List.mem_map_of_mem he)
      exact ⟨(hM.weights e he).1, (hM.weights e he).2.trans (hw _ hr.1 _ hr.2)⟩
    · have := hM.minimal T hT hc K val hv h0
      rw [List.map_congr_left (fun e he => congrArg val (hw _ (hT e he).1 _ (hT e he).2))] at this
      exact this
  · rw [h1 (by omega)] at h3
    refine ⟨A.dist, fun _ => rfl, fun h => absurd h hk, ?_, h4⟩
    rcases h3 with h3 | ⟨E, hE, hM⟩
    · exact .inl h3
    · rw [hdp] at hM
      exact .inr ⟨E, hE, realMst hd0 hM⟩

lemma Cloud.Valid.indexed {A : Cloud D} (hA : A.Valid) : A.indexed.Valid := by
  have := hA.scene.input
  have hlen : A.scene.input.n = A.pts.length := by simp [Scene.input, Cloud.scene]
  refine ⟨this.width, ?_, ⟨?_, ?_⟩, ?_⟩
  · have := this.fits; rw [hlen] at this; exact this
  · have := this.sorted.perm; rw [hlen] at this; exact this
  · have := this.sorted.sorted; rw [hlen] at this; exact this
  · have := this.top; rw [hlen] at this; exact this

/-- **C57.** `findHalfNeighborList` and `findFullNeighborList` on points, under any schedules: when they have finished, the result is the compressed row
storage of a half, respectively full, neighbour list for the Euclidean distance. -/
theorem neighbor_list_points (A : Cloud D) (hA : A.Valid) (r : ℝ) (schedB : List ℕ) (hB : A.indexed.Finished schedB) (fuel : ℕ)
    (hfuel : 2 * A.pts.length ≤ fuel) (sched1 sched2 sched3 : List ℕ) :
    (Neighbor.findHalf A.pts.length A.pts.length (Neighbor.halfCalls (A.indexed.build schedB) (fun a b => ballTest r a.1 b.1) (ballNodeTest r) fuel)
        sched1 sched2 = .running ∨
      ∃ rows offsets out, Neighbor.findHalf A.pts.length A.pts.length
          (Neighbor.halfCalls (A.indexed.build schedB) (fun a b => ballTest r a.1 b.1) (ballNodeTest r) fuel) sched1 sched2 = .done offsets out ∧
        Crs.IsCrs A.pts.length rows offsets out ∧ Neighbor.IsHalf A.pts.length (A.within r) rows) ∧
    (Neighbor.findFull A.pts.length A.pts.length (Neighbor.halfCalls (A.indexed.build schedB) (fun a b => ballTest r a.1 b.1) (ballNodeTest r) fuel)
        sched1 sched2 sched3 = .running ∨
      ∃ rows offsets out, Neighbor.findFull A.pts.length A.pts.length
          (Neighbor.halfCalls (A.indexed.build schedB) (fun a b => ballTest r a.1 b.1) (ballNodeTest r) fuel) sched1 sched2 sched3 = .done offsets out ∧
        Crs.IsCrs A.pts.length rows offsets out ∧ Neighbor.IsFull A.pts.length (A.within r) rows) := by
  have hI := hA.indexed
  have hsymm : ∀ a b : Pt ℝ D, ballTest r a b = ballTest r b a := by
    intro a b
    unfold ballTest
    rw [ball_eq, ball_eq, Geometry.edist_comm]
  have hw : (fun i j => ballTest r (A.pt i) (A.pt j)) = A.within r := by
    funext i j; exact ball_eq r _ _
  have hm : ∀ a : Pt ℝ D × ℕ, Traversal.Monotone A.indexed.vol (fun b => ballTest r a.1 b.1) (ballNodeTest r a) :=
    fun a b v hv h => ball_mono A.M r a.1 b.1 hv h
  constructor
  · by_cases hrun : Neighbor.findHalf A.indexed.n A.indexed.n
      (Neighbor.halfCalls (A.indexed.build schedB) (fun a b => ballTest r a.1 b.1) (ballNodeTest r) fuel) sched1 sched2 = .running
    · exact .inl hrun
    · obtain ⟨rows, offsets, out, h1, h2, h3⟩ := Neighbor.half_neighbor_list A.indexed hI A.pt (fun _ => rfl) (ballTest r) hsymm (ballNodeTest r) hm
        schedB hB fuel hfuel sched1 sched2 hrun
      rw [hw] at h3
      exact .inr ⟨rows, offsets, out, h1, h2, h3⟩
  · by_cases hrun : Neighbor.findFull A.indexed.n A.indexed.n
      (Neighbor.halfCalls (A.indexed.build schedB) (fun a b => ballTest r a.1 b.1) (ballNodeTest r) fuel) sched1 sched2 sched3 = .running
    · exact .inl hrun
    · obtain ⟨rows, offsets, out, h1, h2, h3⟩ := Neighbor.full_neighbor_list A.indexed hI A.pt (fun _ => rfl) (ballTest r) hsymm (ballNodeTest r) hm
        schedB hB fuel hfuel sched1 sched2 sched3 hrun
      rw [hw] at h3
      exact .inr ⟨rows, offsets, out, h1, h2, h3⟩

/-! ## Non-vacuity -/

/-- Four points of the plane: three close to each other, one far away. -/
def exampleCloud : Cloud 2 where
  pts := [![0, 0], ![1, 0], ![1, 1], ![10, 10]]
  M := 1000
  prec := 24
  red := .iter (.iter (.iter (.iter .init 0) 1) 2) 3
  perm := fun i => i

theorem exampleCloud_valid : exampleCloud.Valid where
  dim2 := le_rfl
  dim10 := by norm_num
  prec := le_rfl
  fits := by decide
  sorted := by
    refine ⟨?_, ?_⟩
    · show ((List.range 4).map (fun i => i)).Perm (List.range 4)
      rw [List.map_id']
    · intro i hi
      have hi' : i + 1 < 4 := hi
      have h01 : exampleCloud.scene.code 0 ≤ exampleCloud.scene.code 1 := by decide +kernel
      have h12 : exampleCloud.scene.code 1 ≤ exampleCloud.scene.code 2 := by decide +kernel
      have h23 : exampleCloud.scene.code 2 ≤ exampleCloud.scene.code 3 := by decide +kernel
      rcases (by omega : i = 0 ∨ i = 1 ∨ i = 2) with rfl | rfl | rfl
      · exact h01
      · exact h12
      · exact h23

lemma exists_counts (n : ℕ) (f : ℕ → ℕ) : ∃ l : List ℕ, ∀ t < n, f t ≤ l.count t := by
  induction n with
  | zero => exact ⟨[], fun t ht => absurd ht (Nat.not_lt_zero t)⟩
  | succ n ih =>
    obtain ⟨l, hl⟩ := ih
    refine ⟨l ++ List.replicate (f n) n, fun t ht => ?_⟩
    rw [List.count_append]
    rcases Nat.lt_succ_iff_lt_or_eq.mp ht with h | rfl
    · exact (hl t h).trans (Nat.le_add_right _ _)
    · rw [List.count_replicate_self]; exact Nat.le_add_left _ _

/-- `dbscan_points` applies, on two threads, and the clustering does finish. -/
example : ∃ schedB schedU schedF l, (exampleCloud.dbscan (3 / 2) 3 false [[2, 0], [1, 3]] false).fdbscan 8 schedB schedU schedF = .labels l ∧
    Dbscan.IsDBSCAN 4 (exampleCloud.within (3 / 2)) 3 (Dbscan.labelOf l) := by
  obtain ⟨schedB, hB⟩ := Construction.exists_complete exampleCloud.scene.input.params (exampleCloud_valid.scene.input.keys (by decide))
  have hch : ([[2, 0], [1, 3]] : List (List ℕ)).flatten.Perm (List.range exampleCloud.pts.length) := by decide
  obtain ⟨steps, hsteps⟩ := dbscan_points_terminates exampleCloud exampleCloud_valid (3 / 2) (by norm_num) 3 (by norm_num) _ hch false (by simp) false
    schedB (fun _ => hB) 8 le_rfl
  obtain ⟨schedU, hU⟩ := exists_counts 2 steps
  obtain ⟨schedF, hF⟩ := exists_counts 4 (fun _ => 9)
  rcases dbscan_points exampleCloud exampleCloud_valid (3 / 2) (by norm_num) 3 (by norm_num) _ hch false (by simp) false
    schedB (fun _ => hB) 8 le_rfl schedU schedF with h | ⟨l, h, -, hD, -⟩
  · exact absurd h (hsteps schedU schedF hU hF)
  · exact ⟨_, _, _, l, h, hD rfl⟩

/-- `mst_points_partial` applies. -/
example (k : ℕ) : ∃ schedB ordP sc fuel iters E, ∃ weight,
    Boruvka.mstK (exampleCloud.geo true) k exampleCloud.scene.input schedB ordP sc fuel iters = .ok E ∧ RealMst 4 weight E := by
  obtain ⟨schedB, hB⟩ := Construction.exists_complete exampleCloud.scene.input.params (exampleCloud_valid.scene.input.keys (by decide))
  obtain ⟨sc, h1, h2⟩ := Boruvka.exists_sched 4
  have hcap : Nearest.StackFits exampleCloud.scene.input 64 := by
    intro T hT
    exact Nearest.stack_suffices_small exampleCloud.scene.input (by decide) (by decide) T hT
  obtain ⟨weight, -, -, h, h'⟩ := mst_points_partial exampleCloud exampleCloud_valid (by decide) (by decide) true k hcap schedB (fun _ => hB)
    (List.range (2 * 4 - 2)) (List.Perm.refl _) (fun _ => sc) (fun _ => h1) 8 le_rfl 3
  rcases h with h | ⟨E, h, hE⟩
  · exact absurd h (h' (fun _ => h2) (by decide))
  · exact ⟨_, _, _, _, _, E, weight, h, hE⟩

/-- `neighbor_list_points` applies, and the lists are computed. -/
example : ∃ schedB sched1 sched2 rows offsets out, Neighbor.findHalf 4 4
      (Neighbor.halfCalls (exampleCloud.indexed.build schedB) (fun a b => ballTest 1 a.1 b.1) (ballNodeTest 1) 8) sched1 sched2 = .done offsets out ∧
    Crs.IsCrs 4 rows offsets out ∧ Neighbor.IsHalf 4 (exampleCloud.within 1) rows := by
  obtain ⟨schedB, hB⟩ := Construction.exists_complete exampleCloud.indexed.params
    (exampleCloud_valid.indexed.keys (by decide))
  obtain ⟨sched, hs⟩ := exists_counts 4 (fun t => 2 * (Neighbor.halfCalls (exampleCloud.indexed.build schedB) (fun a b => ballTest 1 a.1 b.1)
    (ballNodeTest 1) 8 t).length)
  rcases (neighbor_list_points exampleCloud exampleCloud_valid 1 schedB (fun _ => hB) 8 le_rfl sched sched []).1 with h | ⟨rows, o, out, h, h2, h3⟩
  · exact absurd h (Neighbor.half_terminates hs hs)
  · exact ⟨_, _, _, rows, o, out, h, h2, h3⟩

end ArborX.Euclid
