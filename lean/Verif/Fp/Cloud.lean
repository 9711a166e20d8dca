import Verif.Fp.Theorems
import Verif.Euclid.Cloud

/-!
# Points in floating-point arithmetic: clustering, minimum spanning trees and neighbour lists (C67)
-/

namespace ArborX.Fp

open Geometry BVH Euclid

variable {D : ℕ}

/-! ## Model -/

/-- The points given to `dbscan`, `MinimumSpanningTree`, `hdbscan` or `findHalfNeighborList`, with what the construction of the tree depends on (see
`Scene`). -/
structure Cloud (D : ℕ) where
  pts : List (Pt ℝ D)
  M : ℝ
  code : ℕ → BitVec 64
  perm : ℕ → ℕ

/-- The tree is built on the points with their indices (`src/cluster/ArborX_DBSCAN.hpp` 273-274, `src/cluster/ArborX_MinimumSpanningTree.hpp` 66,
`src/spatial/detail/ArborX_NeighborList.hpp` 75). -/
def Cloud.scene (A : Cloud D) : Scene D := ⟨A.pts.map .point, A.M, A.code, A.perm⟩

/-- Point `i`. -/
def Cloud.pt (A : Cloud D) (i : ℕ) : Pt ℝ D := A.pts.getD i 0

/-- The computed distance of points `i` and `j`. -/
noncomputable def Cloud.dist (A : Cloud D) (F : Format) (i j : ℕ) : EReal := F.distPoint (A.pt i) (A.pt j)

/-- `dbscan(space, points, eps, core_min_size)` (`src/cluster/ArborX_DBSCAN.hpp` 219-327, 489-522): the predicates are balls around the points with
radius `eps` (55-70, 299); the rest as in `Dbscan.In`. -/
noncomputable def Cloud.dbscan (A : Cloud D) (F : Format) (eps : ℝ) (minPts : ℕ) (star : Bool) (chunks : List (List ℕ)) (serial : Bool) :
    Dbscan.In (Bound D) 64 where
  n := A.pts.length
  near i j := decide (F.intersects (.sphere ⟨A.pt i, eps⟩) (.point (A.pt j)) = some true)
  pv i := nodeTest F (.sphere ⟨A.pt i, eps⟩)
  vol := A.scene.input.vol
  code := A.code
  perm := A.perm
  minPts := minPts
  star := star
  chunks := chunks
  serial := serial

/-- The distances of `MinimumSpanningTree` (`src/cluster/detail/ArborX_BoruvkaHelpers.hpp` 166-175): points to points and points to boxes. -/
noncomputable def Cloud.geo (A : Cloud D) (F : Format) (shared : Bool) : Boruvka.Geo (Bound D) EReal where
  dp p q := A.dist F p q
  dv p := WithBot.recBotCoe ⊤ (fun B => F.distPointBox (A.pt p) B.1)
  shared := shared

/-- The tree of `findHalfNeighborList` and `findFullNeighborList` (`src/spatial/detail/ArborX_NeighborList.hpp` 75, 135): the values are the points
with their indices. -/
noncomputable def Cloud.indexed (A : Cloud D) : Input (Pt ℝ D × ℕ) (Bound D) 64 where
  n := A.pts.length
  values i := (A.pt i, i)
  vol a := leafBound A.M (.point a.1)
  code := A.code
  perm := A.perm

/-- `NeighborListPredicateGetter` (`ArborX_NeighborList.hpp` 27-46) on a leaf. -/
noncomputable def ballTest (F : Format) (r : ℝ) (a b : Pt ℝ D) : Bool := decide (F.intersects (.sphere ⟨a, r⟩) (.point b) = some true)

/-- The same on an internal node. -/
noncomputable def ballNodeTest (F : Format) (r : ℝ) (a : Pt ℝ D × ℕ) : Bound D → Bool := nodeTest F (.sphere ⟨a.1, r⟩)

/-! ## Specification -/

/-- The computed distance of points `i` and `j` is at most `r`. -/
noncomputable def Cloud.within (A : Cloud D) (F : Format) (r : ℝ) (i j : ℕ) : Bool := decide (A.dist F i j ≤ r)

/-- The Euclidean distance of points `i` and `j`. -/
noncomputable def Cloud.edist (A : Cloud D) (i j : ℕ) : ℝ := Geometry.edist (A.pt i) (A.pt j)

/-- The Euclidean distance is at most `r`. -/
noncomputable def Cloud.ewithin (A : Cloud D) (r : ℝ) (i j : ℕ) : Bool := decide (A.edist i j ≤ r)

/-- No distance of two points is so near to `r` that its rounding matters: it is smaller or larger by more than `D + 5` roundings of the square. -/
def Cloud.Clear (A : Cloud D) (u lo hi r : ℝ) : Prop :=
  ∀ i < A.pts.length, ∀ j < A.pts.length, InRange u lo hi (A.pt i) (A.pt j) ∧
    ((1 + u) ^ (D + 5) * A.edist i j ^ 2 ≤ r ^ 2 ∨ r ^ 2 < (1 - u) ^ (D + 5) * A.edist i j ^ 2)

/-! ## Lemmas -/

/-- What the construction of the tree needs, see `Scene.Valid`. -/
structure Cloud.Valid (A : Cloud D) : Prop where
  fits : A.pts.length ≤ 2 ^ 63
  sorted : A.scene.input.Sorted
  top : ∀ i < A.pts.length, (A.code i).toNat < 2 ^ 63

lemma Cloud.at_eq (A : Cloud D) (i : ℕ) : A.scene.at i = .point (A.pt i) := by
  unfold Scene.at Cloud.scene Cloud.pt
  simp only [List.getD_eq_getElem?_getD, List.getElem?_map]
  cases A.pts[i]? <;> rfl

lemma Cloud.n_eq (A : Cloud D) : A.scene.input.n = A.pts.length := by simp [Scene.input, Cloud.scene]

lemma Cloud.Valid.scene {A : Cloud D} (h : A.Valid) : A.scene.Valid where
  fits := by simpa [Cloud.scene] using h.fits
  sorted := h.sorted
  top := by simpa [Cloud.scene] using h.top
  simple := by
    intro g hg
    obtain ⟨p, -, rfl⟩ := List.mem_map.mp hg
    exact trivial

lemma Cloud.Valid.indexed {A : Cloud D} (hA : A.Valid) : A.indexed.Valid := by
  have hs := hA.sorted
  refine ⟨by norm_num, hA.fits, ⟨?_, ?_⟩, hA.top⟩
  · have := hs.perm; rw [A.n_eq] at this; exact this
  · have := hs.sorted; rw [A.n_eq] at this; exact this

lemma ballTest_eq (F : Format) (r : ℝ) (a b : Pt ℝ D) : ballTest F r a b = decide (F.distPoint a b ≤ r) := by
  unfold ballTest
  simp only [Format.intersects, Option.some_inj, decide_eq_true_eq]

lemma ball_mono (F : Format) (M r : ℝ) (p q : Pt ℝ D) {v : Bound D} (hv : leafBound M (.point q) ≤ v) (h : ballTest F r p q = true) :
    nodeTest F (.sphere ⟨p, r⟩) v = true := by
  obtain ⟨C, rfl, hC⟩ := leafBound_le (g := .point q) trivial hv
  exact decide_eq_true (intersects_mono F (Q := .sphere ⟨p, r⟩) (g := .point q) trivial trivial hC (of_decide_eq_true h))

lemma Cloud.box_le (A : Cloud D) (F : Format) (shared : Bool) (p q : ℕ) (v : Bound D) (hv : A.scene.input.vol q ≤ v) :
    (A.geo F shared).dv p v ≤ (A.geo F shared).dp p q := by
  have hv' : leafBound A.M (.point (A.pt q)) ≤ v := by
    rw [← A.at_eq]; exact hv
  obtain ⟨C, rfl, hC⟩ := leafBound_le (g := .point (A.pt q)) trivial hv'
  exact F.distPointBox_le _ _ (hC rfl)

/-- Clear of rounding, the computed and the Euclidean neighbourhoods are the same. -/
lemma Cloud.Clear.within {A : Cloud D} {u lo hi r : ℝ} (h : A.Clear u lo hi r) (hr : 0 ≤ r) {F : Format} (hF : F.Accurate u lo hi) {i j : ℕ}
    (hi' : i < A.pts.length) (hj : j < A.pts.length) : A.within F r i j = A.ewithin r i j := by
  obtain ⟨h1, h2⟩ := h i hi' j hj
  obtain ⟨x, ex, x0, l1, l2⟩ := distance_accuracy hF _ _ h1
  have hd0 : 0 ≤ A.edist i j := Geometry.edist_nonneg _ _
  have hu0 := hF.u0
  have hu1 := hF.u1
  unfold Cloud.within Cloud.ewithin Cloud.dist
  rw [ex, decide_eq_decide, EReal.coe_le_coe_iff]
  rcases h2 with h2 | h2
  · refine iff_of_true (abs_le_of_sq_le_sq' (l2.trans h2) hr).2 (abs_le_of_sq_le_sq' (le_trans ?_ h2) hr).2
    exact le_mul_of_one_le_left (sq_nonneg _) (one_le_pow₀ (by linarith))
  · refine iff_of_false (fun hle => ?_) (fun hle => ?_)
    · exact absurd (pow_le_pow_left₀ x0 hle 2) (not_le.mpr (lt_of_lt_of_le h2 l1))
    · have h3 := pow_le_pow_left₀ hd0 hle 2
      have h4 : (1 - u) ^ (D + 5) * A.edist i j ^ 2 ≤ A.edist i j ^ 2 :=
        mul_le_of_le_one_left (sq_nonneg _) (pow_le_one₀ (by linarith) (by linarith))
      linarith

/-! ## Property theorems -/

section Dbscan

variable (A : Cloud D) (hA : A.Valid) (F : Format) (eps : ℝ) (heps : 0 < eps) (minPts : ℕ) (hmin : 2 ≤ minPts)
  (chunks : List (List ℕ)) (hchunks : chunks.flatten.Perm (List.range A.pts.length)) (serial : Bool) (hserial : serial = true → chunks.length ≤ 1)

include hA heps hmin hchunks hserial

omit hA heps hmin hchunks hserial in
lemma Cloud.dbscan_tree (star : Bool) : (A.dbscan F eps minPts star chunks serial).tree = A.scene.input := by
  unfold Dbscan.In.tree Cloud.dbscan
  rw [← A.n_eq]
  rfl

lemma Cloud.dbscan_valid (star : Bool) : (A.dbscan F eps minPts star chunks serial).Valid where
  tree := by rw [A.dbscan_tree]; exact hA.scene.input
  symm i j := by
    show ballTest F eps (A.pt i) (A.pt j) = ballTest F eps (A.pt j) (A.pt i)
    rw [ballTest_eq, ballTest_eq, F.distPoint_comm]
  refl i _ _ := by
    show ballTest F eps (A.pt i) (A.pt i) = true
    rw [ballTest_eq, F.distPoint_self]
    exact decide_eq_true (EReal.coe_nonneg.mpr heps.le)
  mono i j v hv h := by
    refine ball_mono F A.M eps (A.pt i) (A.pt j) ?_ h
    rw [← A.at_eq]; exact hv
  minPts := hmin
  chunks := hchunks
  serial := hserial

/-- **C67.** `dbscan` on points in floating-point arithmetic (FDBSCAN, `eps > 0`, `core_min_size ≥ 2`): whatever the schedules, no out-of-bounds access,
and when the kernels have finished the labels are a DBSCAN (or DBSCAN*) clustering for the neighbourhoods "computed distance at most `eps`". -/
theorem dbscan_float (star : Bool) (schedB : List ℕ) (hB : A.scene.input.Finished schedB) (fuel : ℕ) (hfuel : 2 * A.pts.length ≤ fuel)
    (schedU schedF : List ℕ) :
    (A.dbscan F eps minPts star chunks serial).fdbscan fuel schedB schedU schedF = .running ∨
    ∃ l, (A.dbscan F eps minPts star chunks serial).fdbscan fuel schedB schedU schedF = .labels l ∧ l.length = A.pts.length ∧
      (star = false → Dbscan.IsDBSCAN A.pts.length (A.within F eps) minPts (Dbscan.labelOf l)) ∧
      (star = true → Dbscan.IsDBSCANStar A.pts.length (A.within F eps) minPts (Dbscan.labelOf l)) ∧
      Dbscan.Canonical A.pts.length (A.within F eps) minPts (Dbscan.labelOf l) := by
  have hV := A.dbscan_valid hA F eps heps minPts hmin chunks hchunks serial hserial star
  have hnear : (A.dbscan F eps minPts star chunks serial).near = A.within F eps := by
    funext i j
    exact ballTest_eq F eps _ _
  cases star with
  | false =>
    rcases Dbscan.fdbscan_correct (A.dbscan F eps minPts false chunks serial) hV schedB (by rw [A.dbscan_tree]; exact hB) fuel hfuel rfl schedU schedF with h | ⟨l, h1, h2, h3, h4⟩
    · exact .inl h
    · rw [hnear] at h3 h4
      exact .inr ⟨l, h1, h2, fun _ => h3, fun h => by simp at h, h4⟩
  | true =>
    rcases Dbscan.fdbscan_star_correct (A.dbscan F eps minPts true chunks serial) hV schedB (by rw [A.dbscan_tree]; exact hB) fuel hfuel rfl schedU schedF with h | ⟨l, h1, h2, h3, h4⟩
    · exact .inl h
    · rw [hnear] at h3 h4
      exact .inr ⟨l, h1, h2, fun h => by simp at h, fun _ => h3, h4⟩

/-- **C67 (termination).** -/
theorem dbscan_float_terminates (star : Bool) (schedB : List ℕ) (hB : A.scene.input.Finished schedB) (fuel : ℕ) (hfuel : 2 * A.pts.length ≤ fuel) :
    ∃ steps : ℕ → ℕ, ∀ schedU schedF : List ℕ, (∀ c < chunks.length, steps c ≤ schedU.count c) →
      (∀ i < A.pts.length, A.pts.length + 5 ≤ schedF.count i) →
      (A.dbscan F eps minPts star chunks serial).fdbscan fuel schedB schedU schedF ≠ .running :=
  ⟨_, fun schedU schedF hU hF => Dbscan.fdbscan_terminates (A.dbscan F eps minPts star chunks serial)
    (A.dbscan_valid hA F eps heps minPts hmin chunks hchunks serial hserial star) schedB (by rw [A.dbscan_tree]; exact hB) fuel hfuel schedU schedF hU hF⟩

end Dbscan

/-- **C67.** Neighbour lists of points in floating-point arithmetic are the half, respectively full, neighbour lists for the computed distances. -/
theorem neighbor_list_float (A : Cloud D) (hA : A.Valid) (F : Format) (r : ℝ) (schedB : List ℕ) (hB : A.indexed.Finished schedB) (fuel : ℕ)
    (hfuel : 2 * A.pts.length ≤ fuel) (sched1 sched2 sched3 : List ℕ) :
    (Neighbor.findHalf A.pts.length A.pts.length (Neighbor.halfCalls (A.indexed.build schedB) (fun a b => ballTest F r a.1 b.1) (ballNodeTest F r) fuel)
        sched1 sched2 = .running ∨
      ∃ rows offsets out, Neighbor.findHalf A.pts.length A.pts.length
          (Neighbor.halfCalls (A.indexed.build schedB) (fun a b => ballTest F r a.1 b.1) (ballNodeTest F r) fuel) sched1 sched2 = .done offsets out ∧
        Crs.IsCrs A.pts.length rows offsets out ∧ Neighbor.IsHalf A.pts.length (A.within F r) rows) ∧
    (Neighbor.findFull A.pts.length A.pts.length (Neighbor.halfCalls (A.indexed.build schedB) (fun a b => ballTest F r a.1 b.1) (ballNodeTest F r) fuel)
        sched1 sched2 sched3 = .running ∨
      ∃ rows offsets out, Neighbor.findFull A.pts.length A.pts.length
          (Neighbor.halfCalls (A.indexed.build schedB) (fun a b => ballTest F r a.1 b.1) (ballNodeTest F r) fuel) sched1 sched2 sched3 = .done offsets out ∧
        Crs.IsCrs A.pts.length rows offsets out ∧ Neighbor.IsFull A.pts.length (A.within F r) rows) := by
  have hI := hA.indexed
  have hsymm : ∀ a b : Pt ℝ D, ballTest F r a b = ballTest F r b a := by
    intro a b
    rw [ballTest_eq, ballTest_eq, F.distPoint_comm]
  have hw : (fun i j => ballTest F r (A.pt i) (A.pt j)) = A.within F r := by
    funext i j; exact ballTest_eq F r _ _
  have hm : ∀ a : Pt ℝ D × ℕ, Traversal.Monotone A.indexed.vol (fun b => ballTest F r a.1 b.1) (ballNodeTest F r a) :=
    fun a b v hv h => ball_mono F A.M r a.1 b.1 hv h
  constructor
  · by_cases hrun : Neighbor.findHalf A.indexed.n A.indexed.n
      (Neighbor.halfCalls (A.indexed.build schedB) (fun a b => ballTest F r a.1 b.1) (ballNodeTest F r) fuel) sched1 sched2 = .running
    · exact .inl hrun
    · obtain ⟨rows, offsets, out, h1, h2, h3⟩ := Neighbor.half_neighbor_list A.indexed hI A.pt (fun _ => rfl) (ballTest F r) hsymm (ballNodeTest F r) hm
        schedB hB fuel hfuel sched1 sched2 hrun
      rw [hw] at h3
      exact .inr ⟨rows, offsets, out, h1, h2, h3⟩
  · by_cases hrun : Neighbor.findFull A.indexed.n A.indexed.n
      (Neighbor.halfCalls (A.indexed.build schedB) (fun a b => ballTest F r a.1 b.1) (ballNodeTest F r) fuel) sched1 sched2 sched3 = .running
    · exact .inl hrun
    · obtain ⟨rows, offsets, out, h1, h2, h3⟩ := Neighbor.full_neighbor_list A.indexed hI A.pt (fun _ => rfl) (ballTest F r) hsymm (ballNodeTest F r) hm
        schedB hB fuel hfuel sched1 sched2 sched3 hrun
      rw [hw] at h3
      exact .inr ⟨rows, offsets, out, h1, h2, h3⟩

/-- **C68 (partial).** `MinimumSpanningTree` in floating-point arithmetic, on at least two points whose distances do not overflow: the result is a minimum
spanning tree for the computed distances, or for the mutual reachability distances made from them.

Partial: the stacks of 64 entries are assumed to be large enough for the tree (`stack_fits_partial` says when). -/
theorem mst_float_partial (A : Cloud D) (hA : A.Valid) (F : Format) (hn : 2 ≤ A.pts.length) (hbig : A.pts.length ≤ 2 ^ 31)
    (hfin : ∀ p < A.pts.length, ∀ q < A.pts.length, A.dist F p q < ⊤) (shared : Bool) (k : ℕ)
    (hcap : Nearest.StackFits A.scene.input 64) (schedB : List ℕ) (hB : A.scene.input.Finished schedB)
    (ordP : List ℕ) (hoP : ordP.Perm (List.range (2 * A.pts.length - 2)))
    (sc : ℕ → Boruvka.Sched) (hsc : ∀ it, (sc it).Valid A.pts.length) (fuel : ℕ) (hfuel : 2 * A.pts.length ≤ fuel) (iters : ℕ) :
    ∃ weight : ℕ → ℕ → EReal,
      (k ≤ 1 → weight = A.dist F) ∧
      (1 < k → ∃ core : ℕ → EReal, (∀ p < A.pts.length, Mst.IsCore (A.dist F) A.pts.length k p (core p)) ∧ weight = Mst.mutualReach (A.dist F) core) ∧
      (Boruvka.mstK (A.geo F shared) k A.scene.input schedB ordP sc fuel iters = .running ∨
        ∃ E, Boruvka.mstK (A.geo F shared) k A.scene.input schedB ordP sc fuel iters = .ok E ∧ Mst.IsMst A.pts.length weight E) ∧
      ((∀ it, (sc it).Fair A.pts.length) → A.pts.length ≤ 2 ^ iters →
        Boruvka.mstK (A.geo F shared) k A.scene.input schedB ordP sc fuel iters ≠ .running) := by
  have hlen := A.n_eq
  have := Boruvka.mst_k_correct_partial (A.geo F shared) k A.scene.input hA.scene.input (by omega) (by omega)
    (fun _ _ => rfl) (A.box_le F shared) (fun p q => F.distPoint_comm _ _)
    (by rw [hlen]; exact hfin) hcap schedB hB ordP (by rw [hlen]; exact hoP) sc (by rw [hlen]; exact hsc) fuel (by omega) iters
  rw [hlen] at this
  exact this

end ArborX.Fp
