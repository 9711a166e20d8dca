import Verif.Hdbscan.Invariance

/-!
# Property theorems: clusterings and trees only depend on the pairwise distances (C90)

Two calls on `n` points each, such that a renumbering `σ` takes the distances of the second call to those of the first. This covers the same points given in
another order, and points that were moved, turned or reflected, or embedded in a space of another dimension, as far as the (computed) distances stay the same.
The bounding volumes, codes, trees and schedules of the two calls are unrelated.
-/

namespace ArborX.Hdbscan

open Boruvka
open Dendrogram (Above)
open Mst (IsCore mutualReach WeightedEdge)
open BVH (Input)

section Trees

variable {W V V' : Type} [LinearOrder W] [BoundedOrder W] [SemilatticeSup V] [OrderBot V] [SemilatticeSup V'] [OrderBot V'] {w w' : ℕ}

/-- **C90 (partial).** The minimum spanning trees of two sets of points with the same distances, up to the numbering of the points, have the same weights. For
`k ≤ 1` and distinct distances, they consist of the same edges.

Partial: the stacks of 64 entries are assumed to be large enough for the trees (`mst_height_partial` says when). -/
theorem mst_invariant_partial (G : Geo V W) (G' : Geo V' W) (k : ℕ) (I : Input ℕ V w) (I' : Input ℕ V' w')
    (hI : I.Valid) (hI' : I'.Valid) (hn : 2 ≤ I.n) (hn' : I'.n = I.n) (hbig : I.n ≤ 2 ^ 31)
    (σ : ℕ → ℕ) (hσ : Renumbering I.n σ) (hdp : ∀ p < I.n, ∀ q < I.n, G'.dp p q = G.dp (σ p) (σ q))
    (hval : ∀ p < I.n, I.values p = p) (hval' : ∀ p < I.n, I'.values p = p)
    (hbox : ∀ p q v, I.vol q ≤ v → G.dv p v ≤ G.dp p q) (hbox' : ∀ p q v, I'.vol q ≤ v → G'.dv p v ≤ G'.dp p q)
    (hsymm : ∀ p q, G.dp p q = G.dp q p) (hsymm' : ∀ p q, G'.dp p q = G'.dp q p) (hfin : ∀ p < I.n, ∀ q < I.n, G.dp p q < ⊤)
    (hcap : Nearest.StackFits I 64) (hcap' : Nearest.StackFits I' 64)
    (schedB schedB' : List ℕ) (hf : I.Finished schedB) (hf' : I'.Finished schedB')
    (ordP ordP' : List ℕ) (hoP : ordP.Perm (List.range (2 * I.n - 2))) (hoP' : ordP'.Perm (List.range (2 * I.n - 2)))
    (sc sc' : ℕ → Sched) (hsc : ∀ it, (sc it).Valid I.n) (hsc' : ∀ it, (sc' it).Valid I.n)
    (fuel fuel' : ℕ) (hfuel : 2 * I.n ≤ fuel) (hfuel' : 2 * I.n ≤ fuel') (iters iters' : ℕ)
    (E E' : List (WeightedEdge W)) (hE : mstK G k I schedB ordP sc fuel iters = .ok E)
    (hE' : mstK G' k I' schedB' ordP' sc' fuel' iters' = .ok E') :
    (E.map (·.weight)).Perm (E'.map (·.weight)) ∧
    (k ≤ 1 → (∀ p < I.n, ∀ q < I.n, ∀ p' < I.n, ∀ q' < I.n, p ≠ q → p' ≠ q' → G.dp p q = G.dp p' q' → s(p, q) = s(p', q')) →
      (E.map (fun e => (s(e.source, e.target), e.weight))).Perm (E'.map (fun e => (s(σ e.source, σ e.target), e.weight)))) := by
  obtain ⟨wt, a1, a2, h1, -⟩ := mst_k_correct_partial G k I hI hn hbig hval hbox hsymm hfin hcap schedB hf ordP hoP sc hsc fuel hfuel iters
  obtain ⟨wt', b1, b2, h2, -⟩ := mst_k_correct_partial G' k I' hI' (by omega) (by omega) (by rw [hn']; exact hval') hbox'
    hsymm' (by rw [hn']; exact fun p hp q hq => by rw [hdp p hp q hq]; exact hfin _ (hσ.lt hp) _ (hσ.lt hq)) hcap' schedB' hf' ordP' (by rw [hn']; exact hoP') sc'
    (by rw [hn']; exact hsc') fuel' (by rw [hn']; exact hfuel') iters'
  rw [hE] at h1
  rw [hE', hn'] at h2
  rw [hn'] at b2
  rcases h1 with h1 | ⟨F, e, h1⟩
  · cases h1
  rcases h2 with h2 | ⟨F', e', h2⟩
  · cases h2
  cases e
  cases e'
  have hw : ∀ p < I.n, ∀ q < I.n, wt' p q = wt (σ p) (σ q) := by
    intro p hp q hq
    by_cases hk : 1 < k
    · obtain ⟨core, c1, rfl⟩ := a2 hk
      obtain ⟨core', c2, rfl⟩ := b2 hk
      exact Mst.mutualReach_renumber hσ hdp c1 c2 hp hq
    · rw [a1 (by omega), b1 (by omega), hdp p hp q hq]
  have hp := h1.weights_perm (h2.renumber hσ hw)
  constructor
  · rw [List.map_map] at hp
    exact hp
  · intro hk hd
    rw [a1 hk] at h1 hw
    have := h1.edges_perm hd (h2.renumber hσ hw) hp
    rw [List.map_map] at this
    exact this

/-- **C90 (partial).** The dendrograms of two sets of points with the same distances, up to the numbering of the points, have the same heights, and at every
height the same clusters.

Partial: as for C60. -/
theorem hdbscan_invariant_partial (boruvka boruvka' : Bool) (G : Geo V W) (G' : Geo V' W) (bits bits' : W → ℕ) (k : ℕ)
    (I : Input ℕ V w) (I' : Input ℕ V' w') (hI : I.Valid) (hI' : I'.Valid) (hn : 2 ≤ I.n) (hn' : I'.n = I.n) (hbig : I.n ≤ 2 ^ 30)
    (σ : ℕ → ℕ) (hσ : Renumbering I.n σ) (hdp : ∀ p < I.n, ∀ q < I.n, G'.dp p q = G.dp (σ p) (σ q))
    (hval : ∀ p < I.n, I.values p = p) (hval' : ∀ p < I.n, I'.values p = p)
    (hbox : ∀ p q v, I.vol q ≤ v → G.dv p v ≤ G.dp p q) (hbox' : ∀ p q v, I'.vol q ≤ v → G'.dv p v ≤ G'.dp p q)
    (hsymm : ∀ p q, G.dp p q = G.dp q p) (hsymm' : ∀ p q, G'.dp p q = G'.dp q p)
    (hfin : ∀ p < I.n, ∀ q < I.n, G.dp p q < ⊤) (hbits : BitsOk I.n G.dp bits) (hbits' : BitsOk I.n G'.dp bits')
    (hcap : Nearest.StackFits I 64) (hcap' : Nearest.StackFits I' 64)
    (schedB schedB' : List ℕ) (hf : I.Finished schedB) (hf' : I'.Finished schedB')
    (ordP ordP' : List ℕ) (hoP : ordP.Perm (List.range (2 * I.n - 2))) (hoP' : ordP'.Perm (List.range (2 * I.n - 2)))
    (sc sc' : ℕ → HSched) (hsc : ∀ it, (sc it).Valid I.n) (hsc' : ∀ it, (sc' it).Valid I.n)
    (ro ro' : Reorder W) (hro : ro.Valid (I.n - 1)) (hro' : ro'.Valid (I.n - 1))
    (fuel fuel' : ℕ) (hfuel : 2 * I.n ≤ fuel) (hfuel' : 2 * I.n ≤ fuel') (iters iters' : ℕ)
    {parents parents' : ℕ → Option ℤ} {heights heights' : ℕ → Option W}
    (h : hdbscan boruvka G bits k I schedB ordP sc ro fuel iters = .ok (parents, heights))
    (h' : hdbscan boruvka' G' bits' k I' schedB' ordP' sc' ro' fuel' iters' = .ok (parents', heights')) :
    ((List.range (I.n - 1)).map heights).Perm ((List.range (I.n - 1)).map heights') ∧
    ∀ u < I.n, ∀ v < I.n, u ≠ v → ∀ t : W,
      (∃ e < I.n - 1, ∃ a ≤ t, heights' e = some a ∧ Above parents' e (I.n - 1 + u) ∧ Above parents' e (I.n - 1 + v)) ↔
      (∃ e < I.n - 1, ∃ a ≤ t, heights e = some a ∧ Above parents e (I.n - 1 + σ u) ∧ Above parents e (I.n - 1 + σ v)) := by
  obtain ⟨weight, a1, a2, a3, -⟩ := hdbscan_correct_partial boruvka G bits k I hI hn hbig hval hbox hsymm hfin hbits hcap schedB hf
    ordP hoP sc hsc ro hro fuel hfuel iters
  obtain ⟨weight', b1, b2, b3, -⟩ := hdbscan_correct_partial boruvka' G' bits' k I' hI' (by omega) (by omega) (by rw [hn']; exact hval') hbox'
    hsymm' (by rw [hn']; exact fun p hp q hq => by rw [hdp p hp q hq]; exact hfin _ (hσ.lt hp) _ (hσ.lt hq)) (by rw [hn']; exact hbits') hcap' schedB' hf'
    ordP' (by rw [hn']; exact hoP') sc' (by rw [hn']; exact hsc') ro' (by rw [hn']; exact hro') fuel' (by rw [hn']; exact hfuel') iters'
  rw [h] at a3
  rw [h'] at b3
  rw [hn'] at b2 b3
  have H : IsDendrogram I.n weight parents heights := by
    rcases a3 with a3 | ⟨p, t, e, a3⟩
    · cases a3
    · cases e; exact a3
  have H' : IsDendrogram I.n weight' parents' heights' := by
    rcases b3 with b3 | ⟨p, t, e, b3⟩
    · cases b3
    · cases e; exact b3
  refine H.renumber hn hσ (fun p hp q hq => ?_) H'
  by_cases hk : 1 < k
  · obtain ⟨core, c1, rfl⟩ := a2 hk
    obtain ⟨core', c2, rfl⟩ := b2 hk
    exact Mst.mutualReach_renumber hσ hdp c1 c2 hp hq
  · rw [a1 (by omega), b1 (by omega), hdp p hp q hq]

end Trees

section Dbscan

open Fp
open Geometry (Pt)

variable {D D' : ℕ}

/-- **C90.** `dbscan` on two sets of points with the same computed distances, up to the numbering `σ` of the points, in any arithmetic: the same points are noise; for
DBSCAN* the clusters are the same, and for DBSCAN those of the core points are. -/
theorem dbscan_invariant (A : Cloud D) (B : Cloud D') (hA : A.Valid) (hB : B.Valid) (F : Format) (hn : B.pts.length = A.pts.length)
    (σ : ℕ → ℕ) (hσ : Renumbering A.pts.length σ)
    (hdist : ∀ p < A.pts.length, ∀ q < A.pts.length, F.distPoint (B.pt p) (B.pt q) = F.distPoint (A.pt (σ p)) (A.pt (σ q)))
    (eps : ℝ) (heps : 0 < eps) (k : ℕ) (hk : 2 ≤ k) (star : Bool)
    (chunks chunks' : List (List ℕ)) (hchunks : chunks.flatten.Perm (List.range A.pts.length)) (hchunks' : chunks'.flatten.Perm (List.range A.pts.length))
    (serial serial' : Bool) (hserial : serial = true → chunks.length ≤ 1) (hserial' : serial' = true → chunks'.length ≤ 1)
    (schedB schedB' : List ℕ) (hb : A.scene.input.Finished schedB) (hb' : B.scene.input.Finished schedB')
    (fuel fuel' : ℕ) (hfuel : 2 * A.pts.length ≤ fuel) (hfuel' : 2 * A.pts.length ≤ fuel') (schedU schedU' schedF schedF' : List ℕ)
    {l l' : List ℤ} (h : (A.dbscan F eps k star chunks serial).fdbscan fuel schedB schedU schedF = .labels l)
    (h' : (B.dbscan F eps k star chunks' serial').fdbscan fuel' schedB' schedU' schedF' = .labels l') :
    (∀ u < A.pts.length, 0 ≤ Dbscan.labelOf l' u ↔ 0 ≤ Dbscan.labelOf l (σ u)) ∧
    (∀ u < A.pts.length, ∀ v < A.pts.length,
      (star = false → Dbscan.Core A.pts.length (A.within F eps) k (σ u) ∧ Dbscan.Core A.pts.length (A.within F eps) k (σ v)) →
      (Dbscan.labelOf l' u = Dbscan.labelOf l' v ↔ Dbscan.labelOf l (σ u) = Dbscan.labelOf l (σ v))) := by
  have hw : ∀ i < A.pts.length, ∀ j < A.pts.length, B.within F eps i j = A.within F eps (σ i) (σ j) := by
    intro i hi j hj
    unfold Cloud.within Cloud.dist
    rw [hdist i hi j hj]
  rcases dbscan_float A hA F eps heps k hk chunks hchunks serial hserial star schedB hb fuel hfuel schedU schedF with g | ⟨m, g, -, g1, g2, -⟩
  · rw [h] at g; exact absurd g (by simp)
  rw [h] at g
  obtain rfl : l = m := by simpa using g
  rcases dbscan_float B hB F eps heps k hk chunks' (by rw [hn]; exact hchunks') serial' hserial' star schedB' hb' fuel' (by rw [hn]; exact hfuel') schedU' schedF' with
    g' | ⟨m', g', -, g1', g2', -⟩
  · rw [h'] at g'; exact absurd g' (by simp)
  rw [h'] at g'
  obtain rfl : l' = m' := by simpa using g'
  rw [hn] at g1' g2'
  cases star with
  | true =>
    obtain ⟨r1, r2⟩ := Dbscan.star_renumber hσ hw (g2 rfl) (g2' rfl)
    exact ⟨r1, fun u hu v hv _ => r2 u hu v hv⟩
  | false =>
    obtain ⟨r1, r2⟩ := Dbscan.dbscan_renumber hσ hw (g1 rfl) (g1' rfl)
    exact ⟨r1, fun u hu v hv hc => r2 u hu v hv (hc rfl).1 (hc rfl).2⟩

/-- The hypothesis on the distances holds for the same points in another order, in any arithmetic. -/
theorem same_distances_reordered (A B : Cloud D) (F : Format) (σ : ℕ → ℕ) (h : ∀ i < A.pts.length, B.pt i = A.pt (σ i)) :
    ∀ p < A.pts.length, ∀ q < A.pts.length, F.distPoint (B.pt p) (B.pt q) = F.distPoint (A.pt (σ p)) (A.pt (σ q)) :=
  fun p hp q hq => by rw [h p hp, h q hq]

/-- In exact arithmetic it also holds for moved, turned and reflected points: those to which a map was applied that keeps the Euclidean distances. -/
theorem same_distances_moved (A : Cloud D) (B : Cloud D') (f : Pt ℝ D → Pt ℝ D') (hf : ∀ x y, Geometry.edist (f x) (f y) = Geometry.edist x y) (σ : ℕ → ℕ)
    (h : ∀ i < A.pts.length, B.pt i = f (A.pt (σ i))) :
    ∀ p < A.pts.length, ∀ q < A.pts.length, exact.distPoint (B.pt p) (B.pt q) = exact.distPoint (A.pt (σ p)) (A.pt (σ q)) :=
  fun p hp q hq => by rw [h p hp, h q hq, exact_distPoint, exact_distPoint, hf]

/-! ## Non-vacuity -/

/-- The points of `exampleCloud` in the opposite order, turned by 90 degrees and moved. -/
noncomputable def turnedCloud : Cloud 2 where
  pts := [![15, -10], ![6, -1], ![5, -1], ![5, 0]]
  M := 2 ^ (127 : ℤ)
  code := fun _ => 0
  perm := fun i => i

theorem turnedCloud_valid : turnedCloud.Valid where
  fits := by show 4 ≤ 2 ^ 63; norm_num
  sorted := ⟨by show ((List.range 4).map (fun i => i)).Perm (List.range 4); rw [List.map_id'], fun _ _ => le_rfl⟩
  top := fun _ _ => by show (0 : BitVec 64).toNat < 2 ^ 63; decide

lemma turned_renumbering : Renumbering exampleCloud.pts.length (fun i => 3 - i) := by
  refine ⟨fun i (hi : i < 4) => ?_, fun a (ha : a < 4) b (hb : b < 4) (e : 3 - a = 3 - b) => by omega, fun j (hj : j < 4) => ⟨3 - j, ?_, ?_⟩⟩
  · show 3 - i < 4; omega
  · show 3 - j < 4; omega
  · show 3 - (3 - j) = j; omega

/-- The turn. -/
def turn (x : Pt ℝ 2) : Pt ℝ 2 := ![x 1 + 5, -x 0]

lemma turn_edist (x y : Pt ℝ 2) : Geometry.edist (turn x) (turn y) = Geometry.edist x y := by
  unfold Geometry.edist Geometry.dist2
  congr 1
  simp only [turn, Fin.sum_univ_two, Matrix.cons_val_zero, Matrix.cons_val_one]
  ring

lemma turned_pt : ∀ i < exampleCloud.pts.length, turnedCloud.pt i = turn (exampleCloud.pt (3 - i)) := by
  intro i hi
  have hi' : i < 4 := hi
  rcases (by omega : i = 0 ∨ i = 1 ∨ i = 2 ∨ i = 3) with rfl | rfl | rfl | rfl <;>
  · funext d
    fin_cases d <;> norm_num [turnedCloud, exampleCloud, Cloud.pt, turn]

lemma turned_dist : ∀ p < exampleCloud.pts.length, ∀ q < exampleCloud.pts.length,
    exact.distPoint (turnedCloud.pt p) (turnedCloud.pt q) = exact.distPoint (exampleCloud.pt (3 - p)) (exampleCloud.pt (3 - q)) :=
  same_distances_moved exampleCloud turnedCloud turn turn_edist (fun i => 3 - i) turned_pt

lemma turned_stack : Nearest.StackFits turnedCloud.scene.input 64 := fun T hT =>
  Nearest.stack_suffices_small turnedCloud.scene.input (by norm_num) (by show 4 ≤ _; norm_num) T hT

lemma exact_finite (A : Cloud D) (p q : ℕ) : A.dist exact p q < ⊤ := by
  unfold Cloud.dist
  rw [exact_distPoint]
  exact EReal.coe_lt_top _

lemma geo_finite (A : Cloud D) (shared : Bool) (p q : ℕ) : (A.geo exact shared).dp p q < ⊤ := exact_finite A p q

lemma geo_comm (A : Cloud D) (shared : Bool) (p q : ℕ) : (A.geo exact shared).dp p q = (A.geo exact shared).dp q p :=
  Format.distPoint_comm exact (A.pt p) (A.pt q)

/-- `dbscan_invariant` applies: both calls finish, on different numbers of threads. -/
example (star : Bool) : ∃ schedB schedU schedF l schedB' schedU' schedF' l',
    (exampleCloud.dbscan exact (3 / 2) 3 star [[2, 0], [1, 3]] false).fdbscan 8 schedB schedU schedF = .labels l ∧
    (turnedCloud.dbscan exact (3 / 2) 3 star [[0, 1, 2, 3]] true).fdbscan 8 schedB' schedU' schedF' = .labels l' ∧
    (∀ u < 4, 0 ≤ Dbscan.labelOf l' u ↔ 0 ≤ Dbscan.labelOf l (3 - u)) := by
  obtain ⟨schedB, hB⟩ := Construction.exists_complete exampleCloud.scene.input.params (exampleCloud_valid.scene.input.keys (by show 2 ≤ 4; norm_num))
  obtain ⟨schedB', hB'⟩ := Construction.exists_complete turnedCloud.scene.input.params (turnedCloud_valid.scene.input.keys (by show 2 ≤ 4; norm_num))
  have hch : ([[2, 0], [1, 3]] : List (List ℕ)).flatten.Perm (List.range exampleCloud.pts.length) := by
    show ([[2, 0], [1, 3]] : List (List ℕ)).flatten.Perm (List.range 4)
    decide
  have hch' : ([[0, 1, 2, 3]] : List (List ℕ)).flatten.Perm (List.range turnedCloud.pts.length) := by
    show ([[0, 1, 2, 3]] : List (List ℕ)).flatten.Perm (List.range 4)
    decide
  obtain ⟨steps, hsteps⟩ := dbscan_float_terminates exampleCloud exampleCloud_valid exact (3 / 2) (by norm_num) 3 (by norm_num) _ hch false
    (by simp) star schedB (fun _ => hB) 8 (by show 8 ≤ 8; norm_num)
  obtain ⟨steps', hsteps'⟩ := dbscan_float_terminates turnedCloud turnedCloud_valid exact (3 / 2) (by norm_num) 3 (by norm_num) _ hch' true
    (by simp) star schedB' (fun _ => hB') 8 (by show 8 ≤ 8; norm_num)
  obtain ⟨schedU, hU⟩ := Euclid.exists_counts 2 steps
  obtain ⟨schedU', hU'⟩ := Euclid.exists_counts 1 steps'
  obtain ⟨schedF, hF⟩ := Euclid.exists_counts 4 (fun _ => 9)
  rcases dbscan_float exampleCloud exampleCloud_valid exact (3 / 2) (by norm_num) 3 (by norm_num) _ hch false (by simp) star
    schedB (fun _ => hB) 8 (by show 8 ≤ 8; norm_num) schedU schedF with h | ⟨l, h, -⟩
  · exact absurd h (hsteps schedU schedF hU hF)
  rcases dbscan_float turnedCloud turnedCloud_valid exact (3 / 2) (by norm_num) 3 (by norm_num) _ hch' true (by simp) star
    schedB' (fun _ => hB') 8 (by show 8 ≤ 8; norm_num) schedU' schedF with h' | ⟨l', h', -⟩
  · exact absurd h' (hsteps' schedU' schedF hU' hF)
  exact ⟨_, _, _, l, _, _, _, l', h, h', (dbscan_invariant exampleCloud turnedCloud exampleCloud_valid turnedCloud_valid exact rfl _ turned_renumbering turned_dist
    (3 / 2) (by norm_num) 3 (by norm_num) star _ _ hch hch' false true (by simp) (by simp) schedB schedB' (fun _ => hB) (fun _ => hB') 8 8
    (by show 8 ≤ 8; norm_num) (by show 8 ≤ 8; norm_num) schedU schedU' schedF schedF h h').1⟩

/-- `mst_invariant_partial` applies: both trees are computed. -/
example (k : ℕ) : ∃ schedB ordP sc schedB' E E',
    mstK (exampleCloud.geo exact true) k exampleCloud.scene.input schedB ordP sc 8 3 = .ok E ∧
    mstK (turnedCloud.geo exact false) k turnedCloud.scene.input schedB' ordP sc 8 3 = .ok E' ∧ (E.map (·.weight)).Perm (E'.map (·.weight)) := by
  obtain ⟨schedB, hB⟩ := Construction.exists_complete exampleCloud.scene.input.params (exampleCloud_valid.scene.input.keys (by show 2 ≤ 4; norm_num))
  obtain ⟨schedB', hB'⟩ := Construction.exists_complete turnedCloud.scene.input.params (turnedCloud_valid.scene.input.keys (by show 2 ≤ 4; norm_num))
  obtain ⟨sc, h1, h2⟩ := Boruvka.exists_sched 4
  obtain ⟨_, -, -, h, hr⟩ := mst_float_partial exampleCloud exampleCloud_valid exact (by show 2 ≤ 4; norm_num)
    (by show 4 ≤ 2 ^ 31; norm_num) (fun p _ q _ => exact_finite _ p q) true k cloud_stack schedB (fun _ => hB)
    (List.range (2 * 4 - 2)) (List.Perm.refl _) (fun _ => sc) (fun _ => h1) 8 (by show 8 ≤ 8; norm_num) 3
  obtain ⟨_, -, -, h', hr'⟩ := mst_float_partial turnedCloud turnedCloud_valid exact (by show 2 ≤ 4; norm_num)
    (by show 4 ≤ 2 ^ 31; norm_num) (fun p _ q _ => exact_finite _ p q) false k turned_stack schedB' (fun _ => hB')
    (List.range (2 * 4 - 2)) (List.Perm.refl _) (fun _ => sc) (fun _ => h1) 8 (by show 8 ≤ 8; norm_num) 3
  rcases h with h | ⟨E, h, -⟩
  · exact absurd h (hr (fun _ => h2) (by show 4 ≤ 2 ^ 3; norm_num))
  rcases h' with h' | ⟨E', h', -⟩
  · exact absurd h' (hr' (fun _ => h2) (by show 4 ≤ 2 ^ 3; norm_num))
  exact ⟨_, _, _, _, E, E', h, h', (mst_invariant_partial (exampleCloud.geo exact true) (turnedCloud.geo exact false) k exampleCloud.scene.input turnedCloud.scene.input
    exampleCloud_valid.scene.input turnedCloud_valid.scene.input (by show 2 ≤ 4; norm_num) rfl (by show 4 ≤ 2 ^ 31; norm_num) _ turned_renumbering turned_dist
    (fun _ _ => rfl) (fun _ _ => rfl) (exampleCloud.box_le exact true) (turnedCloud.box_le exact false) (geo_comm _ _)
    (geo_comm _ _) (fun p _ q _ => geo_finite _ _ p q) cloud_stack turned_stack schedB schedB' (fun _ => hB) (fun _ => hB') _ _
    (List.Perm.refl _) (List.Perm.refl _) _ _ (fun _ => h1) (fun _ => h1) 8 8 (by show 8 ≤ 8; norm_num) (by show 8 ≤ 8; norm_num) 3 3 E E' h h').1⟩

/-- `hdbscan_invariant_partial` applies: both dendrograms are computed. -/
example (boruvka : Bool) (k : ℕ) : ∃ bits bits' schedB ordP sc ro schedB' parents heights parents' heights',
    hdbscan boruvka (exampleCloud.geo exact true) bits k exampleCloud.scene.input schedB ordP sc ro 8 3 = .ok (parents, heights) ∧
    hdbscan (!boruvka) (turnedCloud.geo exact false) bits' k turnedCloud.scene.input schedB' ordP sc ro 8 3 = .ok (parents', heights') ∧
    ((List.range 3).map heights).Perm ((List.range 3).map heights') := by
  obtain ⟨schedB, hB⟩ := Construction.exists_complete exampleCloud.scene.input.params (exampleCloud_valid.scene.input.keys (by show 2 ≤ 4; norm_num))
  obtain ⟨schedB', hB'⟩ := Construction.exists_complete turnedCloud.scene.input.params (turnedCloud_valid.scene.input.keys (by show 2 ≤ 4; norm_num))
  obtain ⟨sc, h1, h2⟩ := Boruvka.exists_sched 4
  obtain ⟨ro, hro⟩ := exists_reorder (W := EReal) 3
  obtain ⟨bits, hbits⟩ := Euclid.exists_bits (show 4 * 4 < 2 ^ 31 by norm_num) (exampleCloud.geo exact true).dp
  obtain ⟨bits', hbits'⟩ := Euclid.exists_bits (show 4 * 4 < 2 ^ 31 by norm_num) (turnedCloud.geo exact false).dp
  have hsc : ∀ _ : ℕ, (⟨sc, List.range 4, List.range 4⟩ : HSched).Valid 4 := fun _ => ⟨h1, List.Perm.refl _, List.Perm.refl _⟩
  obtain ⟨_, -, -, h, hr⟩ := hdbscan_correct_partial boruvka (exampleCloud.geo exact true) bits k exampleCloud.scene.input
    exampleCloud_valid.scene.input (by show 2 ≤ 4; norm_num) (by show 4 ≤ 2 ^ 30; norm_num) (fun _ _ => rfl) (exampleCloud.box_le exact true)
    (geo_comm _ _) (fun p _ q _ => geo_finite _ _ p q) hbits cloud_stack schedB (fun _ => hB)
    (List.range (2 * 4 - 2)) (List.Perm.refl _) (fun _ => ⟨sc, List.range 4, List.range 4⟩) hsc ro hro 8 (by show 8 ≤ 8; norm_num) 3
  obtain ⟨_, -, -, h', hr'⟩ := hdbscan_correct_partial (!boruvka) (turnedCloud.geo exact false) bits' k turnedCloud.scene.input
    turnedCloud_valid.scene.input (by show 2 ≤ 4; norm_num) (by show 4 ≤ 2 ^ 30; norm_num) (fun _ _ => rfl) (turnedCloud.box_le exact false)
    (geo_comm _ _) (fun p _ q _ => geo_finite _ _ p q) hbits' turned_stack schedB' (fun _ => hB')
    (List.range (2 * 4 - 2)) (List.Perm.refl _) (fun _ => ⟨sc, List.range 4, List.range 4⟩) hsc ro hro 8 (by show 8 ≤ 8; norm_num) 3
  rcases h with h | ⟨p, t, h, -⟩
  · exact absurd h (hr (fun _ => h2) (by show 4 ≤ 2 ^ 3; norm_num))
  rcases h' with h' | ⟨p', t', h', -⟩
  · exact absurd h' (hr' (fun _ => h2) (by show 4 ≤ 2 ^ 3; norm_num))
  exact ⟨bits, bits', _, _, _, ro, _, p, t, p', t', h, h', (hdbscan_invariant_partial boruvka (!boruvka) (exampleCloud.geo exact true) (turnedCloud.geo exact false)
    bits bits' k exampleCloud.scene.input turnedCloud.scene.input exampleCloud_valid.scene.input turnedCloud_valid.scene.input (by show 2 ≤ 4; norm_num) rfl
    (by show 4 ≤ 2 ^ 30; norm_num) _ turned_renumbering turned_dist (fun _ _ => rfl) (fun _ _ => rfl) (exampleCloud.box_le exact true)
    (turnedCloud.box_le exact false) (geo_comm _ _) (geo_comm _ _) (fun p _ q _ => geo_finite _ _ p q)
    hbits hbits' cloud_stack turned_stack schedB schedB' (fun _ => hB) (fun _ => hB') _ _ (List.Perm.refl _) (List.Perm.refl _) _ _ hsc hsc ro ro hro hro 8 8
    (by show 8 ≤ 8; norm_num) (by show 8 ≤ 8; norm_num) 3 3 h h').1⟩

end Dbscan

end ArborX.Hdbscan
