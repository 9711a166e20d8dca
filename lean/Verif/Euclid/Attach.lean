import Verif.Euclid.Cloud
import Verif.Crs.Theorems

/-!
# Property theorems: points with attached indices (C85)

`BoundingVolumeHierarchy bvh(space, Experimental::attach_indices<Index>(points))` together with
`bvh.query(space, Experimental::make_intersects(queries, r), pairs, offset)` and
`bvh.query(space, Experimental::make_nearest(queries, k), pairs, offset)`: the results are pairs of a point and its index, an integer of `w` bits.
-/

namespace ArborX.Euclid

open Geometry BVH

variable {D : ℕ}

/-! ## Model -/

/-- `attach_indices<Index>(points)` (`src/spatial/detail/ArborX_AttachIndices.hpp` 24-67): value `i` is `PairValueIndex{points(i), Index(i)}`
(`src/spatial/detail/ArborX_PairValueIndex.hpp` 23-33), where `Index` is an unsigned type of `w` bits. The geometry of a pair is its first component
(`DefaultIndexableGetter`, `src/spatial/detail/ArborX_IndexableGetter.hpp` 43-48). -/
noncomputable def Cloud.attached (A : Cloud D) (w : ℕ) : Input (Pt ℝ D × BitVec w) (Bound D) 64 where
  n := A.pts.length
  values i := (A.pt i, BitVec.ofNat w i)
  vol a := leafBound A.M (.point a.1)
  code := A.scene.input.code
  perm := A.scene.input.perm

/-- `make_intersects(points, r)` (`src/spatial/detail/ArborX_PredicateHelpers.hpp` 98-104, 163-186): the predicate of a point `q` is
`intersects(Sphere(q, r))`; on a stored pair. The assertion `r > 0` is not needed. -/
noncomputable def withinTest {w : ℕ} (r : ℝ) (q : Pt ℝ D) (a : Pt ℝ D × BitVec w) : Bool := intersectsSpherePoint ⟨q, r⟩ a.1

/-- The same on an internal node. -/
noncomputable def withinNodeTest (r : ℝ) (q : Pt ℝ D) : Bound D → Bool := nodeTest (.sphere ⟨q, r⟩)

/-- `make_nearest(points, k)` (`ArborX_PredicateHelpers.hpp` 113-118, 188-206): the predicate of a point `q` is `nearest(q, k)`. -/
noncomputable def nearestTo (w : ℕ) (q : Pt ℝ D) (k : ℕ) : Nearest.Query (Pt ℝ D × BitVec w) (Bound D) (WithTop ℝ) where
  k := k
  dl a := asDistance (distance (.point q) (.point a.1))
  dv := WithBot.recBotCoe ⊤ (fun B => asDistance (distance (.point q) (.box B.1)))
  zero := 0
  inf := ⊤
  cap := 64

/-! ## Lemmas -/

lemma Cloud.Valid.attached {A : Cloud D} (h : A.Valid) (w : ℕ) : (A.attached w).Valid := by
  have hl : A.scene.geo.length = A.pts.length := by simp [Cloud.scene]
  have hv := h.scene.input
  have h1 := hv.fits
  have h2 := hv.sorted.perm
  have h3 := hv.sorted.sorted
  have h4 := hv.top
  have hn : A.scene.input.n = A.pts.length := hl
  rw [hn] at h1 h2 h3 h4
  exact ⟨hv.width, h1, ⟨h2, h3⟩, h4⟩

lemma attached_toNat {w n i : ℕ} (hw : n ≤ 2 ^ w) (hi : i < n) : (BitVec.ofNat w i).toNat = i := by
  rw [BitVec.toNat_ofNat, Nat.mod_eq_of_lt (hi.trans_le hw)]

lemma mem_attached {A : Cloud D} {w : ℕ} (hw : A.pts.length ≤ 2 ^ w) (p : Pt ℝ D) (x : BitVec w) :
    (p, x) ∈ (A.attached w).stored ↔ x.toNat < A.pts.length ∧ p = A.pt x.toNat := by
  unfold Input.stored
  rw [List.mem_map]
  constructor
  · rintro ⟨i, hi, e⟩
    have hi' := List.mem_range.mp hi
    obtain ⟨rfl, rfl⟩ := Prod.mk.injEq _ _ _ _ ▸ e
    rw [attached_toNat hw hi']
    exact ⟨hi', rfl⟩
  · rintro ⟨hx, rfl⟩
    refine ⟨x.toNat, List.mem_range.mpr hx, ?_⟩
    show (A.pt x.toNat, BitVec.ofNat w x.toNat) = _
    rw [BitVec.ofNat_toNat, BitVec.setWidth_eq]

lemma attached_nodup {A : Cloud D} {w : ℕ} (hw : A.pts.length ≤ 2 ^ w) : ((A.attached w).stored.map Prod.snd).Nodup := by
  unfold Input.stored
  rw [List.map_map]
  refine (List.nodup_map_iff_inj_on List.nodup_range).mpr fun i hi j hj e => ?_
  have h1 := attached_toNat hw (List.mem_range.mp hi)
  have h2 := attached_toNat hw (List.mem_range.mp hj)
  have e' : BitVec.ofNat w i = BitVec.ofNat w j := e
  rw [← h1, ← h2, e']

/-! ## Theorems -/

/-- **C85.** Radius search: row `j` of the result holds, for each stored point at distance at most `r` of the query point `q j`, the pair of this point
and its index, once, and nothing else. The tree may be built under any schedule, with any order of equal codes, and queried with any buffer size, with and
without sorting of the predicates, by threads that write in any order. -/
theorem radius_search (A : Cloud D) (hA : A.Valid) {w : ℕ} (hw : A.pts.length ≤ 2 ^ w) (bsched : List ℕ) (hf : (A.attached w).Finished bsched)
    (n : ℕ) (q : ℕ → Pt ℝ D) (r : ℝ) {permute : ℕ → ℕ} (hp : Crs.IsPerm n permute) (bufferSize : ℤ) (hb : 0 ≤ bufferSize)
    (ks : ℕ → ℕ) (userLen : ℕ) (userOut : ℕ → Option (Pt ℝ D × BitVec w)) (fuel : ℕ) (hfuel : 2 * A.pts.length ≤ fuel) :
    ∃ calls : ℕ → List (Pt ℝ D × BitVec w),
      (∀ j < n, Traversal.spatialQuery ((A.attached w).build bsched) (withinTest r (q j)) (withinNodeTest r (q j)) (fun _ => false) fuel
        = .done (calls j)) ∧
      ∀ sched1 sched2, Crs.Fair n (fun i => (calls (permute i)).map (fun v => (i, v))) sched1 →
        Crs.Fair n (fun i => (calls (permute i)).map (fun v => (i, v))) sched2 →
      ∃ rows offset out, Crs.query .spatial bufferSize ks userLen userOut n (fun i => (calls (permute i)).map (fun v => (i, v))) n permute
          sched1 sched2 = .done offset out ∧
        Crs.IsCrs n rows offset out ∧
        ∀ j < n, ((rows j).map Prod.snd).Nodup ∧
          ∀ p x, (p, x) ∈ rows j ↔ x.toNat < A.pts.length ∧ p = A.pt x.toNat ∧ Geometry.edist (q j) p ≤ r := by
  obtain ⟨calls, h1, h2⟩ := Crs.crs_spatial (A.attached w) (hA.attached w) bsched hf n (fun j => withinTest r (q j)) (fun j => withinNodeTest r (q j))
    (fun j _ a v hv ht => ball_mono A.M r (q j) a.1 hv ht) hp bufferSize hb ks userLen userOut fuel hfuel
  refine ⟨calls, h1, fun sched1 sched2 f1 f2 => ?_⟩
  obtain ⟨rows, offset, out, h3, h4, h5⟩ := h2 sched1 sched2 f1 f2
  refine ⟨rows, offset, out, h3, h4, fun j hj => ⟨?_, fun p x => ?_⟩⟩
  · rw [((h5 j hj).map Prod.snd).nodup_iff]
    exact (attached_nodup hw).sublist (List.filter_sublist.map _)
  · rw [(h5 j hj).mem_iff, List.mem_filter, mem_attached hw, and_assoc]
    refine and_congr_right fun _ => and_congr_right fun _ => ?_
    show intersectsSpherePoint ⟨q j, r⟩ p = true ↔ _
    rw [intersects_sphere_point, mem_sphere, edist_comm]

/-- **C85.** Search of the nearest points: row `j` of the result holds the pairs of the `min k m` points nearest to the query point `q j` and of their
indices, nearest first. The stack of the traversal must be large enough, see `Nearest.StackFits` (C06). -/
theorem nearest_search (A : Cloud D) (hA : A.Valid) {w : ℕ} (hw : A.pts.length ≤ 2 ^ w) (hcap : Nearest.StackFits A.scene.input 64)
    (bsched : List ℕ) (hf : (A.attached w).Finished bsched)
    (n : ℕ) (q : ℕ → Pt ℝ D) (k : ℕ) {permute : ℕ → ℕ} (hp : Crs.IsPerm n permute) (bufferSize : ℤ)
    (userLen : ℕ) (userOut : ℕ → Option (Pt ℝ D × BitVec w)) (fuel : ℕ) (hfuel : 2 * A.pts.length ≤ fuel) :
    ∃ calls : ℕ → List (Pt ℝ D × BitVec w),
      (∀ j < n, Nearest.nearestQuery ((A.attached w).build bsched) (nearestTo w (q j) k) fuel = .done (calls j)) ∧
      ∀ sched1 sched2, Crs.Fair n (fun i => (calls (permute i)).map (fun v => (i, v))) sched1 →
        Crs.Fair n (fun i => (calls (permute i)).map (fun v => (i, v))) sched2 →
      ∃ rows offset out, Crs.query .nearest bufferSize (fun _ => k) userLen userOut n (fun i => (calls (permute i)).map (fun v => (i, v))) n permute
          sched1 sched2 = .done offset out ∧
        Crs.IsCrs n rows offset out ∧
        ∀ j < n, (rows j).length = min k A.pts.length ∧
          ((rows j).map Prod.snd).Nodup ∧
          (∀ a ∈ rows j, a.2.toNat < A.pts.length ∧ a.1 = A.pt a.2.toNat) ∧
          (rows j).Pairwise (fun a b => Geometry.edist (q j) a.1 ≤ Geometry.edist (q j) b.1) ∧
          ∀ i < A.pts.length, (∀ a ∈ rows j, a.2.toNat ≠ i) → ∀ a ∈ rows j, Geometry.edist (q j) a.1 ≤ Geometry.edist (q j) (A.pt i) := by
  have hdl : ∀ j a, (nearestTo w (q j) k).dl a = ((Geometry.edist (q j) a.1 : ℝ) : WithTop ℝ) := by
    intro j a
    show ((distancePoint (q j) a.1 : ℝ) : WithTop ℝ) = _
    rw [distancePoint_eq]
  have hcap' : Nearest.StackFits (A.attached w) 64 := by
    intro T hT
    refine hcap T ?_
    simpa [Cloud.attached, Scene.input, Cloud.scene] using hT
  have key : ∀ j, ∃ calls, Nearest.nearestQuery ((A.attached w).build bsched) (nearestTo w (q j) k) fuel = .done calls ∧
      calls.length = min k A.pts.length ∧
      Nearest.IsKNearest (nearestTo w (q j) k).dl (nearestTo w (q j) k).inf k (A.attached w).stored calls := by
    intro j
    refine Nearest.nearest_query_finite (A.attached w) (hA.attached w) (nearestTo w (q j) k) (fun a v hv => ?_) (fun a => ?_) hcap' (fun i _ => ?_)
      bsched hf fuel hfuel
    · obtain ⟨C, rfl, hC⟩ := leafBound_le (g := .point a.1) trivial hv
      exact WithTop.coe_le_coe.mpr (distance_lower_bound (distance_exact (Q := .point (q j)) (g := .point a.1) trivial trivial rfl)
        (distance_exact (Q := .point (q j)) (g := .box C.1) trivial C.2 rfl) hC)
    · rw [hdl]
      exact WithTop.coe_le_coe.mpr (edist_nonneg _ _)
    · rw [hdl]
      exact WithTop.coe_lt_top _
  choose calls h1 h2 h3 using key
  refine ⟨calls, fun j _ => h1 j, fun sched1 sched2 f1 f2 => ?_⟩
  obtain ⟨offset, out, e1, e2⟩ := Crs.crs_query_bvh calls hp .nearest bufferSize (fun _ => k) userLen userOut sched1 sched2 f1 f2
    (by rintro ⟨h, -⟩; cases h)
  refine ⟨calls, offset, out, e1, e2, fun j hj => ?_⟩
  obtain ⟨om, hperm, hs, -, -, hle, -⟩ := h3 j
  have hnd : ((calls j ++ om).map Prod.snd).Nodup := (hperm.map Prod.snd).nodup_iff.mpr (attached_nodup hw)
  have hmem : ∀ a ∈ calls j ++ om, a.2.toNat < A.pts.length ∧ a.1 = A.pt a.2.toNat := fun a ha =>
    (mem_attached hw a.1 a.2).mp (hperm.mem_iff.mp ha)
  refine ⟨h2 j, ?_, fun a ha => hmem a (List.mem_append_left _ ha), ?_, fun i hi hne a ha => ?_⟩
  · rw [List.map_append] at hnd
    exact (List.nodup_append.mp hnd).1
  · refine hs.imp fun {a b} hab => ?_
    rw [hdl, hdl, WithTop.coe_le_coe] at hab
    exact hab
  · have hst : (A.pt i, BitVec.ofNat w i) ∈ calls j ++ om := by
      rw [hperm.mem_iff, mem_attached hw, attached_toNat hw hi]
      exact ⟨hi, rfl⟩
    rcases List.mem_append.mp hst with h | h
    · exact absurd (attached_toNat hw hi) (hne _ h)
    · have := hle a ha _ h
      rw [hdl, hdl, WithTop.coe_le_coe] at this
      exact this

/-- **C85.** The width of the index matters: with more than `2 ^ w` points two of them are stored with the same index. -/
theorem attach_indices_narrow (A : Cloud D) (w : ℕ) (hw : 2 ^ w < A.pts.length) :
    ∃ i < A.pts.length, ∃ j < A.pts.length, i ≠ j ∧ ((A.attached w).values i).2 = ((A.attached w).values j).2 := by
  refine ⟨0, Nat.zero_lt_of_lt hw, 2 ^ w, hw, (Nat.pos_of_ne_zero (by simp)).ne, ?_⟩
  show BitVec.ofNat w 0 = BitVec.ofNat w (2 ^ w)
  apply BitVec.eq_of_toNat_eq
  simp

/-! ## Non-vacuity -/

/-- Both searches apply to four points of the plane with the default index type, and two query points that are processed in exchanged order. -/
example : exampleCloud.Valid ∧ exampleCloud.pts.length ≤ 2 ^ 32 ∧ Crs.IsPerm 2 (fun i => 1 - i) ∧
    Nearest.StackFits exampleCloud.scene.input 64 ∧ ∃ bsched, (exampleCloud.attached 32).Finished bsched := by
  refine ⟨exampleCloud_valid, by decide, by unfold Crs.IsPerm; decide, ?_, ?_⟩
  · exact Nearest.stack_suffices_small _ (by norm_num) (by decide)
  · obtain ⟨schedB, hB⟩ := Construction.exists_complete (exampleCloud.attached 32).params ((exampleCloud_valid.attached 32).keys (by decide))
    exact ⟨schedB, fun _ => hB⟩

/-- Of the four points exactly the second and third are within distance 1 of `(1, 1/2)`. -/
example : ∀ i < 4, Geometry.edist (![1, 1 / 2] : Pt ℝ 2) (exampleCloud.pt i) ≤ 1 ↔ i = 1 ∨ i = 2 := by
  intro i hi
  rcases (by omega : i = 0 ∨ i = 1 ∨ i = 2 ∨ i = 3) with rfl | rfl | rfl | rfl <;>
    simp [Geometry.edist, Geometry.dist2, Cloud.pt, exampleCloud, toRealPt, Real.sqrt_le_one] <;> norm_num

end ArborX.Euclid
