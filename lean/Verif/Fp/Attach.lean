import Verif.Fp.Examples
import Verif.Euclid.Attach

/-!
# Property theorems: points with attached indices in floating-point arithmetic (C85)

As `Verif/Euclid/Attach.lean`, with computed distances: `F` is any monotone symmetric rounding, in particular `Ieee.float` and `Ieee.double`, with and
without fused multiply-adds. The correctly sorted buffers, the offsets and the permutation of the predicates do not depend on the arithmetic.
-/

namespace ArborX.Fp

open Geometry BVH Euclid

variable {D : ℕ}

/-! ## Model -/

/-- `attach_indices<Index>(points)` (`src/spatial/detail/ArborX_AttachIndices.hpp` 24-67), see `Euclid.Cloud.attached`. -/
noncomputable def Cloud.attached (A : Cloud D) (w : ℕ) : Input (Pt ℝ D × BitVec w) (Bound D) 64 where
  n := A.pts.length
  values i := (A.pt i, BitVec.ofNat w i)
  vol a := leafBound A.M (.point a.1)
  code := A.code
  perm := A.perm

/-- `make_intersects(points, r)` (`src/spatial/detail/ArborX_PredicateHelpers.hpp` 98-104, 163-186): the predicate of a point `q` is
`intersects(Sphere(q, r))`; on a stored pair. -/
noncomputable def withinTest (F : Format) {w : ℕ} (r : ℝ) (q : Pt ℝ D) (a : Pt ℝ D × BitVec w) : Bool :=
  decide (F.intersects (.sphere ⟨q, r⟩) (.point a.1) = some true)

/-- The same on an internal node. -/
noncomputable def withinNodeTest (F : Format) (r : ℝ) (q : Pt ℝ D) : Bound D → Bool := nodeTest F (.sphere ⟨q, r⟩)

/-- `make_nearest(points, k)` (`ArborX_PredicateHelpers.hpp` 113-118, 188-206): the predicate of a point `q` is `nearest(q, k)`. -/
noncomputable def nearestTo (F : Format) (w : ℕ) (q : Pt ℝ D) (k : ℕ) : Nearest.Query (Pt ℝ D × BitVec w) (Bound D) EReal where
  k := k
  dl a := asDistance (F.distance (.point q) (.point a.1))
  dv := WithBot.recBotCoe ⊤ (fun B => asDistance (F.distance (.point q) (.box B.1)))
  zero := 0
  inf := ⊤
  cap := 64

/-! ## Lemmas -/

lemma Cloud.Valid.attached {A : Cloud D} (hA : A.Valid) (w : ℕ) : (A.attached w).Valid := by
  have hs := hA.sorted
  refine ⟨by norm_num, hA.fits, ⟨?_, ?_⟩, hA.top⟩
  · have := hs.perm; rw [A.n_eq] at this; exact this
  · have := hs.sorted; rw [A.n_eq] at this; exact this

lemma mem_attached {A : Cloud D} {w : ℕ} (hw : A.pts.length ≤ 2 ^ w) (p : Pt ℝ D) (x : BitVec w) :
    (p, x) ∈ (A.attached w).stored ↔ x.toNat < A.pts.length ∧ p = A.pt x.toNat := by
  unfold Input.stored
  rw [List.mem_map]
  constructor
  · rintro ⟨i, hi, e⟩
    have hi' := List.mem_range.mp hi
    obtain ⟨rfl, rfl⟩ := Prod.mk.injEq _ _ _ _ ▸ e
    rw [Euclid.attached_toNat hw hi']
    exact ⟨hi', rfl⟩
  · rintro ⟨hx, rfl⟩
    refine ⟨x.toNat, List.mem_range.mpr hx, ?_⟩
    show (A.pt x.toNat, BitVec.ofNat w x.toNat) = _
    rw [BitVec.ofNat_toNat, BitVec.setWidth_eq]

lemma attached_nodup {A : Cloud D} {w : ℕ} (hw : A.pts.length ≤ 2 ^ w) : ((A.attached w).stored.map Prod.snd).Nodup := by
  unfold Input.stored
  rw [List.map_map]
  refine (List.nodup_map_iff_inj_on List.nodup_range).mpr fun i hi j hj e => ?_
  have h1 := Euclid.attached_toNat hw (List.mem_range.mp hi)
  have h2 := Euclid.attached_toNat hw (List.mem_range.mp hj)
  have e' : BitVec.ofNat w i = BitVec.ofNat w j := e
  rw [← h1, ← h2, e']

/-! ## Theorems -/

/-- **C85.** Radius search in floating-point arithmetic: row `j` of the result holds, for each stored point whose computed distance of the query point
`q j` is at most `r`, the pair of this point and its index, once, and nothing else. -/
theorem radius_search_float (A : Cloud D) (hA : A.Valid) (F : Format) {w : ℕ} (hw : A.pts.length ≤ 2 ^ w) (bsched : List ℕ)
    (hf : (A.attached w).Finished bsched)
    (n : ℕ) (q : ℕ → Pt ℝ D) (r : ℝ) {permute : ℕ → ℕ} (hp : Crs.IsPerm n permute) (bufferSize : ℤ) (hb : 0 ≤ bufferSize)
    (ks : ℕ → ℕ) (userLen : ℕ) (userOut : ℕ → Option (Pt ℝ D × BitVec w)) (fuel : ℕ) (hfuel : 2 * A.pts.length ≤ fuel) :
    ∃ calls : ℕ → List (Pt ℝ D × BitVec w),
      (∀ j < n, Traversal.spatialQuery ((A.attached w).build bsched) (withinTest F r (q j)) (withinNodeTest F r (q j)) (fun _ => false) fuel
        = .done (calls j)) ∧
      ∀ sched1 sched2, Crs.Fair n (fun i => (calls (permute i)).map (fun v => (i, v))) sched1 →
        Crs.Fair n (fun i => (calls (permute i)).map (fun v => (i, v))) sched2 →
      ∃ rows offset out, Crs.query .spatial bufferSize ks userLen userOut n (fun i => (calls (permute i)).map (fun v => (i, v))) n permute
          sched1 sched2 = .done offset out ∧
        Crs.IsCrs n rows offset out ∧
        ∀ j < n, ((rows j).map Prod.snd).Nodup ∧
          ∀ p x, (p, x) ∈ rows j ↔ x.toNat < A.pts.length ∧ p = A.pt x.toNat ∧ F.distPoint (q j) p ≤ r := by
  obtain ⟨calls, h1, h2⟩ := Crs.crs_spatial (A.attached w) (hA.attached w) bsched hf n (fun j => withinTest F r (q j))
    (fun j => withinNodeTest F r (q j))
    (fun j _ a v hv ht => ball_mono F A.M r (q j) a.1 hv ht) hp bufferSize hb ks userLen userOut fuel hfuel
  refine ⟨calls, h1, fun sched1 sched2 f1 f2 => ?_⟩
  obtain ⟨rows, offset, out, h3, h4, h5⟩ := h2 sched1 sched2 f1 f2
  refine ⟨rows, offset, out, h3, h4, fun j hj => ⟨?_, fun p x => ?_⟩⟩
  · rw [((h5 j hj).map Prod.snd).nodup_iff]
    exact (attached_nodup hw).sublist (List.filter_sublist.map _)
  · rw [(h5 j hj).mem_iff, List.mem_filter, mem_attached hw, and_assoc]
    refine and_congr_right fun _ => and_congr_right fun _ => ?_
    show ballTest F r (q j) p = true ↔ _
    rw [ballTest_eq, decide_eq_true_iff]

/-- **C85.** If no stored point is so near to the boundary of a query ball that rounding decides, the floating-point search returns what the exact one
does. -/
theorem radius_search_float_exact (A : Cloud D) (hA : A.Valid) {F : Format} {u lo hi : ℝ} (hF : F.Accurate u lo hi)
    {w : ℕ} (hw : A.pts.length ≤ 2 ^ w) (bsched : List ℕ) (hf : (A.attached w).Finished bsched)
    (n : ℕ) (q : ℕ → Pt ℝ D) (r : ℝ) (hr : 0 ≤ r)
    (hclear : ∀ j < n, ∀ i < A.pts.length, InRange u lo hi (q j) (A.pt i) ∧
      ((1 + u) ^ (D + 5) * Geometry.edist (q j) (A.pt i) ^ 2 ≤ r ^ 2 ∨ r ^ 2 < (1 - u) ^ (D + 5) * Geometry.edist (q j) (A.pt i) ^ 2))
    {permute : ℕ → ℕ} (hp : Crs.IsPerm n permute) (bufferSize : ℤ) (hb : 0 ≤ bufferSize)
    (ks : ℕ → ℕ) (userLen : ℕ) (userOut : ℕ → Option (Pt ℝ D × BitVec w)) (fuel : ℕ) (hfuel : 2 * A.pts.length ≤ fuel) :
    ∃ calls : ℕ → List (Pt ℝ D × BitVec w),
      (∀ j < n, Traversal.spatialQuery ((A.attached w).build bsched) (withinTest F r (q j)) (withinNodeTest F r (q j)) (fun _ => false) fuel
        = .done (calls j)) ∧
      ∀ sched1 sched2, Crs.Fair n (fun i => (calls (permute i)).map (fun v => (i, v))) sched1 →
        Crs.Fair n (fun i => (calls (permute i)).map (fun v => (i, v))) sched2 →
      ∃ rows offset out, Crs.query .spatial bufferSize ks userLen userOut n (fun i => (calls (permute i)).map (fun v => (i, v))) n permute
          sched1 sched2 = .done offset out ∧
        Crs.IsCrs n rows offset out ∧
        ∀ j < n, ((rows j).map Prod.snd).Nodup ∧
          ∀ p x, (p, x) ∈ rows j ↔ x.toNat < A.pts.length ∧ p = A.pt x.toNat ∧ Geometry.edist (q j) p ≤ r := by
  obtain ⟨calls, h1, h2⟩ := radius_search_float A hA F hw bsched hf n q r hp bufferSize hb ks userLen userOut fuel hfuel
  refine ⟨calls, h1, fun sched1 sched2 f1 f2 => ?_⟩
  obtain ⟨rows, offset, out, h3, h4, h5⟩ := h2 sched1 sched2 f1 f2
  refine ⟨rows, offset, out, h3, h4, fun j hj => ⟨(h5 j hj).1, fun p x => ?_⟩⟩
  rw [(h5 j hj).2]
  refine and_congr_right fun hx => and_congr_right fun hpx => ?_
  subst hpx
  obtain ⟨c1, c2⟩ := hclear j hj _ hx
  obtain ⟨y, ey, y0, l1, l2⟩ := distance_accuracy hF _ _ c1
  have hd0 := Geometry.edist_nonneg (q j) (A.pt x.toNat)
  have hu0 := hF.u0
  have hu1 := hF.u1
  rw [ey, EReal.coe_le_coe_iff]
  rcases c2 with c2 | c2
  · refine iff_of_true (abs_le_of_sq_le_sq' (l2.trans c2) hr).2 (abs_le_of_sq_le_sq' (le_trans ?_ c2) hr).2
    exact le_mul_of_one_le_left (sq_nonneg _) (one_le_pow₀ (by linarith))
  · refine iff_of_false (fun hle => ?_) (fun hle => ?_)
    · exact absurd (pow_le_pow_left₀ y0 hle 2) (not_le.mpr (lt_of_lt_of_le c2 l1))
    · have h3 := pow_le_pow_left₀ hd0 hle 2
      have h4 : (1 - u) ^ (D + 5) * Geometry.edist (q j) (A.pt x.toNat) ^ 2 ≤ Geometry.edist (q j) (A.pt x.toNat) ^ 2 :=
        mul_le_of_le_one_left (sq_nonneg _) (pow_le_one₀ (by linarith) (by linarith))
      linarith

/-- **C85.** Search of the nearest points in floating-point arithmetic, if the distances do not overflow: row `j` of the result holds the pairs of the
`min k m` points with the smallest computed distances of the query point `q j` and of their indices, in the order of these distances. The stack of the
traversal must be large enough, see `Nearest.StackFits` (C06). -/
theorem nearest_search_float (A : Cloud D) (hA : A.Valid) (F : Format) {w : ℕ} (hw : A.pts.length ≤ 2 ^ w)
    (hcap : Nearest.StackFits A.scene.input 64)
    (bsched : List ℕ) (hf : (A.attached w).Finished bsched)
    (n : ℕ) (q : ℕ → Pt ℝ D) (k : ℕ) (hfin : ∀ j < n, ∀ i < A.pts.length, F.distPoint (q j) (A.pt i) < ⊤)
    {permute : ℕ → ℕ} (hp : Crs.IsPerm n permute) (bufferSize : ℤ)
    (userLen : ℕ) (userOut : ℕ → Option (Pt ℝ D × BitVec w)) (fuel : ℕ) (hfuel : 2 * A.pts.length ≤ fuel) :
    ∃ calls : ℕ → List (Pt ℝ D × BitVec w),
      (∀ j < n, Nearest.nearestQuery ((A.attached w).build bsched) (nearestTo F w (q j) k) fuel = .done (calls j)) ∧
      ∀ sched1 sched2, Crs.Fair n (fun i => (calls (permute i)).map (fun v => (i, v))) sched1 →
        Crs.Fair n (fun i => (calls (permute i)).map (fun v => (i, v))) sched2 →
      ∃ rows offset out, Crs.query .nearest bufferSize (fun _ => k) userLen userOut n (fun i => (calls (permute i)).map (fun v => (i, v))) n permute
          sched1 sched2 = .done offset out ∧
        Crs.IsCrs n rows offset out ∧
        ∀ j < n, (rows j).length = min k A.pts.length ∧
          ((rows j).map Prod.snd).Nodup ∧
          (∀ a ∈ rows j, a.2.toNat < A.pts.length ∧ a.1 = A.pt a.2.toNat) ∧
          (rows j).Pairwise (fun a b => F.distPoint (q j) a.1 ≤ F.distPoint (q j) b.1) ∧
          ∀ i < A.pts.length, (∀ a ∈ rows j, a.2.toNat ≠ i) → ∀ a ∈ rows j, F.distPoint (q j) a.1 ≤ F.distPoint (q j) (A.pt i) := by
  have hcap' : Nearest.StackFits (A.attached w) 64 := by
    intro T hT
    refine hcap T ?_
    simpa [Cloud.attached, Scene.input, Cloud.scene] using hT
  have key : ∀ j, ∃ calls, j < n → Nearest.nearestQuery ((A.attached w).build bsched) (nearestTo F w (q j) k) fuel = .done calls ∧
      calls.length = min k A.pts.length ∧
      Nearest.IsKNearest (nearestTo F w (q j) k).dl (nearestTo F w (q j) k).inf k (A.attached w).stored calls := by
    intro j
    by_cases hj : j < n
    swap
    · exact ⟨[], fun h => absurd h hj⟩
    have := Nearest.nearest_query_finite (A.attached w) (hA.attached w) (nearestTo F w (q j) k) (fun a v hv => ?_) (fun a => ?_) hcap'
      (fun i hi => hfin j hj i hi) bsched hf fuel hfuel
    · obtain ⟨c, hc⟩ := this
      exact ⟨c, fun _ => hc⟩
    · obtain ⟨C, rfl, hC⟩ := leafBound_le (g := .point a.1) trivial hv
      obtain ⟨s, e1, -, h2⟩ := distance_mono F (Q := .point (q j)) trivial (g := .point a.1) trivial
      obtain ⟨x, e2, hx⟩ := h2 C.1 hC
      show asDistance (F.distance (.point (q j)) (.box C.1)) ≤ asDistance (F.distance (.point (q j)) (.point a.1))
      rw [e1, e2]
      exact hx
    · obtain ⟨s, e, h0, -⟩ := distance_mono F (Q := .point (q j)) trivial (g := .point a.1) trivial
      show (0 : EReal) ≤ asDistance (F.distance (.point (q j)) (.point a.1))
      rw [e]; exact h0
  choose calls hcalls using key
  refine ⟨calls, fun j hj => (hcalls j hj).1, fun sched1 sched2 f1 f2 => ?_⟩
  obtain ⟨offset, out, e1, e2⟩ := Crs.crs_query_bvh calls hp .nearest bufferSize (fun _ => k) userLen userOut sched1 sched2 f1 f2
    (by rintro ⟨h, -⟩; cases h)
  refine ⟨calls, offset, out, e1, e2, fun j hj => ?_⟩
  obtain ⟨-, h2, om, hperm, hs, -, -, hle, -⟩ := hcalls j hj
  have hnd : ((calls j ++ om).map Prod.snd).Nodup := (hperm.map Prod.snd).nodup_iff.mpr (attached_nodup hw)
  have hmem : ∀ a ∈ calls j ++ om, a.2.toNat < A.pts.length ∧ a.1 = A.pt a.2.toNat := fun a ha =>
    (mem_attached hw a.1 a.2).mp (hperm.mem_iff.mp ha)
  refine ⟨h2, ?_, fun a ha => hmem a (List.mem_append_left _ ha), hs.imp fun {a b} hab => hab, fun i hi hne a ha => ?_⟩
  · rw [List.map_append] at hnd
    exact (List.nodup_append.mp hnd).1
  · have hst : (A.pt i, BitVec.ofNat w i) ∈ calls j ++ om := by
      rw [hperm.mem_iff, mem_attached hw, Euclid.attached_toNat hw hi]
      exact ⟨hi, rfl⟩
    rcases List.mem_append.mp hst with h | h
    · exact absurd (Euclid.attached_toNat hw hi) (hne _ h)
    · exact hle a ha _ h

/-! ## Non-vacuity -/

/-- The searches apply in single precision to the four points of `exampleCloud` with the default index type; the query points are the stored points,
processed in reverse order, the radius is 3/2. -/
example (fma : Bool) : exampleCloud.Valid ∧ exampleCloud.pts.length ≤ 2 ^ 32 ∧ Crs.IsPerm 4 (fun i => 3 - i) ∧
    (∀ j < 4, ∀ i < exampleCloud.pts.length, (Ieee.float fma).distPoint (exampleCloud.pt j) (exampleCloud.pt i) < ⊤) ∧
    (∀ j < 4, ∀ i < exampleCloud.pts.length, InRange (2 ^ (-24 : ℤ)) (2 ^ (-126 : ℤ)) (2 ^ (127 : ℤ)) (exampleCloud.pt j) (exampleCloud.pt i) ∧
      ((1 + 2 ^ (-24 : ℤ)) ^ (2 + 5) * Geometry.edist (exampleCloud.pt j) (exampleCloud.pt i) ^ 2 ≤ (3 / 2 : ℝ) ^ 2 ∨
        (3 / 2 : ℝ) ^ 2 < (1 - 2 ^ (-24 : ℤ)) ^ (2 + 5) * Geometry.edist (exampleCloud.pt j) (exampleCloud.pt i) ^ 2)) ∧
    Nearest.StackFits exampleCloud.scene.input 64 ∧ ∃ bsched, (exampleCloud.attached 32).Finished bsched := by
  have hl : exampleCloud.pts.length = 4 := rfl
  refine ⟨exampleCloud_valid, by rw [hl]; norm_num, by unfold Crs.IsPerm; decide, fun j hj i hi => example_finite fma j (by omega) i hi,
    fun j hj i hi => example_clear j (by omega) i hi, ?_, ?_⟩
  · refine Nearest.stack_suffices_small _ (by norm_num) ?_
    rw [Cloud.n_eq, hl]; norm_num
  · obtain ⟨schedB, hB⟩ := Construction.exists_complete (exampleCloud.attached 32).params ((exampleCloud_valid.attached 32).keys (by decide))
    exact ⟨schedB, fun _ => hB⟩

end ArborX.Fp
