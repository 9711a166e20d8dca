import Verif.Fp.Ray
import Verif.Fp.Limits
import Verif.Fp.Examples
import Verif.Distributed.Bounds

/-!
# Property theorems: ray casting in floating-point arithmetic (C87)

Trees of boxes in three dimensions; `F` is any monotone symmetric rounding, `nan` the sign of the NaNs of the machine.
-/

namespace ArborX.Fp

open Geometry BVH Euclid

variable {S : Scene 3} {F : Format} {nan : Bool} {R : Ray ℝ} {H : Box ℝ 3}

/-! ## Specification -/

/-- What a scene of boxes must satisfy: the boxes are in a box `H` of finite numbers whose corners can be subtracted from the origin of the ray without
overflow along the axes to which the ray is perpendicular. -/
structure Scene.RayReady (S : Scene 3) (F : Format) (R : Ray ℝ) (H : Box ℝ 3) : Prop where
  valid : H.Valid
  finite : ∀ d, -S.M ≤ H.lo d ∧ H.hi d ≤ S.M
  boxes : S.BoxesIn H
  fits : F.RayFits R H

/-! ## Lemmas -/

lemma Scene.RayReady.at (hr : S.RayReady F R H) (h : S.Valid) {i : ℕ} (hi : i < S.geo.length) :
    ∃ B : Box ℝ 3, S.at i = .box B ∧ B.Valid ∧ B.set ⊆ H.set := by
  obtain ⟨B, e, hs⟩ := hr.boxes _ (S.at_mem hi)
  have := h.at i
  rw [e] at this
  exact ⟨B, e, this, hs⟩

/-- The box `H` as a volume. -/
def Scene.RayReady.top (hr : S.RayReady F R H) : Bound 3 := ((⟨H, hr.valid⟩ : VBox 3) : Bound 3)

lemma Scene.RayReady.vol_le (hr : S.RayReady F R H) (h : S.Valid) (i : ℕ) (hi : i < S.input.n) : S.input.vol (S.input.values i) ≤ hr.top := by
  obtain ⟨B, e, hB, hs⟩ := hr.at h (show i < S.geo.length from hi)
  show leafBound S.M (S.at i) ≤ _
  rw [e]
  have hv : (Geom.box B).Valid := hB
  have hbd : (Geom.box B).Bounded S.M := by
    intro x hx d
    have := hs hx d
    exact ⟨(hr.finite d).1.trans this.1, this.2.trans (hr.finite d).2⟩
  have hl := leafBound_least hv hbd H hs
  obtain ⟨C, eC, -⟩ := leafBound_spec S.M hv
  rw [eC] at hl ⊢
  exact WithBot.coe_le_coe.mpr ((VBox.le_iff _ _).mpr hl)

open Classical in
/-- The test with volumes beyond the bounds replaced. -/
noncomputable def Scene.RayReady.pv (hr : S.RayReady F R H) (nan : Bool) (v : Bound 3) : Bool := if v ≤ hr.top then rayNode F nan R v else true

open Classical in
/-- The distance with volumes beyond the bounds replaced. -/
noncomputable def Scene.RayReady.dv (hr : S.RayReady F R H) (nan : Bool) (v : Bound 3) : EReal := if v ≤ hr.top then rayNodeDist F nan R v else 0

lemma Scene.rayDist_nonneg (S : Scene 3) (F : Format) (nan : Bool) (R : Ray ℝ) (i : ℕ) : 0 ≤ S.rayDist F nan R i := by
  unfold Scene.rayDist
  split
  · exact F.rayDistance_nonneg nan R _
  · exact le_top

lemma rayNodeDist_nonneg (F : Format) (nan : Bool) (R : Ray ℝ) (v : Bound 3) : 0 ≤ rayNodeDist F nan R v := by
  induction v using WithBot.recBotCoe with
  | bot => exact le_top
  | coe B => exact F.rayDistance_nonneg nan R _

lemma Scene.RayReady.inside (hr : S.RayReady F R H) {C : VBox 3} (hC : (C : Bound 3) ≤ hr.top) : F.RayFits R C.1 :=
  hr.fits.mono C.2 ((VBox.le_iff _ _).mp (WithBot.coe_le_coe.mp hC))

lemma Scene.RayReady.leaf_pv (hr : S.RayReady F R H) (h : S.Valid) (hR : R.Valid) :
    Traversal.Monotone S.input.vol (S.rayLeaf F nan R) (hr.pv nan) := by
  classical
  intro i v hv ht
  unfold Scene.RayReady.pv
  split_ifs with hle
  · obtain ⟨C, rfl, hC⟩ := leafBound_le (h.at i).valid hv
    show F.rayBox nan R C.1 = true
    have hval := h.at i
    unfold Scene.rayLeaf at ht
    cases hg : S.at i with
    | box B =>
      rw [hg] at ht hC hval
      exact F.rayBox_of_subset hR hval hC (hr.inside hle) ht
    | _ => rw [hg] at ht; exact absurd ht (by simp)
  · rfl

lemma Scene.RayReady.leaf_dv (hr : S.RayReady F R H) (h : S.Valid) (hR : R.Valid) (i : ℕ) (v : Bound 3) (hv : S.input.vol i ≤ v) :
    hr.dv nan v ≤ S.rayDist F nan R i := by
  classical
  unfold Scene.RayReady.dv
  split_ifs with hle
  · obtain ⟨C, rfl, hC⟩ := leafBound_le (h.at i).valid hv
    show F.rayDistance nan R C.1 ≤ _
    have hval := h.at i
    unfold Scene.rayDist
    cases hg : S.at i with
    | box B =>
      rw [hg] at hC hval
      exact F.rayDistance_anti hR hval hC (hr.inside hle)
    | _ => exact le_top
  · exact S.rayDist_nonneg F nan R i

lemma Scene.RayReady.node_dv (hr : S.RayReady F R H) (hR : R.Valid) (u v : Bound 3) (huv : u ≤ v) : hr.dv nan v ≤ hr.dv nan u := by
  classical
  unfold Scene.RayReady.dv
  by_cases hle : v ≤ hr.top
  · rw [if_pos hle, if_pos (huv.trans hle)]
    induction u using WithBot.recBotCoe with
    | bot => exact le_top
    | coe B =>
      induction v using WithBot.recBotCoe with
      | bot => exact absurd huv (by simp)
      | coe C => exact F.rayDistance_anti hR B.2 ((VBox.le_iff B C).mp (WithBot.coe_le_coe.mp huv)) (hr.inside hle)
  · rw [if_neg hle]
    split_ifs
    · exact rayNodeDist_nonneg F nan R u
    · exact le_rfl

lemma Scene.RayReady.pv_eq (hr : S.RayReady F R H) (v : Bound 3) (hv : v ≤ hr.top) : rayNode F nan R v = hr.pv nan v := by
  unfold Scene.RayReady.pv
  rw [if_pos hv]

lemma Scene.RayReady.dv_eq (hr : S.RayReady F R H) (v : Bound 3) (hv : v ≤ hr.top) : rayNodeDist F nan R v = hr.dv nan v := by
  unfold Scene.RayReady.dv
  rw [if_pos hv]

/-! ## Property theorems -/

/-- **C87 (partial).** In floating-point arithmetic, a query `intersects(ray)` on a tree of boxes calls the callback once for each box that the test of
the library accepts when it is applied to the box itself, and for no other. (Missing: directions with a negative zero, for which the test is wrong
(C36), and scenes so large that differences of coordinates overflow, for which it is false: `ray_query_nan`.) -/
theorem ray_query_float_partial (S : Scene 3) (h : S.Valid) (F : Format) (nan : Bool) (R : Ray ℝ) (hR : R.Valid) (H : Box ℝ 3) (hr : S.RayReady F R H)
    (sched : List ℕ) (hf : S.input.Finished sched) (fuel : ℕ) (hfuel : 2 * S.geo.length ≤ fuel) :
    ∃ calls, Traversal.spatialQuery (S.input.build sched) (S.rayLeaf F nan R) (rayNode F nan R) (fun _ => false) fuel = .done calls ∧
      calls.Nodup ∧ ∀ i, i ∈ calls ↔ i < S.geo.length ∧ ∃ B, S.at i = .box B ∧ F.rayBox nan R B = true := by
  obtain ⟨calls, h1, h2⟩ := Traversal.spatial_query_exact S.input h.input (S.rayLeaf F nan R) (hr.pv nan) (hr.leaf_pv h hR) sched hf fuel hfuel
  rw [S.stored_eq] at h2
  refine ⟨calls, ?_, h2.nodup_iff.mpr (List.nodup_range.filter _), fun i => ?_⟩
  · rw [← h1]
    exact Traversal.spatialQuery_congr S.input h.input (hr.vol_le h) hr.pv_eq _ sched fuel
  rw [h2.mem_iff, List.mem_filter, List.mem_range]
  refine and_congr_right fun hi => ?_
  obtain ⟨B, e, -, -⟩ := hr.at h hi
  unfold Scene.rayLeaf
  rw [e]
  exact ⟨fun ht => ⟨B, rfl, ht⟩, fun ⟨B', e', ht⟩ => by obtain rfl := Geom.box.inj e'; exact ht⟩

open Classical in
/-- **C87 (partial).** In floating-point arithmetic, a query `nearest(ray, k)` on a tree of boxes, of which there is not exactly one, calls the callback on
the `k` boxes of smallest finite computed distance along the ray, in the order of these distances, and on fewer only if fewer have a finite
distance. (Missing: as above; a tree of one box, C71; trees too deep for the stack, C06.) -/
theorem ray_nearest_float_partial (S : Scene 3) (h : S.Valid) (hn : S.geo.length ≠ 1) (F : Format) (nan : Bool) (R : Ray ℝ) (hR : R.Valid) (H : Box ℝ 3)
    (hr : S.RayReady F R H) (k : ℕ) (hcap : Nearest.StackFits S.input 64)
    (sched : List ℕ) (hf : S.input.Finished sched) (fuel : ℕ) (hfuel : 2 * S.geo.length ≤ fuel) :
    ∃ calls, Nearest.nearestQuery (S.input.build sched) (S.rayNearest F nan R k) fuel = .done calls ∧
      calls.Nodup ∧ (∀ i ∈ calls, i < S.geo.length ∧ S.rayDist F nan R i < ⊤) ∧
      calls.length = min k ((Finset.range S.geo.length).filter (fun i => S.rayDist F nan R i < ⊤)).card ∧
      calls.Pairwise (fun i j => S.rayDist F nan R i ≤ S.rayDist F nan R j) ∧
      ∀ i ∈ calls, ∀ j < S.geo.length, j ∉ calls → S.rayDist F nan R i ≤ S.rayDist F nan R j := by
  obtain ⟨calls, h1, hk⟩ := Nearest.nearest_query S.input h.input hn { S.rayNearest F nan R k with dv := hr.dv nan }
    (fun i v hv => hr.leaf_dv h hR i v hv) (fun i => S.rayDist_nonneg F nan R i) hcap sched hf fuel hfuel
  have hlen := hk.length
  obtain ⟨om, h3, h4, h5, -, h7, -⟩ := hk
  rw [S.stored_eq] at h3 hlen
  have hnd : (calls ++ om).Nodup := h3.nodup_iff.mpr List.nodup_range
  have hlt : ∀ i ∈ calls ++ om, i < S.geo.length := fun i hi => List.mem_range.mp (h3.mem_iff.mp hi)
  refine ⟨calls, ?_, (List.nodup_append.mp hnd).1, fun i hi => ⟨hlt i (List.mem_append_left _ hi), h5 i hi⟩, ?_, h4, fun i hi j hj hjn => ?_⟩
  · rw [← h1]
    exact Nearest.nearestQuery_congr S.input h.input (hr.vol_le h) hr.dv_eq sched fuel
  · rw [hlen]
    congr 1
    rw [List.countP_eq_length_filter, ← List.toFinset_card_of_nodup (List.nodup_range.filter _)]
    congr 1
    ext i
    rw [List.mem_toFinset, List.mem_filter, List.mem_range, Finset.mem_filter, Finset.mem_range, decide_eq_true_eq]
    rfl
  · have : j ∈ calls ++ om := h3.mem_iff.mpr (List.mem_range.mpr hj)
    exact h7 i hi j ((List.mem_append.mp this).resolve_left hjn)

/-- **C87 (partial).** In floating-point arithmetic, a query `ordered_intersects(ray)` on a tree of boxes of which no more than 65 disjoint subtrees are at
finite computed distance calls the callback on all boxes of finite computed distance, in the order of these distances, followed by at most one other box, until the callback asks to stop. (Missing: as
above, and the defects of C07.) -/
theorem ray_ordered_float_partial (S : Scene 3) (h : S.Valid) (F : Format) (nan : Bool) (R : Ray ℝ) (hR : R.Valid) (H : Box ℝ 3)
    (hr : S.RayReady F R H) (hcap : Ordered.BufferFits S.input (S.rayOrdered F nan R)) :
    ∃ near extra : List ℕ, near.Nodup ∧ (∀ i, i ∈ near ↔ i < S.geo.length ∧ S.rayDist F nan R i < ⊤) ∧
      near.Pairwise (fun i j => S.rayDist F nan R i ≤ S.rayDist F nan R j) ∧
      extra.length ≤ 1 ∧ (∀ i ∈ extra, i < S.geo.length ∧ S.rayDist F nan R i = ⊤) ∧
      ∀ sched, S.input.Finished sched → ∀ (stop : List ℕ → Bool) (fuel : ℕ), 2 * S.geo.length ≤ fuel →
      ∃ calls, Ordered.orderedQuery (S.input.build sched) (S.rayOrdered F nan R) stop fuel = .done calls ∧ calls <+: near ++ extra ∧
        (∀ p, p <+: calls → p ≠ [] → p ≠ calls → stop p = false) ∧ (calls = near ++ extra ∨ stop calls = true) := by
  obtain ⟨near, extra, h1, h2, h3, h4, h5⟩ := Ordered.ordered_query_partial S.input h.input { S.rayOrdered F nan R with dv := hr.dv nan }
    ⟨fun i v hv => hr.leaf_dv h hR i v hv, hr.node_dv hR⟩ (fun _ => le_top)
    (Ordered.bufferFits_congr S.input h.input (hr.vol_le h) hr.dv_eq hcap)
  rw [S.stored_eq] at h1 h4
  refine ⟨near, extra, h1.nodup_iff.mpr (List.nodup_range.filter _), fun i => ?_, h2, h3, fun i hi => ?_, fun sched hf stop fuel hfuel => ?_⟩
  · rw [h1.mem_iff, List.mem_filter, List.mem_range, decide_eq_true_eq]
    rfl
  · obtain ⟨h6, h7⟩ := h4 i hi
    exact ⟨List.mem_range.mp h6, h7⟩
  · obtain ⟨calls, g1, g2⟩ := h5 sched hf stop fuel hfuel
    refine ⟨calls, ?_, g2⟩
    rw [← g1]
    exact Ordered.orderedQuery_congr S.input h.input (hr.vol_le h) hr.dv_eq stop sched fuel

/-! ## Accuracy -/

/-- The differences of the coordinates and their quotients are zero or in the range in which results have the relative error `u`. -/
def RayInRange (u lo hi : ℝ) (R : Ray ℝ) (B : Box ℝ 3) : Prop :=
  ∀ d, ∀ c ∈ [B.lo d, B.hi d], c = R.origin d ∨
    (lo ≤ |c - R.origin d| ∧ |c - R.origin d| ≤ hi ∧
      (R.dir d ≠ 0 → lo ≤ (1 - u) * |(c - R.origin d) / R.dir d| ∧ (1 + u) * |(c - R.origin d) / R.dir d| ≤ hi))

/-- A quotient of a difference: two roundings. -/
lemma quot_accurate {u lo hi : ℝ} (hF : F.Accurate u lo hi) {x s : ℝ}
    (hx : x = 0 ∨ (lo ≤ |x| ∧ |x| ≤ hi ∧ lo ≤ (1 - u) * |x / s| ∧ (1 + u) * |x / s| ≤ hi)) :
    ∃ y : ℝ, F.rayQuot (F.rnd x) s = y ∧ (0 ≤ x / s → (1 - u) ^ 2 * (x / s) ≤ y ∧ y ≤ (1 + u) ^ 2 * (x / s)) ∧
      (x / s ≤ 0 → (1 + u) ^ 2 * (x / s) ≤ y ∧ y ≤ (1 - u) ^ 2 * (x / s)) := by
  have u0 := hF.u0
  have u1 := hF.u1
  rcases hx with rfl | ⟨g1, g2, g3, g4⟩
  · refine ⟨0, ?_, ?_⟩
    · have e := F.rayQuot_coe 0 s
      rw [F.rnd_zero]
      rw [zero_div, F.rnd_zero] at e
      exact e
    · simp
  · obtain ⟨x', e1, b1⟩ := hF.err x g1 g2
    have b2 : |x' / s - x / s| ≤ u * |x / s| := by
      rw [← sub_div, abs_div, abs_div]
      rw [mul_div_assoc']
      exact div_le_div_of_nonneg_right b1 (abs_nonneg s)
    have e3 : F.rayQuot (F.rnd x) s = F.rnd (x' / s) := by rw [e1, F.rayQuot_coe]
    generalize x / s = a at *
    have b3 : |x' / s| ≤ (1 + u) * |a| := by
      have := abs_sub_abs_le_abs_sub (x' / s) a
      linarith
    have b4 : (1 - u) * |a| ≤ |x' / s| := by
      have := abs_sub_abs_le_abs_sub a (x' / s)
      rw [abs_sub_comm] at this
      linarith
    obtain ⟨y, e2, b5⟩ := hF.err (x' / s) (g3.trans b4) (b3.trans g4)
    generalize x' / s = b at *
    refine ⟨y, e3.trans e2, fun ha => ?_, fun ha => ?_⟩
    · rw [abs_of_nonneg ha] at b2 b4
      rw [abs_le] at b2
      have hb : 0 ≤ b := by nlinarith
      rw [abs_of_nonneg hb, abs_le] at b5
      constructor <;> nlinarith
    · rw [abs_of_nonpos ha] at b2 b4
      rw [abs_le] at b2
      have hb : b ≤ 0 := by nlinarith
      rw [abs_of_nonpos hb, abs_le] at b5
      constructor <;> nlinarith

lemma RayInRange.rayQuot {u lo hi : ℝ} {B : Box ℝ 3} (h : RayInRange u lo hi R B) {d : Fin 3} (hd : R.dir d ≠ 0) {c : ℝ} (hc : c ∈ [B.lo d, B.hi d]) :
    c - R.origin d = 0 ∨ (lo ≤ |c - R.origin d| ∧ |c - R.origin d| ≤ hi ∧
      lo ≤ (1 - u) * |(c - R.origin d) / R.dir d| ∧ (1 + u) * |(c - R.origin d) / R.dir d| ≤ hi) := by
  rcases h d c hc with e | ⟨h1, h2, h3⟩
  · exact .inl (sub_eq_zero.mpr e)
  · exact .inr ⟨h1, h2, (h3 hd).1, (h3 hd).2⟩

/-- The sign of a rounded difference in range. -/
lemma sign_accurate {u lo hi : ℝ} (hF : F.Accurate u lo hi) {x : ℝ} (hx : x = 0 ∨ (lo ≤ |x| ∧ |x| ≤ hi)) :
    ∃ y : ℝ, F.rnd x = y ∧ (y = 0 ↔ x = 0) ∧ (y < 0 ↔ x < 0) := by
  have u0 := hF.u0
  have u1 := hF.u1
  rcases hx with rfl | ⟨g1, g2⟩
  · exact ⟨0, F.rnd_zero, by simp, by simp⟩
  · obtain ⟨y, e, b⟩ := hF.err x g1 g2
    refine ⟨y, e, ?_⟩
    rcases lt_trichotomy x 0 with hx | hx | hx
    · rw [abs_of_neg hx, abs_le] at b
      have : y < 0 := by nlinarith
      exact ⟨⟨fun e => absurd e this.ne, fun e => absurd e hx.ne⟩, by tauto⟩
    · subst hx
      rw [abs_zero, mul_zero] at b
      have : y = 0 := by simpa using b
      simp [this]
    · rw [abs_of_pos hx, abs_le] at b
      have : 0 < y := by nlinarith
      exact ⟨⟨fun e => absurd e this.ne', fun e => absurd e hx.ne'⟩, ⟨fun e => absurd e this.not_gt, fun e => absurd e hx.not_gt⟩⟩

/-- The range of a dimension to which the ray is perpendicular. -/
lemma slab_zero_accurate {u lo hi : ℝ} (hF : F.Accurate u lo hi) {B : Box ℝ 3} (h : RayInRange u lo hi R B) (hR : R.Valid) {d : Fin 3}
    (hB : B.lo d ≤ B.hi d) (hd : R.dir d = 0) :
    (B.lo d ≤ R.origin d ∧ R.origin d ≤ B.hi d → F.slabRange nan R B d = (⊥, ⊤)) ∧
    (¬ (B.lo d ≤ R.origin d ∧ R.origin d ≤ B.hi d) → (F.slabRange nan R B d).1 = ⊤ ∨ (F.slabRange nan R B d).2 = ⊥) := by
  have key : ∀ c ∈ [B.lo d, B.hi d], c - R.origin d = 0 ∨ (lo ≤ |c - R.origin d| ∧ |c - R.origin d| ≤ hi) := by
    intro c hc
    rcases h d c hc with e | ⟨h1, h2, -⟩
    · exact .inl (sub_eq_zero.mpr e)
    · exact .inr ⟨h1, h2⟩
  obtain ⟨y, e1, z1, s1⟩ := sign_accurate hF (key (B.lo d) (by simp))
  obtain ⟨y', e2, z2, s2⟩ := sign_accurate hF (key (B.hi d) (by simp))
  unfold Format.slabRange Format.slab
  rw [if_pos hd, e1, e2, Format.zeroSign_fin (hR.sign d hd) (EReal.coe_ne_top _) (EReal.coe_ne_bot _),
    Format.zeroSign_fin (hR.sign d hd) (EReal.coe_ne_top _) (EReal.coe_ne_bot _)]
  have c1 : ((y : EReal) = 0) ↔ B.lo d = R.origin d := by rw [EReal.coe_eq_zero, z1, sub_eq_zero]
  have c2 : ((y : EReal) < 0) ↔ B.lo d < R.origin d := by rw [EReal.coe_neg', s1, sub_neg]
  have c3 : ((y' : EReal) < 0) ↔ B.hi d < R.origin d := by rw [EReal.coe_neg', s2, sub_neg]
  simp only [c1, c2, c3, decide_eq_true_eq]
  constructor
  · rintro ⟨h1, h2⟩
    by_cases e : B.lo d = R.origin d
    · simp [e]
    · rw [if_neg e, if_neg (not_lt.mpr h2), if_pos (lt_of_le_of_ne h1 e)]
      rfl
  · intro hn
    have e : B.lo d ≠ R.origin d := fun e => hn ⟨e.le, e ▸ hB⟩
    rw [if_neg e]
    by_cases g : B.hi d < R.origin d
    · left; rw [if_pos g]; rfl
    · right
      have : ¬ B.lo d < R.origin d := fun g' => hn ⟨g'.le, not_lt.mp g⟩
      rw [if_neg this]; rfl

/-- The range of another dimension: the parameters `a ≤ b` at which the ray crosses the two planes, with two roundings each. -/
lemma slab_accurate {u lo hi : ℝ} (hF : F.Accurate u lo hi) {B : Box ℝ 3} (h : RayInRange u lo hi R B) {d : Fin 3}
    (hB : B.lo d ≤ B.hi d) (hd : R.dir d ≠ 0) :
    ∃ a b y z : ℝ, a ≤ b ∧ (∀ t, a ≤ t ∧ t ≤ b ↔ B.lo d ≤ R.origin d + t * R.dir d ∧ R.origin d + t * R.dir d ≤ B.hi d) ∧
      F.slabRange nan R B d = ((y : EReal), (z : EReal)) ∧
      ((0 ≤ a → (1 - u) ^ 2 * a ≤ y ∧ y ≤ (1 + u) ^ 2 * a) ∧ (a ≤ 0 → (1 + u) ^ 2 * a ≤ y ∧ y ≤ (1 - u) ^ 2 * a)) ∧
      ((0 ≤ b → (1 - u) ^ 2 * b ≤ z ∧ z ≤ (1 + u) ^ 2 * b) ∧ (b ≤ 0 → (1 + u) ^ 2 * b ≤ z ∧ z ≤ (1 - u) ^ 2 * b)) := by
  obtain ⟨y, e1, b1⟩ := quot_accurate hF (h.rayQuot hd (c := B.lo d) (by simp))
  obtain ⟨z, e2, b2⟩ := quot_accurate hF (h.rayQuot hd (c := B.hi d) (by simp))
  unfold Format.slabRange Format.slab
  rw [if_neg hd]
  by_cases hp : R.dir d > 0
  · rw [if_pos hp, e1, e2]
    refine ⟨_, _, y, z, div_le_div_of_nonneg_right (by linarith) hp.le, fun t => ?_, rfl, b1, b2⟩
    rw [div_le_iff₀ hp, le_div_iff₀ hp]
    constructor <;> rintro ⟨h1, h2⟩ <;> constructor <;> linarith
  · have hn : R.dir d < 0 := lt_of_le_of_ne (not_lt.mp hp) hd
    rw [if_neg hp, e1, e2]
    refine ⟨_, _, z, y, div_le_div_of_nonpos_of_le hn.le (by linarith), fun t => ?_, rfl, b2, b1⟩
    rw [div_le_iff_of_neg hn, le_div_iff_of_neg hn]
    constructor <;> rintro ⟨h1, h2⟩ <;> constructor <;> linarith

/-- **C87.** The computed test and the exact one, with two roundings of relative error `u`. A ray that stays in the box for the parameters from `t₁` to
`t₂`, where `t₂` exceeds `t₁` by the rounding errors, is found to intersect it, at a distance of at most `t₁` but for the errors. -/
theorem ray_box_complete {u lo hi : ℝ} (hF : F.Accurate u lo hi) (hR : R.Valid) {B : Box ℝ 3} (hB : B.Valid) (h : RayInRange u lo hi R B)
    {t₁ t₂ : ℝ} (h0 : 0 ≤ t₁) (h12 : (1 + u) ^ 2 * t₁ ≤ (1 - u) ^ 2 * t₂) (hin : ∀ t, t₁ ≤ t → t ≤ t₂ → (fun d => R.origin d + t * R.dir d) ∈ B.set) :
    F.rayBox nan R B = true ∧ F.rayDistance nan R B ≤ (((1 + u) ^ 2 * t₁ : ℝ) : EReal) := by
  have u0 := hF.u0
  have u1 := hF.u1
  have p1 : (1 - u) ^ 2 ≤ (1 + u) ^ 2 := by nlinarith
  have p0 : 0 < (1 - u) ^ 2 := by have : 0 < 1 - u := by linarith
                                  positivity
  have ht : t₁ ≤ t₂ := by nlinarith
  have key : ∀ d, (F.slabRange nan R B d).1 ≤ (((1 + u) ^ 2 * t₁ : ℝ) : EReal) ∧ (((1 + u) ^ 2 * t₁ : ℝ) : EReal) ≤ (F.slabRange nan R B d).2 := by
    intro d
    have i1 := hin t₁ le_rfl ht d
    have i2 := hin t₂ ht le_rfl d
    by_cases hd : R.dir d = 0
    · rw [(slab_zero_accurate hF h hR (hB d) hd).1 (by simpa [hd] using i1)]
      exact ⟨bot_le, le_top⟩
    · obtain ⟨a, b, y, z, hab', hab, e, by', bz⟩ := slab_accurate (nan := nan) hF h (hB d) hd
      rw [e]
      have j1 := (hab t₁).mpr i1
      have j2 := (hab t₂).mpr i2
      refine ⟨EReal.coe_le_coe_iff.mpr ?_, EReal.coe_le_coe_iff.mpr ?_⟩
      · have q0 : 0 ≤ (1 + u) ^ 2 * t₁ := by positivity
        rcases le_total 0 a with ha | ha
        · exact (by'.1 ha).2.trans (mul_le_mul_of_nonneg_left j1.1 (by positivity))
        · exact (by'.2 ha).2.trans ((mul_nonpos_of_nonneg_of_nonpos p0.le ha).trans q0)
      · have hb : 0 ≤ b := h0.trans j1.2
        exact h12.trans ((mul_le_mul_of_nonneg_left j2.2 p0.le).trans (bz.1 hb).1)
  have k1 := (F.rayRange_fst_le nan R B _).mpr fun d => (key d).1
  have k2 := (F.le_rayRange_snd nan R B _).mpr fun d => (key d).2
  have k0 : (0 : EReal) ≤ (((1 + u) ^ 2 * t₁ : ℝ) : EReal) := by
    rw [← EReal.coe_zero, EReal.coe_le_coe_iff]; positivity
  have hb : F.rayBox nan R B = true := (F.rayBox_iff nan R B).mpr ⟨k1.trans k2, k0.trans k2⟩
  refine ⟨hb, ?_⟩
  unfold Format.rayDistance
  rw [if_pos hb]
  exact max_le k1 k0

/-- **C87.** Conversely, if the ray is found to intersect the box, the computed distance is a finite number `T ≥ 0`, and in each dimension the ray is
between the two planes of the box at a parameter that is `T` but for the rounding errors. -/
theorem ray_box_sound {u lo hi : ℝ} (hF : F.Accurate u lo hi) (hR : R.Valid) {B : Box ℝ 3} (hB : B.Valid) (h : RayInRange u lo hi R B)
    (hb : F.rayBox nan R B = true) :
    ∃ T : ℝ, F.rayDistance nan R B = T ∧ 0 ≤ T ∧ ∀ d, ∃ t, 0 ≤ t ∧ (1 - u) ^ 2 * t ≤ T ∧ T ≤ (1 + u) ^ 2 * t ∧
      B.lo d ≤ R.origin d + t * R.dir d ∧ R.origin d + t * R.dir d ≤ B.hi d := by
  have u0 := hF.u0
  have u1 := hF.u1
  have p0 : 0 < (1 - u) ^ 2 := by have : 0 < 1 - u := by linarith
                                  positivity
  have p2 : 0 < (1 + u) ^ 2 := by positivity
  have p1 : (1 - u) ^ 2 ≤ (1 + u) ^ 2 := by nlinarith
  obtain ⟨g1, g2⟩ := (F.rayBox_iff nan R B).mp hb
  have hD : F.rayDistance nan R B = max (F.rayRange nan R B).1 0 := by unfold Format.rayDistance; rw [if_pos hb]
  have hle : F.rayDistance nan R B ≤ (F.rayRange nan R B).2 := by rw [hD]; exact max_le g1 g2
  have hge : (F.rayRange nan R B).1 ≤ F.rayDistance nan R B := by rw [hD]; exact le_max_left _ _
  have k1 := (F.rayRange_fst_le nan R B _).mp hge
  have k2 := (F.le_rayRange_snd nan R B _).mp hle
  obtain ⟨d₀, hd₀⟩ : ∃ d, R.dir d ≠ 0 := Function.ne_iff.mp hR.nonzero
  have hT : ∃ T : ℝ, F.rayDistance nan R B = T := by
    obtain ⟨a, b, y, z, -, -, e, -⟩ := slab_accurate (nan := nan) hF h (hB d₀) hd₀
    have q := k2 d₀
    rw [e] at q
    have n := F.rayDistance_nonneg nan R B
    generalize F.rayDistance nan R B = D at q n
    induction D using EReal.rec with
    | bot => exact absurd n (by simp)
    | top => exact absurd q (by simp)
    | coe T => exact ⟨T, rfl⟩
  obtain ⟨T, eT⟩ := hT
  have hT0 : 0 ≤ T := by
    have n := F.rayDistance_nonneg nan R B
    rw [eT, ← EReal.coe_zero, EReal.coe_le_coe_iff] at n
    exact n
  rw [eT] at k1 k2
  refine ⟨T, eT, hT0, fun d => ?_⟩
  by_cases hd : R.dir d = 0
  · obtain ⟨-, z2⟩ := slab_zero_accurate (nan := nan) hF h hR (hB d) hd
    by_cases hi : B.lo d ≤ R.origin d ∧ R.origin d ≤ B.hi d
    · refine ⟨T / (1 + u) ^ 2, by positivity, ?_, ?_, by simpa [hd] using hi.1, by simpa [hd] using hi.2⟩
      · rw [mul_div_assoc', div_le_iff₀ p2, mul_comm]
        exact mul_le_mul_of_nonneg_left p1 hT0
      · rw [mul_div_cancel₀ _ p2.ne']
    · rcases z2 hi with e | e
      · have := k1 d; rw [e] at this; exact absurd this (by simp)
      · have := k2 d; rw [e] at this; exact absurd this (by simp)
  · obtain ⟨a, b, y, z, hab', hab, e, by', bz⟩ := slab_accurate (nan := nan) hF h (hB d) hd
    have q1 := k1 d
    have q2 := k2 d
    rw [e] at q1 q2
    have q1 : y ≤ T := EReal.coe_le_coe_iff.mp q1
    have q2 : T ≤ z := EReal.coe_le_coe_iff.mp q2
    have hb0 : 0 ≤ b := by
      by_contra hn
      push Not at hn
      have := (bz.2 hn.le).2
      nlinarith
    have r1 : (1 - u) ^ 2 * a ≤ T := by
      rcases le_total 0 a with ha | ha
      · exact (by'.1 ha).1.trans q1
      · exact (mul_nonpos_of_nonneg_of_nonpos p0.le ha).trans hT0
    have r2 : T ≤ (1 + u) ^ 2 * b := q2.trans (bz.1 hb0).2
    -- the parameter: `T / (1 + u) ^ 2`, moved into `[a, b]`
    refine ⟨max a (T / (1 + u) ^ 2), le_max_of_le_right (by positivity), ?_, ?_, ?_⟩
    · rcases le_total a (T / (1 + u) ^ 2) with g | g
      · rw [max_eq_right g, mul_div_assoc', div_le_iff₀ p2, mul_comm]
        exact mul_le_mul_of_nonneg_left p1 hT0
      · rw [max_eq_left g]; exact r1
    · have := le_max_right a (T / (1 + u) ^ 2)
      rw [div_le_iff₀ p2] at this
      linarith
    · refine (hab _).mp ⟨le_max_left _ _, max_le hab' ?_⟩
      rw [div_le_iff₀ p2]
      linarith

/-- `3 * 2 ^ 126` is a `float`. -/
lemma float_three (fma : Bool) : (Ieee.float fma).rnd (3 * 2 ^ (126 : ℤ)) = ((3 * 2 ^ (126 : ℤ) : ℝ) : EReal) := by
  have hpos : (0 : ℝ) < 3 * 2 ^ (126 : ℤ) := by positivity
  have hlog : Int.log 2 (3 * 2 ^ (126 : ℤ) : ℝ) = 127 := by
    have h1 : (127 : ℤ) ≤ Int.log 2 (3 * 2 ^ (126 : ℤ) : ℝ) := by
      rw [← Int.zpow_le_iff_le_log (b := 2) (by norm_num) hpos]
      norm_num
    have h2 : Int.log 2 (3 * 2 ^ (126 : ℤ) : ℝ) < 128 := by
      rw [← Int.lt_zpow_iff_log_lt (b := 2) (by norm_num) hpos]
      norm_num
    omega
  have hn : Ieee.near 24 (-149) (3 * 2 ^ (126 : ℤ) : ℝ) = 3 * 2 ^ (126 : ℤ) := by
    refine Ieee.near_of_mul (3 * 2 ^ 22) ?_
    unfold Ieee.ulpExp
    rw [hlog]; norm_num
  show Ieee.rnd 24 (-149) 128 _ = _
  unfold Ieee.rnd Ieee.pos
  rw [if_pos hpos.le, hn, if_pos (by norm_num)]

lemma slabRange_zero {B : Box ℝ 3} {d : Fin 3} (hd : R.dir d = 0) {x y : EReal} (h1 : F.rnd (B.lo d - R.origin d) = x)
    (h2 : F.rnd (B.hi d - R.origin d) = y) (hx : x ≠ 0) :
    F.slabRange nan R B d = (if zeroSign nan R d y then ⊤ else ⊥, if zeroSign nan R d x then ⊤ else ⊥) := by
  subst h1 h2
  unfold Format.slabRange Format.slab
  rw [if_pos hd, if_neg hx]
  rfl

lemma slabRange_pos {B : Box ℝ 3} {d : Fin 3} (hd : 0 < R.dir d) :
    F.slabRange nan R B d = (F.rayQuot (F.rnd (B.lo d - R.origin d)) (R.dir d), F.rayQuot (F.rnd (B.hi d - R.origin d)) (R.dir d)) := by
  unfold Format.slabRange Format.slab
  rw [if_neg hd.ne', if_pos hd]
  rfl

/-- **C87 (the code is wrong here).** Whatever the sign of the NaN of the machine, in `float` there are a box and a ray that starts inside it, all of whose
coordinates are `float`s and whose direction has no negative zero, which the test rejects: the difference of a corner and the origin overflows, and
its product with a zero of the direction is a NaN. -/
theorem ray_query_nan (fma nan : Bool) : ∃ (R : Ray ℝ) (B : Box ℝ 3), R.Valid ∧ B.Valid ∧
    (∀ d, (Ieee.float fma).rnd (B.lo d) = (B.lo d : EReal) ∧ (Ieee.float fma).rnd (B.hi d) = (B.hi d : EReal) ∧
      (Ieee.float fma).rnd (R.origin d) = (R.origin d : EReal) ∧ (Ieee.float fma).rnd (R.dir d) = (R.dir d : EReal)) ∧
    R.origin ∈ B.set ∧ (Ieee.float fma).rayBox nan R B = false := by
  have f1 : (Ieee.float fma).rnd 1 = ((1 : ℝ) : EReal) := by
    have := float_pow fma (a := 0) (by norm_num) (by norm_num)
    rwa [zpow_zero] at this
  have f0 : (Ieee.float fma).rnd 0 = ((0 : ℝ) : EReal) := (Ieee.float fma).rnd_zero
  have fn : ∀ {x : ℝ}, (Ieee.float fma).rnd x = (x : EReal) → (Ieee.float fma).rnd (-x) = ((-x : ℝ) : EReal) := by
    intro x e
    rw [(Ieee.float fma).neg, e, EReal.coe_neg]
  have f126 := float_pow fma (a := 126) (by norm_num) (by norm_num)
  have f127 := float_pow fma (a := 127) (by norm_num) (by norm_num)
  have ft := float_top fma (a := 128) (by norm_num)
  have fb : (Ieee.float fma).rnd (-2 ^ (128 : ℤ)) = ⊥ := by rw [(Ieee.float fma).neg, ft]; rfl
  have hp : (0 : ℝ) < 2 ^ (126 : ℤ) := by positivity
  have e7 : (2 : ℝ) ^ (127 : ℤ) = 2 * 2 ^ (126 : ℤ) := by norm_num
  have e8 : (2 : ℝ) ^ (128 : ℤ) = 4 * 2 ^ (126 : ℤ) := by norm_num
  have d1 : (![1, 0, 0] : Pt ℝ 3) ≠ 0 := fun e => one_ne_zero (congrFun e 0)
  cases nan
  · refine ⟨⟨![0, 2 ^ (126 : ℤ), 0], ![1, 0, 0], fun _ => false⟩, ⟨![-1, -(3 * 2 ^ (126 : ℤ)), -1], ![1, 2 ^ (127 : ℤ), 1]⟩, ⟨d1, fun _ _ => rfl⟩,
      ?_, ?_, ?_, ?_⟩
    · intro d
      fin_cases d <;> simp <;> linarith
    · intro d
      fin_cases d <;> first | exact ⟨fn f1, f1, f0, f1⟩ | exact ⟨fn (float_three fma), f127, f126, f0⟩ | exact ⟨fn f1, f1, f0, f0⟩
    · intro d
      fin_cases d <;> simp <;> constructor <;> linarith
    · rw [Bool.eq_false_iff]
      intro hb
      have h2 := ((Ieee.float fma).le_rayRange_snd _ _ _ _).mp (((Ieee.float fma).rayBox_iff _ _ _).mp hb).2 1
      rw [slabRange_zero (x := ⊥) (y := ((2 ^ (126 : ℤ) : ℝ) : EReal)) rfl ?_ ?_ EReal.bot_ne_zero] at h2
      · simp [zeroSign] at h2
      · rw [← fb]; congr 1; show (-(3 * 2 ^ (126 : ℤ)) - 2 ^ (126 : ℤ) : ℝ) = _; rw [e8]; ring
      · rw [← f126]; congr 1; show (2 ^ (127 : ℤ) - 2 ^ (126 : ℤ) : ℝ) = _; rw [e7]; ring
  · refine ⟨⟨![0, -2 ^ (126 : ℤ), 0], ![1, 0, 0], fun _ => false⟩, ⟨![-1, -2 ^ (127 : ℤ), -1], ![1, 3 * 2 ^ (126 : ℤ), 1]⟩, ⟨d1, fun _ _ => rfl⟩,
      ?_, ?_, ?_, ?_⟩
    · intro d
      fin_cases d <;> simp <;> linarith
    · intro d
      fin_cases d <;> first | exact ⟨fn f1, f1, f0, f1⟩ | exact ⟨fn f127, float_three fma, fn f126, f0⟩ | exact ⟨fn f1, f1, f0, f0⟩
    · intro d
      fin_cases d <;> simp <;> constructor <;> linarith
    · rw [Bool.eq_false_iff]
      intro hb
      have hb := (((Ieee.float fma).rayBox_iff _ _ _).mp hb).1
      have h1 := ((Ieee.float fma).rayRange_fst_le _ _ _ _).mp hb 1
      have h2 := ((Ieee.float fma).le_rayRange_snd _ _ _ _).mp h1 0
      rw [slabRange_zero (x := ((-2 ^ (126 : ℤ) : ℝ) : EReal)) (y := ⊤) rfl ?_ ?_ ?_, slabRange_pos (by simp)] at h2
      · have e : (Ieee.float fma).rayQuot ((Ieee.float fma).rnd (1 - 0)) 1 = ((1 : ℝ) : EReal) := by rw [sub_zero, f1, Format.rayQuot_coe, div_one, f1]
        replace h2 : (⊤ : EReal) ≤ (Ieee.float fma).rayQuot ((Ieee.float fma).rnd (1 - 0)) 1 := by
          simp only [zeroSign, true_or, if_true] at h2
          exact h2
        rw [e] at h2
        exact EReal.coe_ne_top 1 (top_le_iff.mp h2)
      · rw [← fn f126]; congr 1; show (-2 ^ (127 : ℤ) - -2 ^ (126 : ℤ) : ℝ) = _; rw [e7]; ring
      · rw [← ft]; congr 1; show (3 * 2 ^ (126 : ℤ) - -2 ^ (126 : ℤ) : ℝ) = _; rw [e8]; ring
      · rw [Ne, EReal.coe_eq_zero]; exact (neg_neg_of_pos hp).ne

/-! ## A concrete case -/

/-- Three boxes. -/
noncomputable def boxScene : Scene 3 where
  geo := [.box ⟨![0, 0, 0], ![1, 1, 1]⟩, .box ⟨![2, 0, 0], ![3, 1, 1]⟩, .box ⟨![2, 2, 0], ![3, 3, 1]⟩]
  M := 2 ^ (127 : ℤ)
  code := fun i => BitVec.ofNat 64 i
  perm := fun i => i

/-- A ray along the first axis. -/
noncomputable def boxRay : Ray ℝ := ⟨![-1, 1 / 2, 1 / 2], ![1, 0, 0], fun _ => false⟩

theorem boxScene_valid : boxScene.Valid where
  fits := by show 3 ≤ 2 ^ 63; norm_num
  sorted := ⟨by show ((List.range 3).map (fun i => i)).Perm (List.range 3); rw [List.map_id'], fun i hi => three_sorted rfl i hi⟩
  top := by
    intro i hi
    have hi' : i < 3 := hi
    rcases (by omega : i = 0 ∨ i = 1 ∨ i = 2) with rfl | rfl | rfl <;> decide
  simple := by
    intro g hg
    simp only [boxScene, List.mem_cons, List.not_mem_nil, or_false] at hg
    rcases hg with rfl | rfl | rfl
    all_goals
      intro d; fin_cases d <;> norm_num

theorem boxRay_valid : boxRay.Valid := ⟨fun e => one_ne_zero (congrFun e 0), fun _ _ => rfl⟩

/-- The hypotheses of the theorems on queries are satisfiable. -/
example (fma : Bool) : boxScene.RayReady (Ieee.float fma) boxRay ⟨fun _ => 0, fun _ => 3⟩ ∧ boxScene.geo.length ≠ 1 ∧ boxScene.geo.length ≤ 65 ∧
    Nearest.StackFits boxScene.input 64 := by
  refine ⟨⟨fun d => by norm_num, fun d => ⟨?_, ?_⟩, fun g hg => ?_, fun d _ => ?_⟩, by show 3 ≠ 1; norm_num, by show 3 ≤ 65; norm_num,
    Nearest.stack_suffices_small _ (by norm_num) (by show 3 ≤ _; norm_num)⟩
  · show (-2 ^ (127 : ℤ) : ℝ) ≤ 0; norm_num
  · show (3 : ℝ) ≤ 2 ^ (127 : ℤ); norm_num
  · simp only [boxScene, List.mem_cons, List.not_mem_nil, or_false] at hg
    rcases hg with rfl | rfl | rfl
    all_goals
      refine ⟨_, rfl, fun x hx d => ?_⟩
      have := hx d
      fin_cases d <;> simp at this ⊢ <;> constructor <;> linarith [this.1, this.2]
  · have hfin : ∀ x : ℝ, 2 ^ (-126 : ℤ) ≤ |x| → |x| ≤ 2 ^ (127 : ℤ) → (Ieee.float fma).rnd x ≠ ⊥ ∧ (Ieee.float fma).rnd x ≠ ⊤ := by
      intro x h1 h2
      obtain ⟨y, e, -⟩ := (float_accurate fma).err x h1 h2
      rw [e]
      exact ⟨EReal.coe_ne_bot y, EReal.coe_ne_top y⟩
    fin_cases d
    · exact ⟨(hfin _ (by norm_num [boxRay]) (by norm_num [boxRay])).1, (hfin _ (by norm_num [boxRay]) (by norm_num [boxRay])).2⟩
    · exact ⟨(hfin _ (by norm_num [boxRay, abs_of_pos]) (by norm_num [boxRay, abs_of_pos])).1, (hfin _ (by norm_num [boxRay, abs_of_pos]) (by norm_num [boxRay, abs_of_pos])).2⟩
    · exact ⟨(hfin _ (by norm_num [boxRay, abs_of_pos]) (by norm_num [boxRay, abs_of_pos])).1, (hfin _ (by norm_num [boxRay, abs_of_pos]) (by norm_num [boxRay, abs_of_pos])).2⟩

/-- And those of the theorems on the test: the second box is reached at the parameter 3. -/
example (fma nan : Bool) : (Ieee.float fma).rayBox nan boxRay ⟨![2, 0, 0], ![3, 1, 1]⟩ = true ∧
    (Ieee.float fma).rayDistance nan boxRay ⟨![2, 0, 0], ![3, 1, 1]⟩ ≤ (((1 + 2 ^ (-24 : ℤ)) ^ 2 * 3 : ℝ) : EReal) := by
  refine ray_box_complete (float_accurate fma) boxRay_valid (t₂ := 4) (fun d => ?_) (fun d c hc => ?_) (by norm_num) (by norm_num) fun t h1 h2 d => ?_
  · fin_cases d <;> norm_num
  · simp only [List.mem_cons, List.not_mem_nil, or_false] at hc
    right
    rcases hc with rfl | rfl <;> fin_cases d <;> norm_num [boxRay, abs_of_pos]
  · fin_cases d <;> norm_num [boxRay]
    constructor <;> linarith

end ArborX.Fp
