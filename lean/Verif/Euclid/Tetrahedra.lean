import Verif.Euclid.Theorems
import Verif.Geometry.DegenerateTetrahedron
import Verif.Traversal.AnyPredicate

/-!
# Property theorems: points and meshes of tetrahedra, some of them flat (C109)

The specification is that of C52 and C53.
-/

namespace ArborX.Euclid

open Geometry BVH

/-- All values are tetrahedra, flat or not. -/
def Scene.Tetrahedra (S : Scene 3) : Prop := ∀ g ∈ S.geo, ∃ T, g = .tetrahedron T

/-- What the constructor needs. -/
structure Scene.Mesh (S : Scene 3) : Prop where
  prec : 24 ≤ S.prec
  fits : S.geo.length ≤ 2 ^ 63
  sorted : S.input.Sorted
  tetrahedra : S.Tetrahedra

lemma Scene.Mesh.input {S : Scene 3} (h : S.Mesh) : S.input.Valid :=
  Morton.morton64_valid 3 (by norm_num) (by norm_num) S.prec h.prec S.input _ (fun _ _ => rfl) h.fits h.sorted

lemma Scene.Mesh.at {S : Scene 3} (h : S.Mesh) {i : ℕ} (hi : i < S.geo.length) : ∃ T, toReal (S.at i) = .tetrahedron T := by
  obtain ⟨T, hT⟩ := h.tetrahedra _ (S.at_mem hi)
  exact ⟨_, by rw [hT]; rfl⟩

/-- The point is within the range of the coordinates of the tetrahedron in each direction. -/
def Between (T : Tetrahedron ℝ 3) (p : Pt ℝ 3) : Prop := ∀ d, (∃ x ∈ T.set, x d ≤ p d) ∧ ∃ x ∈ T.set, p d ≤ x d

lemma Between.mem {T : Tetrahedron ℝ 3} {p : Pt ℝ 3} (h : Between T p) {B : Box ℝ 3} (hB : T.set ⊆ B.set) : p ∈ B.set := by
  intro d
  obtain ⟨⟨x, hx, hx'⟩, y, hy, hy'⟩ := h d
  exact ⟨(hB hx d).1.trans hx', hy'.trans (hB hy d).2⟩

lemma Between.of_mem {T : Tetrahedron ℝ 3} {p : Pt ℝ 3} (h : p ∈ T.set) : Between T p := fun _ => ⟨⟨p, h, le_rfl⟩, p, h, le_rfl⟩

lemma stored_range (S : Scene 3) : S.input.stored = List.range S.geo.length := by
  unfold Input.stored
  exact List.map_id _

/-- **C109 (partial).** The query `intersects(point)` on a tree of tetrahedra, flat or not, built with the default space-filling curve under any schedule: the callback is called at most once for each
tetrahedron, for all that contain the point, and otherwise only for flat ones.  Missing: that flat ones which do not contain it are not reported, which is false: all that have the point in their bounding box are, see
also `flat_tetrahedron_reported`. -/
theorem point_query_tetrahedra_partial (S : Scene 3) (h : S.Mesh) (p : Pt ℝ 3) (sched : List ℕ) (hf : S.input.Finished sched) (fuel : ℕ) (hfuel : 2 * S.geo.length ≤ fuel) :
    ∃ calls, Traversal.spatialQuery (S.input.build sched) (S.leafTest (.point p)) (nodeTest (.point p)) (fun _ => false) fuel = .done calls ∧
      calls.Nodup ∧ (∀ i ∈ calls, i < S.geo.length) ∧
      ∀ i < S.geo.length, ∀ T, toReal (S.at i) = .tetrahedron T → (p ∈ T.set → i ∈ calls) ∧ (i ∈ calls → p ∈ T.set ∨ ¬T.NonDegenerate) ∧
        (¬T.NonDegenerate → Between T p → i ∈ calls) := by
  obtain ⟨calls, h1, h2, h3⟩ := Traversal.spatial_query_any S.input h.input (S.leafTest (.point p)) (nodeTest (.point p))
  have hleaf : ∀ i T, toReal (S.at i) = .tetrahedron T → (S.leafTest (.point p) i = true ↔ p ∈ T.set ∨ ¬T.NonDegenerate) := by
    intro i T e
    rw [← intersects_point_tetrahedron_exact, Scene.leafTest, e, decide_eq_true_eq]
    exact Option.some_inj
  rw [stored_range] at h2 h3
  have hfound : ∀ i < S.geo.length, ∀ T, toReal (S.at i) = .tetrahedron T → p ∈ T.set ∨ ¬T.NonDegenerate → Between T p → i ∈ calls := by
    intro i hi T e hp hb
    refine (h3 (fun j => decide (j = i)) (fun j hj => ?_)).subset (List.mem_filter.mpr ⟨List.mem_range.mpr hi, decide_eq_true rfl⟩)
    obtain rfl := of_decide_eq_true hj
    refine ⟨(hleaf j T e).2 hp, fun v hv => ?_⟩
    have hval : (toReal (S.at j)).Valid := by rw [e]; exact trivial
    obtain ⟨C, rfl, hC⟩ := leafBound_le (M := (S.M : ℝ)) hval hv
    rw [e] at hC
    show decide (intersects (.point p) (.box C.1) = some true) = true
    rw [decide_eq_true_eq]
    show some (intersectsPointBox p C.1) = some true
    rw [(intersects_exact (Q := .point p) (g := .box C.1) trivial C.2 rfl).2 ⟨p, rfl, hb.mem hC⟩]
  refine ⟨calls, h1 sched hf fuel hfuel, ?_, fun i hi => List.mem_range.1 (List.mem_filter.1 (h2.subset hi)).1, fun i hi T e =>
    ⟨fun hp => hfound i hi T e (.inl hp) (.of_mem hp), fun hc => (hleaf i T e).1 (List.mem_filter.1 (h2.subset hc)).2, fun hn => hfound i hi T e (.inr hn)⟩⟩
  obtain ⟨l, hl, hs⟩ := h2
  exact hl.nodup_iff.mp (hs.nodup (List.nodup_range.filter _))

/-- **C109 (partial).** The query `nearest(point, k)` on such a tree returns `min k n` different tetrahedra; one which is not flat is returned only if no tetrahedron that is left out, flat or not, has a
nearer point, and those that are not flat are in the order of their distances.  Missing: the same for flat ones, which is false: they are taken to be at distance zero, and if one that has the point in its bounding box is left out then all that is returned contains the point or is
flat, see also `flat_tetrahedron_reported`. -/
theorem nearest_tetrahedra_partial (S : Scene 3) (h : S.Mesh) (p : Pt ℝ 3) (k : ℕ) (hcap : Nearest.StackFits S.input 64) (sched : List ℕ) (hf : S.input.Finished sched) (fuel : ℕ)
    (hfuel : 2 * S.geo.length ≤ fuel) :
    ∃ calls, Nearest.nearestQuery (S.input.build sched) (S.nearest (.point p) k) fuel = .done calls ∧
      calls.Nodup ∧ (∀ i ∈ calls, i < S.geo.length) ∧ calls.length = min k S.geo.length ∧
      calls.Pairwise (fun i j => ∀ T U r s, toReal (S.at i) = .tetrahedron T → toReal (S.at j) = .tetrahedron U → T.NonDegenerate → U.NonDegenerate →
        IsDistance {p} T.set r → IsDistance {p} U.set s → r ≤ s) ∧
      ∀ i ∈ calls, ∀ j < S.geo.length, j ∉ calls → ∀ T r, toReal (S.at i) = .tetrahedron T → T.NonDegenerate → IsDistance {p} T.set r →
        (∀ x ∈ (toReal (S.at j)).set, r ≤ Geometry.edist p x) ∧ ∀ U, toReal (S.at j) = .tetrahedron U → ¬U.NonDegenerate → Between U p → r = 0 := by
  by_cases hn : S.input.n = 1
  · have hn' : S.geo.length = 1 := hn
    refine ⟨_, Nearest.nearest_query_single S.input hn _ sched fuel, ?_⟩
    have e : S.input.values 0 = 0 := rfl
    rw [e]
    by_cases hk : k < 1
    · rw [if_pos (show (S.nearest (.point p) k).k < 1 from hk)]
      simp; omega
    · rw [if_neg (show ¬(S.nearest (.point p) k).k < 1 from hk)]
      refine ⟨List.nodup_singleton _, by simp [hn'], by simp [hn']; omega, List.pairwise_singleton _ _, fun i _ j hj hjn => absurd ?_ hjn⟩
      rw [hn'] at hj
      rw [show j = 0 by omega]
      exact List.mem_singleton_self 0
  have hval : ∀ i, (toReal (S.at i)).Valid := by
    intro i
    by_cases hi : i < S.geo.length
    · obtain ⟨T, e⟩ := h.at hi
      rw [e]; exact trivial
    · rw [Scene.at, List.getD_eq_default _ _ (by omega)]; exact trivial
  -- the distance of the point and the box of a value
  have hbox : ∀ i, ∃ b : ℝ, 0 ≤ b ∧ (∀ v, S.input.vol i ≤ v → (S.nearest (.point p) k).dv v ≤ (b : WithTop ℝ)) ∧ (∀ x ∈ (toReal (S.at i)).set, b ≤ Geometry.edist p x) ∧
      ∀ U, toReal (S.at i) = .tetrahedron U → Between U p → b ≤ 0 := by
    intro i
    obtain ⟨B, e, hB⟩ := leafBound_spec (S.M : ℝ) (hval i)
    have hd := distance_point_box p B.1 B.2
    refine ⟨_, IsDistance.nonneg hd, fun v hv => ?_, fun x hx => hd.minimal p rfl x (hB hx), fun U hU hb => ?_⟩
    swap
    · rw [hU] at hB
      refine (hd.minimal p rfl p (hb.mem hB)).trans (le_of_eq ?_)
      simp [Geometry.edist, dist2]
    rw [show S.input.vol i = (B : Bound 3) from e] at hv
    induction v using WithBot.recBotCoe with
    | bot => exact absurd hv (by simp)
    | coe C => exact WithTop.coe_le_coe.2 (distance_lower_bound hd (distance_point_box p C.1 C.2) ((VBox.le_iff B C).mp (WithBot.coe_le_coe.mp hv)))
  -- the computed distances
  have hdl : ∀ i, ∃ r : ℝ, (S.nearest (.point p) k).dl i = (r : WithTop ℝ) ∧ 0 ≤ r ∧ (∀ x ∈ (toReal (S.at i)).set, r ≤ Geometry.edist p x) ∧
      ∀ T, toReal (S.at i) = .tetrahedron T → (T.NonDegenerate → IsDistance {p} T.set r) ∧ (¬T.NonDegenerate → r = 0) := by
    intro i
    show ∃ r : ℝ, asDistance (distance (.point p) (toReal (S.at i))) = (r : WithTop ℝ) ∧ _
    by_cases hi : i < S.geo.length
    · obtain ⟨T, e⟩ := h.at hi
      rw [e]
      obtain ⟨r, hr, h1, h2⟩ := distance_point_tetrahedron_exact p T
      refine ⟨r, by show asDistance (distancePointTetrahedron p T) = _; rw [hr]; rfl, ?_, fun x hx => ?_, fun U hU => ?_⟩
      · by_cases hT : T.NonDegenerate
        · exact IsDistance.nonneg (h1 hT)
        · rw [h2 hT]
      · by_cases hT : T.NonDegenerate
        · exact (h1 hT).minimal p rfl x hx
        · rw [h2 hT]; exact Geometry.edist_nonneg p x
      · obtain rfl : T = U := by injection hU
        exact ⟨h1, h2⟩
    · have e : toReal (S.at i) = .point (toRealPt 0) := by rw [Scene.at, List.getD_eq_default _ _ (by omega)]; rfl
      rw [e]
      have hd := distance_point_point p (toRealPt 0)
      exact ⟨distancePoint p (toRealPt 0), rfl, IsDistance.nonneg hd, fun x hx => hd.minimal p rfl x hx, fun T hT => by simp at hT⟩
  choose b hb0 hbv hbx hbz using hbox
  choose r hr hr0 hrx hrd using hdl
  obtain ⟨calls, h1, om, h3, h4, -, h6, h7, h8⟩ := Nearest.nearest_query_any S.input h.input hn (S.nearest (.point p) k) (fun i => ((max (r i) (b i) : ℝ) : WithTop ℝ))
    (fun i => ⟨by rw [hr i]; exact WithTop.coe_le_coe.2 (le_max_left _ _), fun v hv => (hbv i v hv).trans (WithTop.coe_le_coe.2 (le_max_right _ _))⟩)
    (fun i => WithTop.coe_le_coe.2 ((hr0 i).trans (le_max_left _ _))) hcap sched hf fuel hfuel
  rw [stored_range] at h3
  have hnd : (calls ++ om).Nodup := h3.nodup_iff.mpr List.nodup_range
  have hlen : calls.length + om.length = S.geo.length := by rw [← List.length_append, h3.length_eq, List.length_range]
  refine ⟨calls, h1, (List.nodup_append.mp hnd).1, fun i hi => List.mem_range.1 (h3.mem_iff.1 (List.mem_append_left _ hi)), ?_, ?_, ?_⟩
  · have h6' : calls.length ≤ k := h6
    by_cases hlt : calls.length < k
    · have : om = [] := List.eq_nil_iff_forall_not_mem.2 fun i hi => h8 hlt i hi (WithTop.coe_lt_top _)
      rw [this, List.length_nil] at hlen
      omega
    · omega
  · refine h4.imp fun {i j} hij T U s t hT hU hTn hUn hs ht => ?_
    rw [hr i, hr j, WithTop.coe_le_coe] at hij
    rw [IsDistance.unique hs ((hrd i T hT).1 hTn), IsDistance.unique ht ((hrd j U hU).1 hUn)]
    exact hij
  · intro i hi j hj hjn T s hT hTn hs
    have hjo : j ∈ om := (List.mem_append.mp (h3.mem_iff.mpr (List.mem_range.mpr hj))).resolve_left hjn
    have := h7 i hi j hjo
    rw [hr i, WithTop.coe_le_coe] at this
    rw [IsDistance.unique hs ((hrd i T hT).1 hTn)]
    refine ⟨fun x hx => this.trans (max_le (hrx j x hx) (hbx j x hx)), fun U hU hUn hb => le_antisymm (this.trans (max_le ?_ (hbz j U hU hb))) (hr0 i)⟩
    rw [(hrd j U hU).2 hUn]

/-! ## Flat tetrahedra are reported -/

/-- A tetrahedron, and a rectangle in the plane x = y. -/
def flatScene : Scene 3 where
  geo := [.tetrahedron ⟨![10, 0, 6], ![10, 1, 6], ![9, 0, 6], ![10, 0, 7]⟩, .tetrahedron ⟨![0, 0, 0], ![10, 10, 0], ![10, 10, 10], ![0, 0, 10]⟩]
  M := 1000
  prec := 24
  red := .iter (.iter .init 0) 1
  perm := fun i => i

theorem flatScene_mesh : flatScene.Mesh where
  prec := le_rfl
  fits := by decide
  sorted := by
    refine ⟨?_, ?_⟩
    · show ((List.range 2).map (fun i => i)).Perm (List.range 2)
      rw [List.map_id']
    · intro i hi
      have hi' : i + 1 < 2 := hi
      have h01 : flatScene.code 0 ≤ flatScene.code 1 := by decide +kernel
      obtain rfl : i = 0 := by omega
      exact h01
  tetrahedra := by
    intro g hg
    simp only [flatScene, List.mem_cons, List.not_mem_nil, or_false] at hg
    rcases hg with rfl | rfl <;> exact ⟨_, rfl⟩

/-- **C109, refuted for flat tetrahedra.** On a tree of a tetrahedron and a rectangle, given as a tetrahedron as well, the query with the point (10, 0, 5), which is in neither, reports the rectangle.  `nearest(point, 1)`
returns the rectangle, of which all points are at a distance of more than 7, and not the tetrahedron, at a distance of at most 1. -/
theorem flat_tetrahedron_reported (sched : List ℕ) (hf : flatScene.input.Finished sched) (fuel : ℕ) (hfuel : 4 ≤ fuel) :
    Traversal.spatialQuery (flatScene.input.build sched) (flatScene.leafTest (.point ![10, 0, 5])) (nodeTest (.point ![10, 0, 5])) (fun _ => false) fuel = .done [1] ∧
    Nearest.nearestQuery (flatScene.input.build sched) (flatScene.nearest (.point ![10, 0, 5]) 1) fuel = .done [1] ∧
    (∀ x ∈ (toReal (flatScene.at 1)).set, 7 < Geometry.edist ![10, 0, 5] x) ∧ ![10, 0, 5] ∉ (toReal (flatScene.at 0)).set ∧
    ∃ x ∈ (toReal (flatScene.at 0)).set, Geometry.edist ![10, 0, 5] x = 1 := by
  set p : Pt ℝ 3 := ![10, 0, 5] with hp
  have e0 : toReal (flatScene.at 1) = .tetrahedron ⟨![0, 0, 0], ![10, 10, 0], ![10, 10, 10], ![0, 0, 10]⟩ := by
    show Geom.tetrahedron _ = _
    congr 1
    congr 1 <;> (funext d; fin_cases d <;> simp [toRealPt])
  have e1 : toReal (flatScene.at 0) = .tetrahedron ⟨![10, 0, 6], ![10, 1, 6], ![9, 0, 6], ![10, 0, 7]⟩ := by
    show Geom.tetrahedron _ = _
    congr 1
    congr 1 <;> (funext d; fin_cases d <;> simp [toRealPt])
  set T0 : Tetrahedron ℝ 3 := ⟨![0, 0, 0], ![10, 10, 0], ![10, 10, 10], ![0, 0, 10]⟩ with hT0
  set T1 : Tetrahedron ℝ 3 := ⟨![10, 0, 6], ![10, 1, 6], ![9, 0, 6], ![10, 0, 7]⟩ with hT1
  have n0 : ¬T0.NonDegenerate := by
    rw [Tetrahedron.nonDegenerate_iff, not_not, triple_eq]
    simp [hT0]
  have n1 : T1.NonDegenerate := by
    rw [Tetrahedron.nonDegenerate_iff, triple_eq]
    simp [hT1]
    norm_num
  have ha : T0.a ∈ T0.set := ⟨1, 0, 0, 0, by simp, le_rfl, le_rfl, le_rfl, by simp, fun d => by simp⟩
  have hc : T0.c ∈ T0.set := ⟨0, 0, 1, 0, le_rfl, le_rfl, by simp, le_rfl, by simp, fun d => by simp⟩
  have hb : Between T0 p := by
    intro d
    refine ⟨⟨T0.a, ha, ?_⟩, T0.c, hc, ?_⟩ <;> fin_cases d <;> norm_num [hT0, hp]
  have hp1 : p ∉ T1.set := by
    rintro ⟨t, u, v, w, ht, hu, hv, hw, h1, h⟩
    have := h 2
    simp [hp, hT1] at this
    linarith
  have far : ∀ x ∈ T0.set, 7 < Geometry.edist p x := by
    rintro x ⟨t, u, v, w, ht, hu, hv, hw, h1, h⟩
    have h0 := h 0
    have h1' := h 1
    simp [hT0] at h0 h1'
    rw [Geometry.edist]
    refine Real.lt_sqrt_of_sq_lt ?_
    rw [dist2, Fin.sum_univ_three]
    simp [hp]
    have : x 0 = x 1 := by linarith
    rw [this]
    nlinarith [sq_nonneg (x 1 - 5), sq_nonneg (5 - x 2)]
  have near : ∃ x ∈ T1.set, Geometry.edist p x = 1 := by
    refine ⟨T1.a, ⟨1, 0, 0, 0, by simp, le_rfl, le_rfl, le_rfl, by simp, fun d => by simp⟩, ?_⟩
    rw [Geometry.edist, dist2, Fin.sum_univ_three]
    simp [hp, hT1]
    norm_num
  rw [e0, e1]
  refine ⟨?_, ?_, far, hp1, near⟩
  · obtain ⟨calls, h1, h2, h3, h4⟩ := point_query_tetrahedra_partial flatScene flatScene_mesh p sched hf fuel hfuel
    rw [h1]
    have c0 : 1 ∈ calls := ((h4 1 (by decide) T0 e0).2.2 n0 hb)
    have c1 : 0 ∉ calls := fun hm => ((h4 0 (by decide) T1 e1).2.1 hm).elim hp1 (fun h => h n1)
    congr 1
    refine List.perm_singleton.1 ((List.perm_ext_iff_of_nodup h2 (List.nodup_singleton _)).2 fun i => ?_)
    rw [List.mem_singleton]
    refine ⟨fun hi => ?_, fun hi => hi ▸ c0⟩
    have : i < 2 := h3 i hi
    rcases (by omega : i = 1 ∨ i = 0) with rfl | rfl
    · rfl
    · exact absurd hi c1
  · obtain ⟨calls, h1, h2, h3, h4, -, h6⟩ := nearest_tetrahedra_partial flatScene flatScene_mesh p 1 (Nearest.stack_suffices_small flatScene.input (by norm_num) (by show 2 ≤ 129; norm_num)) sched hf fuel hfuel
    rw [h1]
    have hl : calls.length = 1 := h4
    obtain ⟨i, rfl⟩ := List.length_eq_one_iff.1 hl
    have hi : i < 2 := h3 i (List.mem_singleton_self i)
    rcases (by omega : i = 1 ∨ i = 0) with rfl | rfl
    · rfl
    · exfalso
      obtain ⟨r, -, hr, -⟩ := distance_point_tetrahedron_exact p T1
      have hz := (h6 0 (List.mem_singleton_self 0) 1 (by decide) (by simp) T1 r e1 n1 (hr n1)).2 T0 e0 n0 hb
      obtain ⟨x, hx, y, hy, hxy⟩ := (hr n1).attained
      rw [Set.mem_singleton_iff.1 hx, hz, Geometry.edist, Real.sqrt_eq_zero (by exact Finset.sum_nonneg fun d _ => sq_nonneg _), dist2] at hxy
      apply hp1
      have : p = y := by
        funext d
        have := (Finset.sum_eq_zero_iff_of_nonneg (fun d _ => sq_nonneg _)).1 hxy d (Finset.mem_univ d)
        exact sub_eq_zero.1 (pow_eq_zero_iff two_ne_zero |>.1 this)
      rw [this]
      exact hy

example : ∃ sched, flatScene.input.Finished sched := by
  obtain ⟨s, hs⟩ := Construction.exists_complete flatScene.input.params (flatScene_mesh.input.keys (by decide))
  exact ⟨s, fun _ => hs⟩

end ArborX.Euclid
