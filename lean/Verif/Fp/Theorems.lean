import Verif.Fp.Accuracy
import Verif.Euclid.Theorems

/-!
# Property theorems: queries in floating-point arithmetic (C64, C65, C66)

`F` is the arithmetic: any monotone symmetric rounding, in particular `Ieee.float` and `Ieee.double`, with and without fused multiply-adds.
-/

namespace ArborX.Fp

open Geometry BVH Euclid

variable {D : ℕ}

/-- What the constructor needs: `sortObjects` has sorted the codes, which do not use their top bit, the number of values is representable, and the values
are points and boxes with ordered corners. -/
structure Scene.Valid (S : Scene D) : Prop where
  fits : S.geo.length ≤ 2 ^ 63
  sorted : S.input.Sorted
  top : ∀ i < S.geo.length, (S.code i).toNat < 2 ^ 63
  simple : ∀ g ∈ S.geo, Simple g

lemma Scene.Valid.input {S : Scene D} (h : S.Valid) : S.input.Valid := ⟨by norm_num, h.fits, h.sorted, h.top⟩

lemma Scene.at_mem (S : Scene D) {i : ℕ} (hi : i < S.geo.length) : S.at i ∈ S.geo := by
  unfold Scene.at
  rw [List.getD_eq_getElem _ _ hi]
  exact List.getElem_mem hi

lemma Scene.Valid.at {S : Scene D} (h : S.Valid) (i : ℕ) : Simple (S.at i) := by
  rcases Nat.lt_or_ge i S.geo.length with hi | hi
  · exact h.simple _ (S.at_mem hi)
  · unfold Scene.at
    rw [List.getD_eq_default _ _ hi]
    exact trivial

lemma Scene.monotone {S : Scene D} (h : S.Valid) (F : Format) {Q : Geom ℝ D} (hQ : SimpleQuery Q) :
    Traversal.Monotone S.input.vol (S.leafTest F Q) (nodeTest F Q) := by
  intro i v hv ht
  obtain ⟨C, rfl, hC⟩ := leafBound_le (h.at i).valid hv
  exact decide_eq_true (intersects_mono F hQ (h.at i) hC (of_decide_eq_true ht))

lemma Scene.stored_eq (S : Scene D) : S.input.stored = List.range S.geo.length := by
  unfold Input.stored
  exact List.map_id _

/-- **C64.** In floating-point arithmetic, a spatial query `intersects(Q)`, `Q` a point, a box or a ball, on a tree of points and boxes calls the callback
once for each stored value that the test of the library accepts when it is applied to the value itself, and for no other: the boxes of the tree, whose
distances are rounded too, hide nothing. -/
theorem spatial_query_float (S : Scene D) (h : S.Valid) (F : Format) (Q : Geom ℝ D) (hQ : SimpleQuery Q) (sched : List ℕ)
    (hf : S.input.Finished sched) (fuel : ℕ) (hfuel : 2 * S.geo.length ≤ fuel) :
    ∃ calls, Traversal.spatialQuery (S.input.build sched) (S.leafTest F Q) (nodeTest F Q) (fun _ => false) fuel = .done calls ∧
      calls.Nodup ∧ ∀ i, i ∈ calls ↔ i < S.geo.length ∧ F.intersects Q (S.at i) = some true := by
  obtain ⟨calls, h1, h2⟩ := Traversal.spatial_query_exact S.input h.input (S.leafTest F Q) (nodeTest F Q) (S.monotone h F hQ) sched hf fuel hfuel
  rw [S.stored_eq] at h2
  refine ⟨calls, h1, h2.nodup_iff.mpr (List.nodup_range.filter _), fun i => ?_⟩
  rw [h2.mem_iff, List.mem_filter, List.mem_range]
  exact and_congr_right (fun _ => decide_eq_true_iff)

/-- **C64.** If the query is a box, there is no rounding at all: the values found are those that have a point in common with it. -/
theorem box_query_float (S : Scene D) (h : S.Valid) (F : Format) (Q : Box ℝ D) (hQ : Q.Valid) (sched : List ℕ)
    (hf : S.input.Finished sched) (fuel : ℕ) (hfuel : 2 * S.geo.length ≤ fuel) :
    ∃ calls, Traversal.spatialQuery (S.input.build sched) (S.leafTest F (.box Q)) (nodeTest F (.box Q)) (fun _ => false) fuel = .done calls ∧
      calls.Nodup ∧ ∀ i, i ∈ calls ↔ i < S.geo.length ∧ (Q.set ∩ (S.at i).set).Nonempty := by
  obtain ⟨calls, h1, h2, h3⟩ := spatial_query_float S h F (.box Q) hQ sched hf fuel hfuel
  refine ⟨calls, h1, h2, fun i => (h3 i).trans (and_congr_right fun hi => ?_)⟩
  have hs := h.at i
  cases hg : S.at i with
  | point p =>
    show some (intersectsPointBox p Q) = some true ↔ (Q.set ∩ {p}).Nonempty
    rw [Option.some_inj, intersects_point_box, Set.inter_singleton_nonempty]
  | box B =>
    rw [hg] at hs
    show some (intersectsBoxBox Q B) = some true ↔ (Q.set ∩ B.set).Nonempty
    rw [Option.some_inj, intersects_box_box _ _ hQ hs]
  | _ => rw [hg] at hs; exact hs.elim

/-! ## Nearest neighbours -/

lemma Scene.admissible {S : Scene D} (h : S.Valid) (F : Format) {Q : Geom ℝ D} (hQ : SimpleQuery Q) (k : ℕ) :
    Nearest.Admissible (S.nearest F Q k) S.input.vol := by
  intro i v hv
  obtain ⟨C, rfl, hC⟩ := leafBound_le (h.at i).valid hv
  obtain ⟨s, e1, -, h2⟩ := distance_mono F hQ (h.at i)
  obtain ⟨r, e2, hr⟩ := h2 C.1 hC
  show asDistance (F.distance Q (.box C.1)) ≤ asDistance (F.distance Q (S.at i))
  rw [e1, e2]
  exact hr

/-- **C65.** In floating-point arithmetic, a query `nearest(Q, k)`, `Q` a point, a box or a ball, on a tree of points and boxes at distances that do not
overflow calls the callback on `min k n` different values, in the order of their computed distances, and no value left out has a smaller computed
distance than one that is not; provided that the stack is large enough for the tree. -/
theorem nearest_query_float (S : Scene D) (h : S.Valid) (F : Format) (Q : Geom ℝ D) (hQ : SimpleQuery Q) (k : ℕ)
    (hfin : ∀ i < S.geo.length, ∀ r, F.distance Q (S.at i) = some r → r < ⊤)
    (hcap : Nearest.StackFits S.input 64) (sched : List ℕ) (hf : S.input.Finished sched) (fuel : ℕ) (hfuel : 2 * S.geo.length ≤ fuel) :
    ∃ calls, Nearest.nearestQuery (S.input.build sched) (S.nearest F Q k) fuel = .done calls ∧
      calls.Nodup ∧ (∀ i ∈ calls, i < S.geo.length) ∧ calls.length = min k S.geo.length ∧
      calls.Pairwise (fun i j => ∀ r s, F.distance Q (S.at i) = some r → F.distance Q (S.at j) = some s → r ≤ s) ∧
      ∀ i ∈ calls, ∀ j < S.geo.length, j ∉ calls → ∀ r s, F.distance Q (S.at i) = some r → F.distance Q (S.at j) = some s → r ≤ s := by
  have hz : ∀ i, (S.nearest F Q k).zero ≤ (S.nearest F Q k).dl i := by
    intro i
    obtain ⟨s, e, h0, -⟩ := distance_mono F hQ (h.at i)
    show (0 : EReal) ≤ asDistance (F.distance Q (S.at i))
    rw [e]; exact h0
  have hfin' : ∀ i < S.input.n, (S.nearest F Q k).dl (S.input.values i) < (S.nearest F Q k).inf := by
    intro i hi
    obtain ⟨s, e, -, -⟩ := distance_mono F hQ (h.at i)
    show asDistance (F.distance Q (S.at i)) < ⊤
    rw [e]; exact hfin i hi s e
  obtain ⟨calls, h1, h2, om, h3, h4, -, -, h7, -⟩ := Nearest.nearest_query_finite S.input h.input (S.nearest F Q k) (S.admissible h F hQ k) hz hcap hfin'
    sched hf fuel hfuel
  rw [S.stored_eq] at h3
  have hnd : (calls ++ om).Nodup := h3.nodup_iff.mpr List.nodup_range
  have hlt : ∀ i ∈ calls ++ om, i < S.geo.length := fun i hi => List.mem_range.mp (h3.mem_iff.mp hi)
  have hle : ∀ i j, (S.nearest F Q k).dl i ≤ (S.nearest F Q k).dl j → ∀ r s, F.distance Q (S.at i) = some r → F.distance Q (S.at j) = some s → r ≤ s := by
    intro i j hij r s hr hs
    simp only [Scene.nearest, hr, hs, asDistance] at hij
    exact hij
  refine ⟨calls, h1, (List.nodup_append.mp hnd).1, fun i hi => hlt i (List.mem_append_left _ hi), h2, ?_, ?_⟩
  · exact h4.imp (fun {i j} hij => hle i j hij)
  · intro i hi j hj hjn
    have : j ∈ calls ++ om := h3.mem_iff.mpr (List.mem_range.mpr hj)
    exact hle i j (h7 i hi j ((List.mem_append.mp this).resolve_left hjn))

/-! ## Relative errors -/

/-- The point of a value nearest to `c`. -/
noncomputable def foot (c : Pt ℝ D) : Geom ℝ D → Pt ℝ D
  | .point q => q
  | .box B => closestPointBox c B
  | _ => c

/-- The differences of the coordinates of two points are zero or so large that their squares are normal numbers, and the square of their distance is in
the range of the format. -/
def InRange (u lo hi : ℝ) (p q : Pt ℝ D) : Prop :=
  (∀ d, p d = q d ∨ lo ≤ (1 - u) ^ (D + 5) * (q d - p d) ^ 2) ∧ (1 + u) ^ (D + 5) * dist2 p q ≤ hi

/-- **C66.** The computed distance of two points: with precision `u`, its square lies between `(1 - u) ^ (D + 5)` and `(1 + u) ^ (D + 5)` times that of
the Euclidean distance. -/
theorem distance_accuracy {F : Format} {u lo hi : ℝ} (h : F.Accurate u lo hi) (p q : Pt ℝ D) (hr : InRange u lo hi p q) :
    ∃ r : ℝ, F.distPoint p q = r ∧ 0 ≤ r ∧ (1 - u) ^ (D + 5) * Geometry.edist p q ^ 2 ≤ r ^ 2 ∧ r ^ 2 ≤ (1 + u) ^ (D + 5) * Geometry.edist p q ^ 2 := by
  have e : Geometry.edist p q ^ 2 = ∑ d, (q d - p d) ^ 2 := by
    rw [edist_sq, dist2_comm]; rfl
  rw [e]
  refine h.norm (fun d => q d - p d) (fun d => (hr.1 d).imp_left (fun hd => sub_eq_zero.mpr hd.symm)) ?_
  have := hr.2
  rw [dist2_comm] at this
  exact this

lemma foot_distance (c : Pt ℝ D) {g : Geom ℝ D} (hg : Simple g) : IsDistance {c} g.set (Geometry.edist c (foot c g)) := by
  cases g with
  | point q =>
    have := distance_point_point c q
    rwa [distancePoint_eq] at this
  | box B =>
    have := distance_point_box c B hg
    unfold distancePointBox at this
    rwa [distancePoint_eq] at this
  | _ => exact hg.elim

lemma distance_foot (F : Format) (c : Pt ℝ D) {g : Geom ℝ D} (hg : Simple g) : F.distance (.point c) g = some (F.distPoint c (foot c g)) := by
  cases g with
  | point q => rfl
  | box B => rfl
  | _ => exact hg.elim

lemma ball_foot (F : Format) (c : Pt ℝ D) (r : ℝ) {g : Geom ℝ D} (hg : Simple g) :
    F.intersects (.sphere ⟨c, r⟩) g = some (decide (F.distPoint c (foot c g) ≤ r)) := by
  cases g with
  | point q => rfl
  | box B => rfl
  | _ => exact hg.elim

/-- **C66.** A spatial query with a ball finds all values whose distance `δ` to the centre satisfies `(1 + u) ^ (D + 5) δ² ≤ r²`, and only values with
`(1 - u) ^ (D + 5) δ² ≤ r²`: what is wrong for a value so near to the boundary that rounding decides is right for all others. -/
theorem ball_query_accuracy (S : Scene D) (h : S.Valid) {F : Format} {u lo hi : ℝ} (hF : F.Accurate u lo hi) (c : Pt ℝ D) (r : ℝ) (hr : 0 ≤ r)
    (hrange : ∀ i < S.geo.length, InRange u lo hi c (foot c (S.at i))) (sched : List ℕ)
    (hf : S.input.Finished sched) (fuel : ℕ) (hfuel : 2 * S.geo.length ≤ fuel) :
    ∃ calls, Traversal.spatialQuery (S.input.build sched) (S.leafTest F (.sphere ⟨c, r⟩)) (nodeTest F (.sphere ⟨c, r⟩)) (fun _ => false) fuel = .done calls ∧
      calls.Nodup ∧ (∀ i ∈ calls, i < S.geo.length) ∧ ∀ i < S.geo.length, ∀ δ, IsDistance {c} (S.at i).set δ →
        ((1 + u) ^ (D + 5) * δ ^ 2 ≤ r ^ 2 → i ∈ calls) ∧ (i ∈ calls → (1 - u) ^ (D + 5) * δ ^ 2 ≤ r ^ 2) := by
  obtain ⟨calls, h1, h2, h3⟩ := spatial_query_float S h F (.sphere ⟨c, r⟩) trivial sched hf fuel hfuel
  refine ⟨calls, h1, h2, fun i hi => ((h3 i).mp hi).1, fun i hi δ hδ => ?_⟩
  have e := IsDistance.unique hδ (foot_distance c (h.at i))
  obtain ⟨s, es, s0, l1, l2⟩ := distance_accuracy hF c (foot c (S.at i)) (hrange i hi)
  rw [← e] at l1 l2
  rw [h3, ball_foot F c r (h.at i), es, Option.some_inj, decide_eq_true_iff, EReal.coe_le_coe_iff]
  constructor
  · intro hle
    exact ⟨hi, abs_le_of_sq_le_sq' (l2.trans hle) hr |>.2⟩
  · rintro ⟨-, hle⟩
    exact l1.trans (pow_le_pow_left₀ s0 hle 2)

/-- **C66.** A query for the nearest neighbours of a point returns nearest neighbours up to rounding: no value left out is nearer to the point, and no
later value nearer than an earlier one, by more than `D + 5` roundings of the squared distances. -/
theorem nearest_query_accuracy (S : Scene D) (h : S.Valid) {F : Format} {u lo hi : ℝ} (hF : F.Accurate u lo hi) (c : Pt ℝ D) (k : ℕ)
    (hrange : ∀ i < S.geo.length, InRange u lo hi c (foot c (S.at i)))
    (hcap : Nearest.StackFits S.input 64) (sched : List ℕ) (hf : S.input.Finished sched) (fuel : ℕ) (hfuel : 2 * S.geo.length ≤ fuel) :
    ∃ calls, Nearest.nearestQuery (S.input.build sched) (S.nearest F (.point c) k) fuel = .done calls ∧
      calls.Nodup ∧ (∀ i ∈ calls, i < S.geo.length) ∧ calls.length = min k S.geo.length ∧
      calls.Pairwise (fun i j => ∀ r s, IsDistance {c} (S.at i).set r → IsDistance {c} (S.at j).set s →
        (1 - u) ^ (D + 5) * r ^ 2 ≤ (1 + u) ^ (D + 5) * s ^ 2) ∧
      ∀ i ∈ calls, ∀ j < S.geo.length, j ∉ calls → ∀ r s, IsDistance {c} (S.at i).set r → IsDistance {c} (S.at j).set s →
        (1 - u) ^ (D + 5) * r ^ 2 ≤ (1 + u) ^ (D + 5) * s ^ 2 := by
  have hd : ∀ i < S.geo.length, ∃ x : ℝ, F.distance (.point c) (S.at i) = some (x : EReal) ∧ 0 ≤ x ∧ ∀ r, IsDistance {c} (S.at i).set r →
      (1 - u) ^ (D + 5) * r ^ 2 ≤ x ^ 2 ∧ x ^ 2 ≤ (1 + u) ^ (D + 5) * r ^ 2 := by
    intro i hi
    obtain ⟨x, ex, x0, l1, l2⟩ := distance_accuracy hF c (foot c (S.at i)) (hrange i hi)
    refine ⟨x, by rw [distance_foot F c (h.at i), ex], x0, fun r hr => ?_⟩
    rw [IsDistance.unique hr (foot_distance c (h.at i))]
    exact ⟨l1, l2⟩
  obtain ⟨calls, h1, h2, h3, h4, h5, h6⟩ := nearest_query_float S h F (.point c) trivial k
    (fun i hi r hr => by
      obtain ⟨x, ex, -, -⟩ := hd i hi
      rw [ex, Option.some_inj] at hr
      rw [← hr]; exact EReal.coe_lt_top x) hcap sched hf fuel hfuel
  have hle : ∀ i < S.geo.length, ∀ j < S.geo.length, (∀ r s, F.distance (.point c) (S.at i) = some r → F.distance (.point c) (S.at j) = some s → r ≤ s) →
      ∀ r s, IsDistance {c} (S.at i).set r → IsDistance {c} (S.at j).set s → (1 - u) ^ (D + 5) * r ^ 2 ≤ (1 + u) ^ (D + 5) * s ^ 2 := by
    intro i hi j hj hij r s hr hs
    obtain ⟨x, ex, x0, hx⟩ := hd i hi
    obtain ⟨y, ey, y0, hy⟩ := hd j hj
    have hxy : x ≤ y := EReal.coe_le_coe_iff.mp (hij x y ex ey)
    exact (hx r hr).1.trans ((pow_le_pow_left₀ x0 hxy 2).trans (hy s hs).2)
  refine ⟨calls, h1, h2, h3, h4, ?_, ?_⟩
  · exact List.Pairwise.imp_of_mem (fun {i j} hi hj hij => hle i (h3 i hi) j (h3 j hj) hij) h5
  · intro i hi j hj hjn
    exact hle i (h3 i hi) j hj (h6 i hi j hj hjn)

end ArborX.Fp
