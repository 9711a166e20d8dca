import Verif.Fp.Limits
import Verif.Fp.CloudAccuracy
import Verif.Fp.Hdbscan

/-!
# The hypotheses of the theorems on floating-point arithmetic are satisfiable
-/

namespace ArborX.Fp

open Geometry BVH Euclid

/-! ## Queries -/

/-- A point, a box and another point. -/
noncomputable def exampleScene : Scene 2 where
  geo := [.point ![0, 0], .box ⟨![1, 1], ![2, 3]⟩, .point ![5, 5]]
  M := 2 ^ (127 : ℤ)
  code := fun i => BitVec.ofNat 64 i
  perm := fun i => i

theorem exampleScene_valid : exampleScene.Valid where
  fits := by show 3 ≤ 2 ^ 63; norm_num
  sorted := ⟨by show ((List.range 3).map (fun i => i)).Perm (List.range 3); rw [List.map_id'], fun i hi => three_sorted rfl i hi⟩
  top := by
    intro i hi
    have hi' : i < 3 := hi
    rcases (by omega : i = 0 ∨ i = 1 ∨ i = 2) with rfl | rfl | rfl <;> decide
  simple := by
    intro g hg
    simp only [exampleScene, List.mem_cons, List.not_mem_nil, or_false] at hg
    rcases hg with rfl | rfl | rfl
    · exact trivial
    · intro d; fin_cases d <;> norm_num
    · exact trivial

/-- `float` is accurate to 24 bits between `2 ^ -126` and `2 ^ 127`. -/
theorem float_accurate (fma : Bool) : (Ieee.float fma).Accurate (2 ^ (-24 : ℤ)) (2 ^ (-126 : ℤ)) (2 ^ (127 : ℤ)) :=
  Ieee.accurate (p := 24) (by norm_num) (emin := -149) (emax := 128) (by norm_num) (by norm_num) fma

/-- `double` is accurate to 53 bits between `2 ^ -1022` and `2 ^ 1023`. -/
theorem double_accurate (fma : Bool) : (Ieee.double fma).Accurate (2 ^ (-53 : ℤ)) (2 ^ (-1022 : ℤ)) (2 ^ (1023 : ℤ)) :=
  Ieee.accurate (p := 53) (by norm_num) (emin := -1074) (emax := 1024) (by norm_num) (by norm_num) fma

/-- Points whose differences are integers below a million are in the range of `float`. -/
lemma inRange_int (p q : Pt ℝ 2) (h : ∀ d, ∃ z : ℤ, |z| ≤ 1000000 ∧ q d - p d = z) : InRange (2 ^ (-24 : ℤ)) (2 ^ (-126 : ℤ)) (2 ^ (127 : ℤ)) p q := by
  have hsq : ∀ d, (q d - p d) ^ 2 ≤ 1000000000000 := by
    intro d
    obtain ⟨z, hz, e⟩ := h d
    rw [e]
    have h1 : z ^ 2 ≤ 1000000 ^ 2 := sq_le_sq' (by rw [abs_le] at hz; omega) (by rw [abs_le] at hz; omega)
    have h2 : ((z ^ 2 : ℤ) : ℝ) ≤ ((1000000 ^ 2 : ℤ) : ℝ) := by exact_mod_cast h1
    push_cast at h2
    linarith
  constructor
  · intro d
    obtain ⟨z, -, e⟩ := h d
    by_cases hz : z = 0
    · left
      rw [hz, Int.cast_zero] at e
      linarith
    · right
      have h1 : 1 ≤ z ^ 2 := by
        have : 0 < z ^ 2 := by positivity
        omega
      have h2 : (1 : ℝ) ≤ (q d - p d) ^ 2 := by
        rw [e]
        exact_mod_cast h1
      have h3 : (2 : ℝ) ^ (-126 : ℤ) ≤ (1 - 2 ^ (-24 : ℤ)) ^ (2 + 5) := by norm_num
      calc (2 : ℝ) ^ (-126 : ℤ) ≤ (1 - 2 ^ (-24 : ℤ)) ^ (2 + 5) * 1 := by rw [mul_one]; exact h3
        _ ≤ _ := mul_le_mul_of_nonneg_left h2 (by norm_num)
  · have h1 : dist2 p q ≤ 2000000000000 := by
      have : dist2 p q = (q 0 - p 0) ^ 2 + (q 1 - p 1) ^ 2 := by
        rw [dist2_comm]
        unfold dist2
        rw [Fin.sum_univ_two]
      rw [this]
      linarith [hsq 0, hsq 1]
    calc (1 + 2 ^ (-24 : ℤ)) ^ (2 + 5) * dist2 p q ≤ (1 + 2 ^ (-24 : ℤ)) ^ (2 + 5) * 2000000000000 :=
          mul_le_mul_of_nonneg_left h1 (by norm_num)
      _ ≤ _ := by norm_num

lemma example_range (i : ℕ) (hi : i < exampleScene.geo.length) :
    InRange (2 ^ (-24 : ℤ)) (2 ^ (-126 : ℤ)) (2 ^ (127 : ℤ)) (![4, 4] : Pt ℝ 2) (foot ![4, 4] (exampleScene.at i)) := by
  have hi' : i < 3 := hi
  apply inRange_int
  rcases (by omega : i = 0 ∨ i = 1 ∨ i = 2) with rfl | rfl | rfl
  · intro d
    refine ⟨-4, by norm_num, ?_⟩
    fin_cases d <;> norm_num [exampleScene, Scene.at, foot]
  · intro d
    fin_cases d
    · exact ⟨-2, by norm_num, by norm_num [exampleScene, Scene.at, foot, closestPointBox]⟩
    · exact ⟨-1, by norm_num, by norm_num [exampleScene, Scene.at, foot, closestPointBox]⟩
  · intro d
    refine ⟨1, by norm_num, ?_⟩
    fin_cases d <;> norm_num [exampleScene, Scene.at, foot]

/-- `spatial_query_float` and `box_query_float` apply: the box `[0, 1] × [0, 1]` meets the first two values. -/
example (F : Format) : ∃ sched calls, Traversal.spatialQuery (exampleScene.input.build sched) (exampleScene.leafTest F (.box ⟨![0, 0], ![1, 1]⟩))
    (nodeTest F (.box ⟨![0, 0], ![1, 1]⟩)) (fun _ => false) 6 = .done calls ∧ 0 ∈ calls ∧ 1 ∈ calls ∧ 2 ∉ calls := by
  obtain ⟨sched, hs⟩ := Construction.exists_complete exampleScene.input.params (exampleScene_valid.input.keys (by show 2 ≤ 3; norm_num))
  obtain ⟨calls, h1, -, h3⟩ := box_query_float exampleScene exampleScene_valid F ⟨![0, 0], ![1, 1]⟩ (by intro d; fin_cases d <;> norm_num)
    sched (fun _ => hs) 6 (by show 6 ≤ 6; norm_num)
  refine ⟨sched, calls, h1, (h3 0).mpr ⟨by show 0 < 3; norm_num, ![0, 0], ?_, rfl⟩, (h3 1).mpr ⟨by show 1 < 3; norm_num, ![1, 1], ?_, ?_⟩, fun h => ?_⟩
  · intro d; fin_cases d <;> norm_num
  · intro d; fin_cases d <;> norm_num
  · show (![1, 1] : Pt ℝ 2) ∈ (⟨![1, 1], ![2, 3]⟩ : Box ℝ 2).set
    intro d; fin_cases d <;> norm_num
  · obtain ⟨-, x, hx, hx'⟩ := (h3 2).mp h
    have e : x = ![5, 5] := hx'
    have := (hx 0).2
    rw [e] at this
    norm_num at this

/-- `ball_query_accuracy` applies: in `float` the ball of radius 3 about (4, 4) finds the box and the last point and not the first. -/
example (fma : Bool) : ∃ sched calls, Traversal.spatialQuery (exampleScene.input.build sched)
    (exampleScene.leafTest (Ieee.float fma) (.sphere ⟨![4, 4], 3⟩)) (nodeTest (Ieee.float fma) (.sphere ⟨![4, 4], 3⟩)) (fun _ => false) 6 = .done calls ∧
    0 ∉ calls ∧ 1 ∈ calls ∧ 2 ∈ calls := by
  obtain ⟨sched, hs⟩ := Construction.exists_complete exampleScene.input.params (exampleScene_valid.input.keys (by show 2 ≤ 3; norm_num))
  obtain ⟨calls, h1, -, -, h4⟩ := ball_query_accuracy exampleScene exampleScene_valid (float_accurate fma) ![4, 4] 3 (by norm_num) example_range
    sched (fun _ => hs) 6 (by show 6 ≤ 6; norm_num)
  have hd : ∀ i, ∀ x : ℝ, dist2 ![4, 4] (foot ![4, 4] (exampleScene.at i)) = x →
      Geometry.edist ![4, 4] (foot ![4, 4] (exampleScene.at i)) ^ 2 = x := fun i x hx => by rw [edist_sq, hx]
  refine ⟨sched, calls, h1, fun h => ?_, ?_, ?_⟩
  · have := (h4 0 (by show 0 < 3; norm_num) _ (foot_distance _ (exampleScene_valid.at 0))).2 h
    rw [hd 0 32 (by norm_num [exampleScene, Scene.at, foot, dist2, Fin.sum_univ_two])] at this
    norm_num at this
  · refine (h4 1 (by show 1 < 3; norm_num) _ (foot_distance _ (exampleScene_valid.at 1))).1 ?_
    rw [hd 1 5 (by norm_num [exampleScene, Scene.at, foot, dist2, Fin.sum_univ_two, closestPointBox])]
    norm_num
  · refine (h4 2 (by show 2 < 3; norm_num) _ (foot_distance _ (exampleScene_valid.at 2))).1 ?_
    rw [hd 2 2 (by norm_num [exampleScene, Scene.at, foot, dist2, Fin.sum_univ_two])]
    norm_num

lemma example_stack : Nearest.StackFits exampleScene.input 64 := fun T hT =>
  Nearest.stack_suffices_small exampleScene.input (by norm_num) (by show 3 ≤ _; norm_num) T hT

/-- `nearest_query_float` and `nearest_query_accuracy` apply: the value nearest to (4, 4) is the last point. -/
example (fma : Bool) : ∃ sched, Nearest.nearestQuery (exampleScene.input.build sched) (exampleScene.nearest (Ieee.float fma) (.point ![4, 4]) 1) 6 = .done [2] := by
  obtain ⟨sched, hs⟩ := Construction.exists_complete exampleScene.input.params (exampleScene_valid.input.keys (by show 2 ≤ 3; norm_num))
  obtain ⟨calls, h1, -, h3, h4, -, h6⟩ := nearest_query_accuracy exampleScene exampleScene_valid (float_accurate fma) ![4, 4] 1 example_range
    example_stack sched (fun _ => hs) 6 (by show 6 ≤ 6; norm_num)
  have hd : ∀ i, ∀ x : ℝ, dist2 ![4, 4] (foot ![4, 4] (exampleScene.at i)) = x →
      Geometry.edist ![4, 4] (foot ![4, 4] (exampleScene.at i)) ^ 2 = x := fun i x hx => by rw [edist_sq, hx]
  have hd2 := hd 2 2 (by norm_num [exampleScene, Scene.at, foot, dist2, Fin.sum_univ_two])
  have h4' : calls.length = 1 := h4
  obtain ⟨i, rfl⟩ := List.length_eq_one_iff.mp h4'
  refine ⟨sched, ?_⟩
  rw [h1]
  have hi : i < 3 := h3 i List.mem_cons_self
  have key : i ≠ 2 → _ := fun hne => h6 i List.mem_cons_self 2 (by show 2 < 3; norm_num) (by simpa using fun h => hne h.symm) _ _
    (foot_distance _ (exampleScene_valid.at i)) (foot_distance _ (exampleScene_valid.at 2))
  rcases (by omega : i = 0 ∨ i = 1 ∨ i = 2) with rfl | rfl | rfl
  · have := key (by norm_num)
    rw [hd2, hd 0 32 (by norm_num [exampleScene, Scene.at, foot, dist2, Fin.sum_univ_two])] at this
    norm_num at this
  · have := key (by norm_num)
    rw [hd2, hd 1 5 (by norm_num [exampleScene, Scene.at, foot, dist2, Fin.sum_univ_two, closestPointBox])] at this
    norm_num at this
  · rfl

/-! ## Points -/

/-- Four points. -/
noncomputable def exampleCloud : Cloud 2 where
  pts := [![0, 0], ![1, 0], ![1, 1], ![10, 10]]
  M := 2 ^ (127 : ℤ)
  code := fun i => BitVec.ofNat 64 i
  perm := fun i => i

theorem exampleCloud_valid : exampleCloud.Valid where
  fits := by show 4 ≤ 2 ^ 63; norm_num
  sorted := by
    refine ⟨by show ((List.range 4).map (fun i => i)).Perm (List.range 4); rw [List.map_id'], fun i hi => ?_⟩
    have hi' : i + 1 < 4 := hi
    rcases (by omega : i = 0 ∨ i = 1 ∨ i = 2) with rfl | rfl | rfl
    · exact (by decide : (BitVec.ofNat 64 0).toNat ≤ (BitVec.ofNat 64 (0 + 1)).toNat)
    · exact (by decide : (BitVec.ofNat 64 1).toNat ≤ (BitVec.ofNat 64 (1 + 1)).toNat)
    · exact (by decide : (BitVec.ofNat 64 2).toNat ≤ (BitVec.ofNat 64 (2 + 1)).toNat)
  top := by
    intro i hi
    have hi' : i < 4 := hi
    rcases (by omega : i = 0 ∨ i = 1 ∨ i = 2 ∨ i = 3) with rfl | rfl | rfl | rfl <;> decide

lemma example_coord (i : ℕ) (hi : i < 4) (d : Fin 2) : ∃ z : ℤ, 0 ≤ z ∧ z ≤ 10 ∧ exampleCloud.pt i d = z := by
  rcases (by omega : i = 0 ∨ i = 1 ∨ i = 2 ∨ i = 3) with rfl | rfl | rfl | rfl
  · exact ⟨0, by norm_num, by norm_num, by fin_cases d <;> norm_num [exampleCloud, Cloud.pt]⟩
  · fin_cases d
    · exact ⟨1, by norm_num, by norm_num, by norm_num [exampleCloud, Cloud.pt]⟩
    · exact ⟨0, by norm_num, by norm_num, by norm_num [exampleCloud, Cloud.pt]⟩
  · exact ⟨1, by norm_num, by norm_num, by fin_cases d <;> norm_num [exampleCloud, Cloud.pt]⟩
  · exact ⟨10, by norm_num, by norm_num, by fin_cases d <;> norm_num [exampleCloud, Cloud.pt]⟩

lemma example_pairs (i : ℕ) (hi : i < exampleCloud.pts.length) (j : ℕ) (hj : j < exampleCloud.pts.length) :
    InRange (2 ^ (-24 : ℤ)) (2 ^ (-126 : ℤ)) (2 ^ (127 : ℤ)) (exampleCloud.pt i) (exampleCloud.pt j) := by
  refine inRange_int _ _ fun d => ?_
  obtain ⟨y, h1, h2, e⟩ := example_coord i hi d
  obtain ⟨z, h3, h4, e'⟩ := example_coord j hj d
  exact ⟨z - y, by rw [abs_le]; omega, by rw [e, e']; push_cast; ring⟩

lemma example_sq (i : ℕ) (hi : i < exampleCloud.pts.length) (j : ℕ) (hj : j < exampleCloud.pts.length) :
    ∃ z : ℕ, exampleCloud.edist i j ^ 2 = z := by
  obtain ⟨a, -, -, ea⟩ := example_coord i hi 0
  obtain ⟨b, -, -, eb⟩ := example_coord i hi 1
  obtain ⟨c, -, -, ec⟩ := example_coord j hj 0
  obtain ⟨e, -, -, ee⟩ := example_coord j hj 1
  refine ⟨((a - c) ^ 2 + (b - e) ^ 2).toNat, ?_⟩
  unfold Cloud.edist
  rw [edist_sq]
  unfold dist2
  rw [Fin.sum_univ_two, ea, eb, ec, ee]
  have h : (((((a - c) ^ 2 + (b - e) ^ 2).toNat : ℕ) : ℤ) : ℝ) = (((a - c) ^ 2 + (b - e) ^ 2 : ℤ) : ℝ) := by
    rw [Int.toNat_of_nonneg (by positivity)]
  push_cast at h
  rw [← h]

/-- The squared distances are integers and the radius is 3/2, so none is within rounding of it. -/
lemma example_clear : exampleCloud.Clear (2 ^ (-24 : ℤ)) (2 ^ (-126 : ℤ)) (2 ^ (127 : ℤ)) (3 / 2) := by
  intro i hi j hj
  refine ⟨example_pairs i hi j hj, ?_⟩
  obtain ⟨z, e⟩ := example_sq i hi j hj
  rw [e]
  rcases Nat.lt_or_ge z 3 with hz | hz
  · left
    have : (z : ℝ) ≤ 2 := by exact_mod_cast (by omega : z ≤ 2)
    calc (1 + 2 ^ (-24 : ℤ)) ^ (2 + 5) * (z : ℝ) ≤ (1 + 2 ^ (-24 : ℤ)) ^ (2 + 5) * 2 := mul_le_mul_of_nonneg_left this (by norm_num)
      _ ≤ _ := by norm_num
  · right
    have : (3 : ℝ) ≤ z := by exact_mod_cast hz
    calc ((3 / 2 : ℝ)) ^ 2 < (1 - 2 ^ (-24 : ℤ)) ^ (2 + 5) * 3 := by norm_num
      _ ≤ _ := mul_le_mul_of_nonneg_left this (by norm_num)

lemma example_finite (fma : Bool) (p : ℕ) (hp : p < exampleCloud.pts.length) (q : ℕ) (hq : q < exampleCloud.pts.length) :
    exampleCloud.dist (Ieee.float fma) p q < ⊤ := by
  obtain ⟨x, e, -⟩ := distance_accuracy (float_accurate fma) _ _ (example_pairs p hp q hq)
  unfold Cloud.dist
  rw [e]; exact EReal.coe_lt_top x

/-- `dbscan_float` and `dbscan_float_clear` apply, on two threads, and the clustering does finish. -/
example (fma : Bool) : ∃ schedB schedU schedF l,
    (exampleCloud.dbscan (Ieee.float fma) (3 / 2) 3 false [[2, 0], [1, 3]] false).fdbscan 8 schedB schedU schedF = .labels l ∧
    Dbscan.IsDBSCAN 4 (exampleCloud.within (Ieee.float fma) (3 / 2)) 3 (Dbscan.labelOf l) ∧
    Dbscan.IsDBSCAN 4 (exampleCloud.ewithin (3 / 2)) 3 (Dbscan.labelOf l) := by
  obtain ⟨schedB, hB⟩ := Construction.exists_complete exampleCloud.scene.input.params (exampleCloud_valid.scene.input.keys (by show 2 ≤ 4; norm_num))
  have hch : ([[2, 0], [1, 3]] : List (List ℕ)).flatten.Perm (List.range exampleCloud.pts.length) := by
    show ([[2, 0], [1, 3]] : List (List ℕ)).flatten.Perm (List.range 4)
    decide
  obtain ⟨steps, hsteps⟩ := dbscan_float_terminates exampleCloud exampleCloud_valid (Ieee.float fma) (3 / 2) (by norm_num) 3 (by norm_num) _ hch false
    (by simp) false schedB (fun _ => hB) 8 (by show 8 ≤ 8; norm_num)
  obtain ⟨schedU, hU⟩ := exists_counts 2 steps
  obtain ⟨schedF, hF⟩ := exists_counts 4 (fun _ => 9)
  rcases dbscan_float exampleCloud exampleCloud_valid (Ieee.float fma) (3 / 2) (by norm_num) 3 (by norm_num) _ hch false (by simp) false
    schedB (fun _ => hB) 8 (by show 8 ≤ 8; norm_num) schedU schedF with h | ⟨l, h, -, hD, -⟩
  · exact absurd h (hsteps schedU schedF hU hF)
  rcases dbscan_float_clear exampleCloud exampleCloud_valid (float_accurate fma) (3 / 2) (by norm_num) example_clear 3 (by norm_num) _ hch false (by simp)
    false schedB (fun _ => hB) 8 (by show 8 ≤ 8; norm_num) schedU schedF with h' | ⟨l', h', -, hD', -⟩
  · exact absurd h' (hsteps schedU schedF hU hF)
  · have e : l = l' := by
      rw [h] at h'
      simpa using h'
    exact ⟨_, _, _, l, h, hD rfl, e ▸ hD' rfl⟩

/-- `neighbor_list_float` applies, and the lists are computed. -/
example (F : Format) : ∃ schedB sched1 sched2 rows offsets out, Neighbor.findHalf 4 4
      (Neighbor.halfCalls (exampleCloud.indexed.build schedB) (fun a b => ballTest F 1 a.1 b.1) (ballNodeTest F 1) 8) sched1 sched2 = .done offsets out ∧
    Crs.IsCrs 4 rows offsets out ∧ Neighbor.IsHalf 4 (exampleCloud.within F 1) rows := by
  obtain ⟨schedB, hB⟩ := Construction.exists_complete exampleCloud.indexed.params
    (exampleCloud_valid.indexed.keys (by show 2 ≤ 4; norm_num))
  obtain ⟨sched, hs⟩ := exists_counts 4 (fun t => 2 * (Neighbor.halfCalls (exampleCloud.indexed.build schedB) (fun a b => ballTest F 1 a.1 b.1)
    (ballNodeTest F 1) 8 t).length)
  rcases (neighbor_list_float exampleCloud exampleCloud_valid F 1 schedB (fun _ => hB) 8 (by show 8 ≤ 8; norm_num) sched sched []).1 with
    h | ⟨rows, o, out, h, h2, h3⟩
  · exact absurd h (Neighbor.half_terminates hs hs)
  · exact ⟨_, _, _, rows, o, out, h, h2, h3⟩

lemma cloud_stack : Nearest.StackFits exampleCloud.scene.input 64 := fun T hT =>
  Nearest.stack_suffices_small exampleCloud.scene.input (by norm_num) (by show 4 ≤ _; norm_num) T hT

/-- `mst_float_partial` applies, and so does `mst_float_accuracy` to its result. -/
example (fma : Bool) : ∃ schedB ordP sc fuel iters E,
    Boruvka.mstK (exampleCloud.geo (Ieee.float fma) true) 1 exampleCloud.scene.input schedB ordP sc fuel iters = .ok E ∧
    ∀ T : List (ℕ × ℕ), (∀ e ∈ T, e.1 < 4 ∧ e.2 < 4) → Graph.Connects 4 T →
      Real.sqrt ((1 - 2 ^ (-24 : ℤ)) ^ 7) * (E.map (fun e => exampleCloud.edist e.source e.target)).sum ≤
        Real.sqrt ((1 + 2 ^ (-24 : ℤ)) ^ 7) * (T.map (fun e => exampleCloud.edist e.1 e.2)).sum := by
  obtain ⟨schedB, hB⟩ := Construction.exists_complete exampleCloud.scene.input.params (exampleCloud_valid.scene.input.keys (by show 2 ≤ 4; norm_num))
  obtain ⟨sc, h1, h2⟩ := Boruvka.exists_sched 4
  obtain ⟨weight, hw, -, h, h'⟩ := mst_float_partial exampleCloud exampleCloud_valid (Ieee.float fma) (by show 2 ≤ 4; norm_num)
    (by show 4 ≤ 2 ^ 31; norm_num) (example_finite fma) true 1 cloud_stack schedB (fun _ => hB)
    (List.range (2 * 4 - 2)) (List.Perm.refl _) (fun _ => sc) (fun _ => h1) 8 (by show 8 ≤ 8; norm_num) 3
  rcases h with h | ⟨E, h, hE⟩
  · exact absurd h (h' (fun _ => h2) (by show 4 ≤ 2 ^ 3; norm_num))
  · rw [hw le_rfl] at hE
    exact ⟨_, _, _, _, _, E, h, fun T hT hc => mst_float_accuracy exampleCloud (float_accurate fma) example_pairs E hE T hT hc⟩

/-- `hdbscan_float_partial` applies. -/
example (fma boruvka : Bool) (k : ℕ) : ∃ schedB ordP sc ro fuel iters parents heights, ∃ weight : ℕ → ℕ → EReal,
    Hdbscan.hdbscan boruvka (exampleCloud.geo (Ieee.float fma) true) Ieee.bits k exampleCloud.scene.input schedB ordP sc ro fuel iters
      = .ok (parents, heights) ∧ Hdbscan.IsDendrogram 4 weight parents heights := by
  obtain ⟨schedB, hB⟩ := Construction.exists_complete exampleCloud.scene.input.params (exampleCloud_valid.scene.input.keys (by show 2 ≤ 4; norm_num))
  obtain ⟨sc, h1, h2⟩ := Boruvka.exists_sched 4
  obtain ⟨ro, hro⟩ := Hdbscan.exists_reorder (W := EReal) 3
  obtain ⟨weight, -, -, h, h'⟩ := hdbscan_float_partial boruvka exampleCloud exampleCloud_valid (by show 2 ≤ 4; norm_num)
    (by show 4 ≤ 2 ^ 30; norm_num) fma (example_finite fma) true k cloud_stack schedB
    (fun _ => hB) (List.range (2 * 4 - 2)) (List.Perm.refl _) (fun _ => ⟨sc, List.range 4, List.range 4⟩)
    (fun _ => ⟨h1, List.Perm.refl _, List.Perm.refl _⟩) ro hro 8 (by show 8 ≤ 8; norm_num) 3
  rcases h with h | ⟨p, t, h, hE⟩
  · exact absurd h (h' (fun _ => h2) (by show 4 ≤ 2 ^ 3; norm_num))
  · exact ⟨_, _, _, _, _, _, p, t, weight, h, hE⟩

/-- The bit pattern of 1 is `0x3f800000`. -/
example : Ieee.bits (1 : ℝ) = 0x3f800000 := by
  have hl : Int.log 2 (1 : ℝ) = 0 := Int.log_one_right 2
  have hu : Ieee.ulpExp 24 (-149) (1 : ℝ) = -23 := by
    unfold Ieee.ulpExp
    rw [hl]; norm_num
  have hf : ⌊(1 : ℝ) / 2 ^ (-23 : ℤ)⌋ = 8388608 := by
    rw [Int.floor_eq_iff]; norm_num
  unfold Ieee.bits
  rw [if_neg (by simp), if_neg (EReal.coe_ne_top _), EReal.toReal_coe, hu, hf]
  norm_num
  rfl

end ArborX.Fp
