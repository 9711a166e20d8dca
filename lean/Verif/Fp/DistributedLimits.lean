import Verif.Fp.Distributed
import Verif.Fp.Limits

/-!
# Distributed nearest queries with boxes in floating-point arithmetic (C70): a value is lost
-/

namespace ArborX.Fp

open Geometry BVH Euclid

/-- The point `(2 ^ -24, 0)`. -/
noncomputable def lonePoint : Pt ℝ 2 := ![2 ^ (-24 : ℤ), 0]

/-- The only value of the only process. -/
noncomputable def loneScene : Scene 2 where
  geo := [.point lonePoint]
  M := 2 ^ (127 : ℤ)
  code := fun _ => 0
  perm := fun i => i

/-- A distributed tree with one value on one process. -/
noncomputable def loneTree : DScene 2 where
  P := 1
  scene := fun _ => loneScene
  bsched := fun _ => []
  topCode := fun _ _ => 0
  topPerm := fun _ i => i
  tsched := fun _ => []

/-- The box from `(-2, -1)` to `(-1, 1)`. -/
noncomputable def loneQuery : Box ℝ 2 := ⟨![-2, -1], ![-1, 1]⟩

lemma loneScene_valid : loneScene.Valid where
  fits := by show 1 ≤ 2 ^ 63; norm_num
  sorted := ⟨by show ((List.range 1).map (fun i => i)).Perm (List.range 1); rw [List.map_id'], fun i hi => absurd hi (by show ¬ i + 1 < 1; omega)⟩
  top := fun i _ => by show (0 : BitVec 64).toNat < 2 ^ 63; decide
  simple := by
    intro g hg
    simp only [loneScene, List.mem_cons, List.not_mem_nil, or_false] at hg
    rw [hg]; exact trivial

lemma loneTree_valid : loneTree.Valid where
  fits := by show 1 ≤ 2 ^ 63; norm_num
  scene := fun t _ => ⟨loneScene_valid, fun h => absurd h (by show ¬ 2 ≤ 1; omega)⟩
  top := fun r _ => ⟨⟨by show ((List.range 1).map (fun i => i)).Perm (List.range 1); rw [List.map_id'],
    fun i hi => absurd hi (by show ¬ i + 1 < 1; omega)⟩, fun h => absurd h (by show ¬ 2 ≤ 1; omega)⟩
  codes := fun r _ i _ => by show (0 : BitVec 64).toNat < 2 ^ 63; decide

lemma loneQuery_valid : loneQuery.Valid := by
  intro d
  fin_cases d <;> simp [loneQuery] <;> norm_num

lemma lone_closest : closestPointBox lonePoint loneQuery = ![-1, 0] := by
  funext d
  fin_cases d
  · show (if (2 : ℝ) ^ (-24 : ℤ) < -2 then (-2 : ℝ) else if (2 : ℝ) ^ (-24 : ℤ) > -1 then (-1 : ℝ) else _) = -1
    rw [if_neg (by norm_num), if_pos (by norm_num)]
  · show (if (0 : ℝ) < -1 then (-1 : ℝ) else if (0 : ℝ) > 1 then (1 : ℝ) else 0) = 0
    rw [if_neg (by norm_num), if_neg (by norm_num)]

/-- The computed distance is one: the difference of the coordinates is rounded. -/
lemma lone_distance (fma : Bool) : (Ieee.float fma).distance (.box loneQuery) (.point lonePoint) = some ((1 : ℝ) : EReal) := by
  have h1 : (Ieee.float fma).rnd 1 = ((1 : ℝ) : EReal) := by
    have := float_pow fma (a := 0) (by norm_num) (by norm_num)
    rwa [zpow_zero] at this
  show some ((Ieee.float fma).distPoint lonePoint (closestPointBox lonePoint loneQuery)) = _
  rw [lone_closest]
  congr 1
  have hs : (Ieee.float fma).step 0 (some (-1 - (2 : ℝ) ^ (-24 : ℤ))) = ((1 : ℝ) : EReal) := by
    rw [Format.step_abs, show |(-1 : ℝ) - 2 ^ (-24 : ℤ)| = 1 + 2 ^ (-24 : ℤ) by rw [abs_of_neg (by norm_num)]; ring]
    unfold Format.step Format.madd
    simp only [float_above_one fma, EReal.coe_ne_top, EReal.coe_ne_bot, EReal.zero_ne_top, or_self, if_false, EReal.toReal_coe, EReal.toReal_zero,
      add_zero, zero_add, mul_one, h1]
    simp
  unfold Format.distPoint Format.norm
  have e : (List.finRange 2) = [0, 1] := by decide
  rw [e]
  simp only [lonePoint, List.foldl_cons, List.foldl_nil, Matrix.cons_val_zero, Matrix.cons_val_one, sub_zero]
  rw [hs, Format.step_zero _ ⟨EReal.coe_nonneg.mpr zero_le_one, fun x hx => by rw [← EReal.coe_eq_coe_iff.mp hx]; exact h1⟩]
  unfold Format.sqrt
  rw [if_neg (EReal.coe_ne_top _), EReal.toReal_coe, Real.sqrt_one, h1]

/-- The volume of the process starts at the point. -/
lemma lone_vol : ∃ C : VBox 2, loneTree.tree.vol 0 = (C : Bound 2) ∧ C.1.lo 0 = 2 ^ (-24 : ℤ) := by
  have e : loneTree.tree.vol 0 = leafBound (2 ^ (127 : ℤ)) (.point lonePoint) := by
    show (Distributed.bounds (loneTree.bottom 0) []).getD ⊥ = _
    unfold Distributed.bounds
    have h1 : (loneTree.bottom 0).n = 1 := rfl
    rw [if_neg (by rw [h1]; omega), if_pos h1]
    simp only [Input.build, h1]
    simp only [if_true, Option.map_some, Option.getD_some, bot_sup_eq]
    rfl
  rw [e]
  unfold leafBound
  rw [dif_pos]
  · refine ⟨_, rfl, ?_⟩
    show min ((2 : ℝ) ^ (127 : ℤ)) (2 ^ (-24 : ℤ)) = _
    exact min_eq_right (zpow_le_zpow_right₀ (by norm_num) (by norm_num))
  · intro d
    exact (min_le_right _ _).trans (le_max_right _ _)

/-- The box expanded by the distance does not reach the point. -/
lemma lone_within (fma : Bool) {M : ℝ} {up : EReal → ℝ} (hn : (Ieee.float fma).IsNext M up) :
    (Ieee.float fma).within up (.box loneQuery) ((1 : ℝ) : EReal) (loneTree.tree.vol 0) = false := by
  obtain ⟨C, e, hC⟩ := lone_vol
  rw [e]
  show intersectsBoxBox ((Ieee.float fma).expandBox up loneQuery ((1 : ℝ) : EReal)) C.1 = false
  have hup : up ((Ieee.float fma).add (-1) ((1 : ℝ) : EReal)) ≤ 2 ^ (-25 : ℤ) := by
    unfold Format.add
    rw [if_neg (EReal.coe_ne_top _), EReal.toReal_coe, neg_add_cancel, Format.rnd_zero]
    have hnum : (Ieee.float fma).Num (2 ^ (-25 : ℤ)) := float_pow fma (by norm_num) (by norm_num)
    exact (hn.next 0 (Ieee.num_zero _) (lt_of_lt_of_le (Ieee.ulp_pos (-25)) (hn.largest _ hnum))).2.2 _ hnum (Ieee.ulp_pos _)
  have hlt : up ((Ieee.float fma).add (-1) ((1 : ℝ) : EReal)) < C.1.lo 0 := by
    rw [hC]
    exact lt_of_le_of_lt hup (zpow_lt_zpow_right₀ (by norm_num) (by norm_num))
  rw [Bool.eq_false_iff]
  intro h
  simp only [intersectsBoxBox, List.all_eq_true, Bool.not_eq_true', Bool.or_eq_false_iff, decide_eq_false_iff_not, not_lt, gt_iff_lt] at h
  have := (h 0 (List.mem_finRange 0)).2
  exact absurd hlt (not_lt.mpr this)

lemma lone_stack (r : ℕ) : Nearest.StackFits (loneTree.tree.top r) 64 :=
  Nearest.stack_suffices_small _ (by norm_num) (by show 1 ≤ _; norm_num)

/-- **C70 (the restriction to points and balls as queries is needed).** A query for the nearest neighbour of a box on a distributed tree of type `float`
with one value on one process returns nothing, in every execution: the distance of the value is rounded down in the first phase, and the box expanded
by it, rounded up to the next number, does not reach the value in the second phase. A tree that is not distributed finds it. -/
theorem box_query_lost (fma : Bool) (M : ℝ) (up : EReal → ℝ) (hn : (Ieee.float fma).IsNext M up) (withCallback asserts : Bool)
    (E : Distributed.NEnv EReal) (hE : E.Valid 1) (fuel : ℕ) (hf : 2 ≤ fuel) {T : Type}
    (cb : Distributed.NPred (ℕ × ℕ) (Bound 2) EReal → ℕ × ℕ → T) :
    (∃ res, loneTree.tree.nearest withCallback asserts E fuel cb (fun _ => [loneTree.npred (Ieee.float fma) up (.box loneQuery) 1]) = some res ∧
      (res 0).1 = [0, 0] ∧ (res 0).2 = []) ∧
    Nearest.nearestQuery (loneScene.input.build []) (loneScene.nearest (Ieee.float fma) (.box loneQuery) 1) fuel = .done [0] := by
  set q := loneTree.npred (Ieee.float fma) up (.box loneQuery) 1 with hq
  have hdist : ∀ a, loneTree.Has a → (Ieee.float fma).distance (.box loneQuery) (loneTree.at a) = some ((1 : ℝ) : EReal) := by
    rintro ⟨a, b⟩ ⟨ha, hb⟩
    obtain rfl : a = 0 := by change a < 1 at ha; omega
    obtain rfl : b = 0 := by change b < 1 at hb; omega
    exact lone_distance fma
  have hall : ∀ a ∈ loneTree.tree.all, q.q.dl a = ((1 : ℝ) : EReal) := by
    intro a ha
    show asDistance ((Ieee.float fma).distance (.box loneQuery) (loneTree.at a)) = _
    rw [hdist a (DScene.mem_all.mp ha)]; rfl
  refine ⟨?_, ?_⟩
  · obtain ⟨res, h1, h2⟩ := Distributed.nearest_reached loneTree.tree loneTree_valid.tree withCallback asserts
      (by show ((List.range 1).map (fun _ => 1)).sum ≠ 0; decide) E hE fuel hf (fun r _ => hf) cb (fun _ => [q]) (by
        intro s _ q' hq'
        rw [List.mem_singleton.mp hq']
        exact npred_fits loneTree_valid _ up (Q := .box loneQuery) loneQuery_valid 1
          (fun t _ => Nearest.stack_suffices_small _ (by norm_num) (by show 1 ≤ _; norm_num)) (fun r _ => lone_stack r))
    refine ⟨res, h1, ?_⟩
    obtain ⟨calls, R, ⟨rows, h3, h4⟩, h5⟩ := h2 0 (by show 0 < 1; omega)
    obtain ⟨-, h6, h7⟩ := h5 0 (by simp)
    have hr4 := h4 0 (by simp)
    simp only [List.getElem_cons_zero] at h6 h7 hr4
    obtain ⟨a, ha, hR⟩ := h6 (fun a ha => by rw [hall a ha]; exact EReal.coe_lt_top 1) (by show 1 ≠ 0; omega)
      (by show ((List.range 1).map (fun _ => 1)).sum ≠ 0; decide)
    rw [hall a ha] at hR
    have hreach : Distributed.reached loneTree.tree q (R 0) = [] := by
      unfold Distributed.reached
      rw [List.flatMap_eq_nil_iff]
      intro t ht
      obtain rfl : t = 0 := by have := List.mem_range.mp ht; change t < 1 at this; omega
      rw [if_neg]
      rw [← hR]
      show ¬ (Ieee.float fma).within up (.box loneQuery) ((1 : ℝ) : EReal) (loneTree.tree.vol 0) = true
      rw [lone_within fma hn]
      simp
    rw [hreach] at h7
    obtain ⟨om, p1, -⟩ := h7
    have hc : calls 0 = [] := (List.append_eq_nil_iff.mp p1.eq_nil).1
    rw [hc, List.map_nil] at hr4
    obtain ⟨ho, hv⟩ := Distributed.crs_values h3
    rw [ho, hv]
    simp [hr4, Distributed.offsetsFrom]
  · obtain ⟨calls, h1, h2, h3, h4, -⟩ := nearest_query_float loneScene loneScene_valid (Ieee.float fma) (.box loneQuery) loneQuery_valid 1
      (by
        intro i hi r hr
        obtain rfl : i = 0 := by change i < 1 at hi; omega
        have := lone_distance fma
        change (Ieee.float fma).distance (.box loneQuery) (.point lonePoint) = some r at hr
        rw [this, Option.some_inj] at hr
        rw [← hr]; exact EReal.coe_lt_top 1)
      (Nearest.stack_suffices_small _ (by norm_num) (by show 1 ≤ _; norm_num)) [] (fun h => absurd h (by show ¬ 2 ≤ 1; omega)) fuel hf
    rw [h1]
    congr 1
    have hl : calls.length = 1 := h4
    obtain ⟨i, rfl⟩ := List.length_eq_one_iff.mp hl
    have : i < 1 := h3 i (by simp)
    congr 1
    omega

/-- `nextafter` exists, so the theorem speaks of something. -/
example (fma : Bool) : ∃ M up, (Ieee.float fma).IsNext M up := Ieee.exists_next (by norm_num) fma

end ArborX.Fp
