import Verif.Fp.DistDbscan
import Mathlib.Tactic.FinCases

/-!
# The forwarding radius of the distributed DBSCAN in floating-point arithmetic (C73)
-/

namespace ArborX.Fp

open Geometry BVH Euclid Dbscan DistDbscan

variable {D : ℕ}

/-! ## Executions exist -/

/-- Whatever the points, there is a run of FDBSCAN on them. -/
lemma exists_call (F : Format) (eps : ℝ) (heps : 0 < eps) (minPts : ℕ) (hmin : 2 ≤ minPts) (star : Bool) (pts : List (Pt ℝ D)) (hn : pts.length ≤ 2 ^ 63) :
    ∃ c : Call, c.Valid F eps minPts star pts := by
  set A : Cloud D := ⟨pts, 0, fun _ => 0, fun i => i⟩ with hA
  have hv : A.Valid :=
    { fits := hn
      sorted := ⟨by show ((List.range _).map fun i => i).Perm _; rw [List.map_id'], by intro i _; show (0 : BitVec 64) ≤ 0; simp⟩
      top := by intro i _; show (0 : BitVec 64).toNat < 2 ^ 63; simp }
  obtain ⟨schedB, hB⟩ := Distributed.exists_finished _ hv.scene.input
  have hch : ([List.range pts.length] : List (List ℕ)).flatten.Perm (List.range A.pts.length) := by simp [hA]
  obtain ⟨steps, hs⟩ := dbscan_float_terminates A hv F eps heps minPts hmin _ hch true (by simp) star schedB hB (2 * pts.length) le_rfl
  obtain ⟨schedU, hU⟩ := exists_counts 1 steps
  obtain ⟨schedF, hF⟩ := exists_counts pts.length (fun _ => pts.length + 5)
  exact ⟨⟨0, fun _ => 0, fun i => i, [List.range pts.length], true, schedB, schedU, schedF, 2 * pts.length⟩, hv, hch, by simp, hB, le_rfl,
    hs schedU schedF hU hF⟩

/-- Whatever the points and processes, there is an execution of the distributed DBSCAN. -/
lemma exists_run (F : Format) (P : ℕ) (hP : P ≤ 2 ^ 63) (points : ℕ → List (Pt ℝ D)) (hn : ((List.range P).flatMap points).length ≤ 2 ^ 63)
    (eps radius : ℝ) (heps : 0 < eps) (minPts : ℕ) (hmin : 2 ≤ minPts) (star : Bool) :
    ∃ E : XEnv (Pt ℝ D) 64, E.Valid (placed F P points eps radius minPts) ∧ Calls F eps minPts star (placed F P points eps radius minPts) E ∧
      ∀ r n, InOrder (E.csched r n) := by
  have h : ∀ pts : List (Pt ℝ D), ∃ l : Option (List ℤ), pts.length ≤ 2 ^ 63 →
      ∃ c : Call, c.Valid F eps minPts star pts ∧ l = c.dbscan F eps minPts star pts := by
    intro pts
    by_cases hl : pts.length ≤ 2 ^ 63
    · obtain ⟨c, hc⟩ := exists_call F eps heps minPts hmin star pts hl
      exact ⟨_, fun _ => ⟨c, hc, rfl⟩⟩
    · exact ⟨none, fun h => absurd h hl⟩
  choose f hf using h
  obtain ⟨E, h1, h2, h3⟩ := exists_env (placed F P points eps radius minPts) hP (fun _ pts => f pts)
  refine ⟨E, h1, fun r _ pts hl => ?_, h3⟩
  obtain ⟨c, hc, e⟩ := hf pts (hl.trans hn)
  exact ⟨c, hc, by rw [h2]; exact e⟩

/-! ## Results of `float` operations -/

lemma roundEven_eq {x : ℝ} {z : ℤ} (h1 : (2 * z - 1 : ℝ) ≤ 2 * x) (h2 : 2 * x ≤ (2 * z + 1 : ℝ))
    (h : (2 * z - 1 : ℝ) < 2 * x ∧ 2 * x < (2 * z + 1 : ℝ) ∨ z % 2 = 0) : Ieee.roundEven x = z := by
  have hc : (⌊x⌋ = z ∧ x - z ≤ 1 / 2) ∨ (⌊x⌋ = z - 1 ∧ 1 / 2 ≤ x - (z - 1)) := by
    rcases le_or_gt (z : ℝ) x with h0 | h0
    · left
      exact ⟨Int.floor_eq_iff.mpr ⟨h0, by linarith⟩, by linarith⟩
    · right
      exact ⟨Int.floor_eq_iff.mpr ⟨by push_cast; linarith, by push_cast; linarith⟩, by linarith⟩
  unfold Ieee.roundEven
  rcases hc with ⟨e, hx⟩ | ⟨e, hx⟩
  · rw [e]
    split_ifs with k1 k2 k3
    · rfl
    · linarith
    · rfl
    · rcases h with h | h
      · linarith [h.2]
      · omega
  · rw [e]
    push_cast
    split_ifs with k1 k2 k3
    · linarith
    · omega
    · rcases h with h | h
      · linarith [h.1]
      · omega
    · omega

lemma float_round {fma : Bool} {x y : ℝ} (e z : ℤ) (hlo : (2 : ℝ) ^ (23 : ℤ) * 2 ^ e ≤ x) (hhi : x < (2 : ℝ) ^ (24 : ℤ) * 2 ^ e)
    (h1 : (2 * z - 1 : ℝ) * 2 ^ e ≤ 2 * x) (h2 : 2 * x ≤ (2 * z + 1 : ℝ) * 2 ^ e)
    (h : (2 * z - 1 : ℝ) * 2 ^ e < 2 * x ∧ 2 * x < (2 * z + 1 : ℝ) * 2 ^ e ∨ z % 2 = 0) (he : -149 ≤ e) (he' : e ≤ 103)
    (hy : (z : ℝ) * 2 ^ e = y) : (Ieee.float fma).rnd x = (y : EReal) := by
  have hp := Ieee.ulp_pos e
  have hx : 0 < x := lt_of_lt_of_le (by positivity) hlo
  have hlog : Int.log 2 x = e + 23 := by
    rw [← zpow_add₀ (by norm_num)] at hlo hhi
    have k1 := (zpow_lt_zpow_iff_right₀ (by norm_num : (1 : ℝ) < 2)).mp (lt_of_le_of_lt (Ieee.log_le hx) hhi)
    have k2 := (zpow_lt_zpow_iff_right₀ (by norm_num : (1 : ℝ) < 2)).mp (lt_of_le_of_lt hlo Ieee.lt_log)
    omega
  have hu : Ieee.ulpExp 24 (-149) x = e := by
    unfold Ieee.ulpExp
    rw [hlog]
    push_cast
    omega
  have hround : Ieee.roundEven (x / 2 ^ e) = z := by
    apply roundEven_eq
    · rw [← mul_div_assoc, le_div_iff₀ hp]; exact h1
    · rw [← mul_div_assoc, div_le_iff₀ hp]; exact h2
    · rcases h with ⟨k1, k2⟩ | h
      · left
        rw [← mul_div_assoc, lt_div_iff₀ hp, div_lt_iff₀ hp]
        exact ⟨k1, k2⟩
      · exact .inr h
  have hnear : Ieee.near 24 (-149) x = y := by
    unfold Ieee.near
    rw [hu, hround, hy]
  show Ieee.rnd 24 (-149) 128 x = y
  unfold Ieee.rnd Ieee.pos
  rw [if_pos hx.le, hnear, if_pos]
  rw [← hy]
  have h3 : (z : ℝ) * 2 ^ e ≤ x + 2 ^ e := by linarith
  have h4 : (2 : ℝ) ^ (24 : ℤ) * 2 ^ e + 2 ^ e ≤ 2 ^ (25 : ℤ) * 2 ^ e := by
    have : (2 : ℝ) ^ (24 : ℤ) + 1 ≤ 2 ^ (25 : ℤ) := by norm_num
    nlinarith
  have h5 : (2 : ℝ) ^ (25 : ℤ) * 2 ^ e ≤ 2 ^ (128 : ℤ) := by
    rw [← zpow_add₀ (by norm_num)]
    exact zpow_le_zpow_right₀ (by norm_num) (by omega)
  linarith

/-- An operation whose result is nearest to `z 2 ^ e`. -/
lemma float_eq {fma : Bool} {y : ℝ} (x : ℝ) (e z : ℤ) (hlo : (2 : ℝ) ^ (23 : ℤ) * 2 ^ e ≤ x) (hhi : x < (2 : ℝ) ^ (24 : ℤ) * 2 ^ e)
    (h1 : (2 * z - 1 : ℝ) * 2 ^ e < 2 * x) (h2 : 2 * x < (2 * z + 1 : ℝ) * 2 ^ e) (he : -149 ≤ e) (he' : e ≤ 103)
    (hy : (z : ℝ) * 2 ^ e = y) : (Ieee.float fma).rnd x = (y : EReal) := float_round e z hlo hhi h1.le h2.le (.inl ⟨h1, h2⟩) he he' hy

/-- A tie. -/
lemma float_tie {fma : Bool} {y : ℝ} (x : ℝ) (e z : ℤ) (hlo : (2 : ℝ) ^ (23 : ℤ) * 2 ^ e ≤ x) (hhi : x < (2 : ℝ) ^ (24 : ℤ) * 2 ^ e)
    (h1 : (2 * z - 1 : ℝ) * 2 ^ e ≤ 2 * x) (h2 : 2 * x ≤ (2 * z + 1 : ℝ) * 2 ^ e) (h : z % 2 = 0) (he : -149 ≤ e) (he' : e ≤ 103)
    (hy : (z : ℝ) * 2 ^ e = y) : (Ieee.float fma).rnd x = (y : EReal) := float_round e z hlo hhi h1 h2 (.inr h) he he' hy

/-- The square root. -/
lemma float_sqrt {fma : Bool} {y : ℝ} (s : ℝ) (e z : ℤ) (hlo : ((2 : ℝ) ^ (23 : ℤ) * 2 ^ e) ^ 2 ≤ s) (hhi : s < ((2 : ℝ) ^ (24 : ℤ) * 2 ^ e) ^ 2)
    (h0 : 1 ≤ z) (h1 : ((2 * z - 1 : ℝ) * 2 ^ e) ^ 2 < 4 * s) (h2 : 4 * s < ((2 * z + 1 : ℝ) * 2 ^ e) ^ 2) (he : -149 ≤ e) (he' : e ≤ 103)
    (hy : (z : ℝ) * 2 ^ e = y) : (Ieee.float fma).rnd (Real.sqrt s) = (y : EReal) := by
  have hp := Ieee.ulp_pos e
  have hs : 0 ≤ s := le_trans (by positivity) hlo
  have hz : (1 : ℝ) ≤ z := by exact_mod_cast h0
  have h4 : 2 * Real.sqrt s = Real.sqrt (4 * s) := by
    rw [Real.sqrt_mul (by norm_num), show (4 : ℝ) = 2 ^ 2 by norm_num, Real.sqrt_sq (by norm_num)]
  refine float_eq _ e z ?_ ?_ ?_ ?_ he he' hy
  · exact Real.le_sqrt_of_sq_le hlo
  · exact (Real.sqrt_lt' (by positivity)).mpr hhi
  · rw [h4]
    exact Real.lt_sqrt_of_sq_lt h1
  · rw [h4]
    refine (Real.sqrt_lt' ?_).mpr h2
    have : (0 : ℝ) < 2 * z + 1 := by linarith
    positivity

lemma distPoint_three (F : Format) (hf : F.fma = false) {a b : Pt ℝ 3} {t0 t1 t2 u0 u1 u2 v0 v1 v2 y : ℝ} (e0 : b 0 - a 0 = t0) (e1 : b 1 - a 1 = t1)
    (e2 : b 2 - a 2 = t2) (h1 : F.rnd t0 = t0) (h2 : F.rnd (t0 * t0) = u0) (h3 : F.rnd (0 + u0) = v0) (h4 : F.rnd t1 = t1) (h5 : F.rnd (t1 * t1) = u1)
    (h6 : F.rnd (v0 + u1) = v1) (h7 : F.rnd t2 = t2) (h8 : F.rnd (t2 * t2) = u2) (h9 : F.rnd (v1 + u2) = v2) (h10 : F.rnd (Real.sqrt v2) = y) :
    F.distPoint a b = (y : EReal) := by
  unfold Format.distPoint Format.norm
  rw [show List.finRange 3 = [0, 1, 2] from rfl]
  simp only [List.foldl_cons, List.foldl_nil, e0, e1, e2]
  rw [← EReal.coe_zero, F.step_eq hf h1 h2 h3, F.step_eq hf h4 h5 h6, F.step_eq hf h7 h8 h9]
  unfold Format.sqrt
  rw [if_neg (by simp), EReal.toReal_coe, h10]

/-! ## Three points -/

def ptP : Pt ℝ 3 := ![0, 0, 0]
def ptQ : Pt ℝ 3 := ![793223, 19477, 543576]
def ptX : Pt ℝ 3 := ![1586502, 39073, 1087066]

lemma dist_pq : (Ieee.float false).distPoint ptP ptQ = (((3847195 / 4) : ℝ) : EReal) := by
  refine distPoint_three _ rfl (t0 := 793223) (u0 := 629202747392) (v0 := 629202747392) (t1 := 19477) (u1 := 379353536) (v1 := 629582069760) (t2 := 543576) (u2 := 295474855936) (v2 := 925056892928) ?_ ?_ ?_ ?_ ?_ ?_ ?_ ?_ ?_ ?_ ?_ ?_ ?_
  · simp [ptP, ptQ]
  · simp [ptP, ptQ]
  · simp [ptP, ptQ]
  · exact float_eq _ (-4) 12691568 (by norm_num) (by norm_num) (by norm_num) (by norm_num) (by norm_num) (by norm_num) (by norm_num)
  · exact float_eq _ 16 9600872 (by norm_num) (by norm_num) (by norm_num) (by norm_num) (by norm_num) (by norm_num) (by norm_num)
  · exact float_eq _ 16 9600872 (by norm_num) (by norm_num) (by norm_num) (by norm_num) (by norm_num) (by norm_num) (by norm_num)
  · exact float_eq _ (-9) 9972224 (by norm_num) (by norm_num) (by norm_num) (by norm_num) (by norm_num) (by norm_num) (by norm_num)
  · exact float_eq _ 5 11854798 (by norm_num) (by norm_num) (by norm_num) (by norm_num) (by norm_num) (by norm_num) (by norm_num)
  · exact float_eq _ 16 9606660 (by norm_num) (by norm_num) (by norm_num) (by norm_num) (by norm_num) (by norm_num) (by norm_num)
  · exact float_eq _ (-4) 8697216 (by norm_num) (by norm_num) (by norm_num) (by norm_num) (by norm_num) (by norm_num) (by norm_num)
  · exact float_eq _ 15 9017177 (by norm_num) (by norm_num) (by norm_num) (by norm_num) (by norm_num) (by norm_num) (by norm_num)
  · exact float_tie _ 16 14115248 (by norm_num) (by norm_num) (by norm_num) (by norm_num) (by norm_num) (by norm_num) (by norm_num) (by norm_num)
  · exact float_sqrt _ (-4) 15388780 (by norm_num) (by norm_num) (by norm_num) (by norm_num) (by norm_num) (by norm_num) (by norm_num) (by norm_num)

lemma dist_qx : (Ieee.float false).distPoint ptQ ptX = (((3847195 / 4) : ℝ) : EReal) := by
  refine distPoint_three _ rfl (t0 := 793279) (u0 := 629291548672) (v0 := 629291548672) (t1 := 19596) (u1 := 384003200) (v1 := 629675524096) (t2 := 543490) (u2 := 295381368832) (v2 := 925056892928) ?_ ?_ ?_ ?_ ?_ ?_ ?_ ?_ ?_ ?_ ?_ ?_ ?_
  · simp [ptQ, ptX]; norm_num
  · simp [ptQ, ptX]; norm_num
  · simp [ptQ, ptX]; norm_num
  · exact float_eq _ (-4) 12692464 (by norm_num) (by norm_num) (by norm_num) (by norm_num) (by norm_num) (by norm_num) (by norm_num)
  · exact float_eq _ 16 9602227 (by norm_num) (by norm_num) (by norm_num) (by norm_num) (by norm_num) (by norm_num) (by norm_num)
  · exact float_eq _ 16 9602227 (by norm_num) (by norm_num) (by norm_num) (by norm_num) (by norm_num) (by norm_num) (by norm_num)
  · exact float_eq _ (-9) 10033152 (by norm_num) (by norm_num) (by norm_num) (by norm_num) (by norm_num) (by norm_num) (by norm_num)
  · exact float_tie _ 5 12000100 (by norm_num) (by norm_num) (by norm_num) (by norm_num) (by norm_num) (by norm_num) (by norm_num) (by norm_num)
  · exact float_eq _ 16 9608086 (by norm_num) (by norm_num) (by norm_num) (by norm_num) (by norm_num) (by norm_num) (by norm_num)
  · exact float_eq _ (-4) 8695840 (by norm_num) (by norm_num) (by norm_num) (by norm_num) (by norm_num) (by norm_num) (by norm_num)
  · exact float_eq _ 15 9014324 (by norm_num) (by norm_num) (by norm_num) (by norm_num) (by norm_num) (by norm_num) (by norm_num)
  · exact float_eq _ 16 14115248 (by norm_num) (by norm_num) (by norm_num) (by norm_num) (by norm_num) (by norm_num) (by norm_num)
  · exact float_sqrt _ (-4) 15388780 (by norm_num) (by norm_num) (by norm_num) (by norm_num) (by norm_num) (by norm_num) (by norm_num) (by norm_num)

lemma dist_px : (Ieee.float false).distPoint ptP ptX = (((7694391 / 4) : ℝ) : EReal) := by
  refine distPoint_three _ rfl (t0 := 1586502) (u0 := 2516988723200) (v0 := 2516988723200) (t1 := 39073) (u1 := 1526699392) (v1 := 2518515449856) (t2 := 1087066) (u2 := 1181712515072) (v2 := 3700228096000) ?_ ?_ ?_ ?_ ?_ ?_ ?_ ?_ ?_ ?_ ?_ ?_ ?_
  · simp [ptP, ptX]
  · simp [ptP, ptX]
  · simp [ptP, ptX]
  · exact float_eq _ (-3) 12692016 (by norm_num) (by norm_num) (by norm_num) (by norm_num) (by norm_num) (by norm_num) (by norm_num)
  · exact float_eq _ 18 9601550 (by norm_num) (by norm_num) (by norm_num) (by norm_num) (by norm_num) (by norm_num) (by norm_num)
  · exact float_eq _ 18 9601550 (by norm_num) (by norm_num) (by norm_num) (by norm_num) (by norm_num) (by norm_num) (by norm_num)
  · exact float_eq _ (-8) 10002688 (by norm_num) (by norm_num) (by norm_num) (by norm_num) (by norm_num) (by norm_num) (by norm_num)
  · exact float_eq _ 7 11927339 (by norm_num) (by norm_num) (by norm_num) (by norm_num) (by norm_num) (by norm_num) (by norm_num)
  · exact float_eq _ 18 9607374 (by norm_num) (by norm_num) (by norm_num) (by norm_num) (by norm_num) (by norm_num) (by norm_num)
  · exact float_eq _ (-3) 8696528 (by norm_num) (by norm_num) (by norm_num) (by norm_num) (by norm_num) (by norm_num) (by norm_num)
  · exact float_eq _ 17 9015751 (by norm_num) (by norm_num) (by norm_num) (by norm_num) (by norm_num) (by norm_num) (by norm_num)
  · exact float_tie _ 18 14115250 (by norm_num) (by norm_num) (by norm_num) (by norm_num) (by norm_num) (by norm_num) (by norm_num) (by norm_num)
  · exact float_sqrt _ (-3) 15388782 (by norm_num) (by norm_num) (by norm_num) (by norm_num) (by norm_num) (by norm_num) (by norm_num) (by norm_num)

/-- `p` on process 0, `q` and `x` on process 1. -/
def threePoints (r : ℕ) : List (Pt ℝ 3) := if r = 0 then [ptP] else [ptQ, ptX]

lemma threePoints_all : (List.range 2).flatMap threePoints = [ptP, ptQ, ptX] := rfl

lemma threePoints_size : ((List.range 2).flatMap threePoints).length ≤ 2 ^ 63 := by
  rw [threePoints_all]
  simp

/-- The next `float` after `2 eps = 1923597.5`. -/
lemma three_next : (Ieee.float false).Num (2 * (3847195 / 4)) ∧ (Ieee.float false).Num (15388781 / 8) ∧ (2 * (3847195 / 4) : ℝ) < 15388781 / 8 ∧
    ∀ y, (Ieee.float false).Num y → 2 * (3847195 / 4) < y → 15388781 / 8 ≤ y := by
  refine ⟨float_eq _ (-3) 15388780 ?_ ?_ ?_ ?_ ?_ ?_ ?_, float_eq _ (-3) 15388781 ?_ ?_ ?_ ?_ ?_ ?_ ?_, by norm_num, fun y hy hlt => ?_⟩
  any_goals norm_num
  by_contra hge
  have hge := not_le.mp hge
  have hpos : 0 < y := by linarith
  have hlog : Int.log 2 y = 20 := by
    have k1 : (2 : ℝ) ^ Int.log 2 y < 2 ^ (21 : ℤ) := lt_of_le_of_lt (Ieee.log_le hpos) (lt_trans hge (by norm_num))
    have k2 : (2 : ℝ) ^ (20 : ℤ) < 2 ^ (Int.log 2 y + 1) := lt_trans (lt_trans (by norm_num) hlt) Ieee.lt_log
    have k1 := (zpow_lt_zpow_iff_right₀ (by norm_num : (1 : ℝ) < 2)).mp k1
    have k2 := (zpow_lt_zpow_iff_right₀ (by norm_num : (1 : ℝ) < 2)).mp k2
    omega
  have hy : Ieee.rnd 24 (-149) 128 y = y := hy
  unfold Ieee.rnd Ieee.pos at hy
  rw [if_pos hpos.le] at hy
  split_ifs at hy with h
  · have hn := EReal.coe_eq_coe_iff.mp hy
    unfold Ieee.near Ieee.ulpExp at hn
    rw [hlog] at hn
    norm_num at hn
    generalize Ieee.roundEven (y / (1 / 8)) = k at hn
    rw [← hn] at hlt hge
    have h1 : (15388780 : ℝ) < k := by linarith
    have h2 : (k : ℝ) < 15388781 := by linarith
    have h1 : (15388780 : ℤ) < k := by exact_mod_cast h1
    have h2 : k < (15388781 : ℤ) := by exact_mod_cast h2
    omega
  · simp at hy

lemma three_core : Core 3 (withinOf (Ieee.float false) (3847195 / 4) [ptP, ptQ, ptX]) 3 1 ∧
    withinOf (Ieee.float false) (3847195 / 4) [ptP, ptQ, ptX] 0 1 = true := by
  have h0 : withinOf (Ieee.float false) (3847195 / 4) [ptP, ptQ, ptX] 0 1 = true := by
    refine decide_eq_true ?_
    show (Ieee.float false).distPoint ptP ptQ ≤ _
    rw [dist_pq]
  refine ⟨?_, h0⟩
  unfold Core
  have hall : ∀ j ∈ List.range 3, withinOf (Ieee.float false) (3847195 / 4) [ptP, ptQ, ptX] 1 j = true := by
    intro j hj
    have hj := List.mem_range.mp hj
    have : j = 0 ∨ j = 1 ∨ j = 2 := by omega
    refine decide_eq_true ?_
    rcases this with rfl | rfl | rfl
    · show (Ieee.float false).distPoint ptQ ptP ≤ _
      rw [Format.distPoint_comm, dist_pq]
    · show (Ieee.float false).distPoint ptQ ptQ ≤ _
      rw [Format.distPoint_self]
      exact EReal.coe_nonneg.mpr (by norm_num)
    · show (Ieee.float false).distPoint ptQ ptX ≤ _
      rw [dist_qx]
  rw [List.filter_eq_self.mpr hall]
  simp

lemma three_not_hit : nodeTest (Ieee.float false) (.sphere ⟨ptX, 15388781 / 8⟩) ((⊥ : Bound 3) ⊔ (ptBox ptP : Bound 3)) = false := by
  rw [bot_sup_eq]
  refine decide_eq_false ?_
  simp only [Format.intersects, Option.some_inj, decide_eq_true_eq, not_le]
  unfold Format.distPointBox
  have : closestPointBox ptX (ptBox ptP).1 = ptP := by
    funext d
    unfold closestPointBox ptBox
    fin_cases d <;> norm_num [ptP, ptX]
  rw [this, Format.distPoint_comm, dist_px, EReal.coe_lt_coe_iff]
  norm_num

/-- **The unrestricted form of C73 is false.** In `float`, without fused multiply-adds, the forwarding radius `nextafter(2 eps, 10 eps)` of the code
for `core_min_size > 2` need not reach two steps, although that is what it is enlarged for. Here `p` is on process 0, `q` and `x` on process 1; `p` and `x`
have the computed distance `eps` to `q`, which is a core point for `core_min_size = 3`, so `p` belongs to its cluster. But the computed distance of `p` and `x` is more
than the radius. Process 0 does not get `x`, takes `p` for noise, and ignores the single label it receives for it: in every execution `p` is labelled
-1. -/
theorem distributed_dbscan_float_defect : ∃ (eps radius : ℝ) (points : ℕ → List (Pt ℝ 3)), 0 < eps ∧ (Ieee.float false).Num eps ∧
    ((Ieee.float false).Num (2 * eps) ∧ (Ieee.float false).Num radius ∧ 2 * eps < radius ∧ ∀ y, (Ieee.float false).Num y → 2 * eps < y → radius ≤ y) ∧
    (let pts := (List.range 2).flatMap points
     pts.length = 3 ∧ Core 3 (withinOf (Ieee.float false) eps pts) 3 1 ∧ withinOf (Ieee.float false) eps pts 0 1 = true) ∧
    ∀ (w : ℕ) (E : XEnv (Pt ℝ 3) w), E.Valid (placed (Ieee.float false) 2 points eps radius 3) →
      Calls (Ieee.float false) eps 3 false (placed (Ieee.float false) 2 points eps radius 3) E → (∀ r n, InOrder (E.csched r n)) →
      ∃ N, ∀ fuel ≥ N, ∃ res, (placed (Ieee.float false) 2 points eps radius 3).dbscan E 4 fuel = some res ∧
        labelAt ((List.range 2).flatMap res) 0 = -1 ∧
        ¬ IsClustering false 3 (withinOf (Ieee.float false) eps ((List.range 2).flatMap points)) 3 (labelAt ((List.range 2).flatMap res)) := by
  refine ⟨3847195 / 4, 15388781 / 8, threePoints, by norm_num, ?_, three_next, ?_, ?_⟩
  · refine float_eq _ (-4) 15388780 ?_ ?_ ?_ ?_ ?_ ?_ ?_ <;> norm_num
  · rw [threePoints_all]
    exact ⟨rfl, three_core⟩
  intro w E hE hL hc
  obtain ⟨N, h⟩ := two_processes_noise (placed (Ieee.float false) 2 threePoints (3847195 / 4) (15388781 / 8) 3) (placed_base (by norm_num) (by norm_num)) rfl
    (by show 2 ≤ 3; norm_num) false E hE (hL.local (by norm_num) (by norm_num)) hc 4 le_rfl 0 (by norm_num) (by
      intro l hl hm
      have hsub : l.Subperm [(1, 0)] := by
        apply List.subperm_of_subset hl
        rintro ⟨s, q⟩ he
        obtain ⟨h1, h2, p, h3, h4⟩ := hm s q he
        have h1 : s < 2 := h1
        obtain rfl : s = 1 := by omega
        have h3 : [ptQ, ptX][q]? = some p := h3
        have h4 : nodeTest (Ieee.float false) (.sphere ⟨p, 15388781 / 8⟩) ((⊥ : Bound 3) ⊔ (ptBox ptP : Bound 3)) = true := h4
        have hq : q < 2 := (List.getElem?_eq_some_iff.mp h3).1
        have : q = 0 ∨ q = 1 := by omega
        rcases this with rfl | rfl
        · simp
        · obtain rfl : ptX = p := by simpa using h3
          rw [three_not_hit] at h4
          simp at h4
      have := hsub.length_le
      show 1 + l.length < 3
      simp at this
      omega)
  refine ⟨N, fun fuel hf => ?_⟩
  obtain ⟨res, h1, h2, h3⟩ := h fuel hf
  have hlen : (res 0).length = 1 := h2 0 (by show 0 < 2; norm_num)
  obtain ⟨a, ha⟩ := List.length_eq_one_iff.mp hlen
  have hneg : a = -1 := h3 a (by rw [ha]; simp)
  have hlab : labelAt ((List.range 2).flatMap res) 0 = -1 := by
    rw [show List.range 2 = [0, 1] from rfl, List.flatMap_cons, ha, hneg]
    rfl
  refine ⟨res, h1, hlab, fun hcl => ?_⟩
  have hcl : IsDBSCAN 3 (withinOf (Ieee.float false) (3847195 / 4) [ptP, ptQ, ptX]) 3 (labelAt ((List.range 2).flatMap res)) := hcl
  by_cases hcore : Core 3 (withinOf (Ieee.float false) (3847195 / 4) [ptP, ptQ, ptX]) 3 0
  · have := hcl.core 0 (by norm_num) hcore
    rw [hlab] at this
    omega
  · obtain ⟨j, hj, k1, -, k3⟩ := hcl.border 0 (by norm_num) hcore ⟨1, by norm_num, three_core.1, three_core.2⟩
    have := hcl.core j hj k1
    rw [← k3, hlab] at this
    omega

/-- Executions exist for the three points ... -/
example : ∃ E : XEnv (Pt ℝ 3) 64, E.Valid (placed (Ieee.float false) 2 threePoints (3847195 / 4) (15388781 / 8) 3) ∧
    Calls (Ieee.float false) (3847195 / 4) 3 false (placed (Ieee.float false) 2 threePoints (3847195 / 4) (15388781 / 8) 3) E ∧
      ∀ r n, InOrder (E.csched r n) :=
  exists_run _ 2 (by norm_num) _ threePoints_size _ _ (by norm_num) 3 (by norm_num) false

lemma three_reaches : Reaches (Ieee.float false) (3847195 / 4) (7694391 / 4) [ptP, ptQ, ptX] := by
  have hxq : (Ieee.float false).distPoint ptX ptQ = _ := (Format.distPoint_comm _ _ _).trans dist_qx
  have hqp : (Ieee.float false).distPoint ptQ ptP = _ := (Format.distPoint_comm _ _ _).trans dist_pq
  have hxp : (Ieee.float false).distPoint ptX ptP = _ := (Format.distPoint_comm _ _ _).trans dist_px
  have hself : ∀ a : Pt ℝ 3, (Ieee.float false).distPoint a a ≤ ((7694391 / 4 : ℝ) : EReal) := by
    intro a
    rw [Format.distPoint_self]
    exact EReal.coe_nonneg.mpr (by norm_num)
  have hle : ((3847195 / 4 : ℝ) : EReal) ≤ ((7694391 / 4 : ℝ) : EReal) := EReal.coe_le_coe_iff.mpr (by norm_num)
  have hle' : ((7694391 / 4 : ℝ) : EReal) ≤ ((7694391 / 4 : ℝ) : EReal) := le_rfl
  intro a ha _ _ b hb _ _
  simp only [List.mem_cons, List.not_mem_nil, or_false] at ha hb
  rcases ha with rfl | rfl | rfl <;> rcases hb with rfl | rfl | rfl
  · exact hself _
  · rw [dist_pq]; exact hle
  · rw [dist_px]
  · rw [hqp]; exact hle
  · exact hself _
  · rw [dist_qx]; exact hle
  · rw [hxp]
  · rw [hxq]; exact hle
  · exact hself _

/-- ... and `distributed_dbscan_float_sound_partial` applies with a radius that is larger by one unit: `p` is not noise. -/
example : ∃ (E : XEnv (Pt ℝ 3) 64) (N : ℕ), ∀ fuel ≥ N, ∃ res,
    (placed (Ieee.float false) 2 threePoints (3847195 / 4) (7694391 / 4) 3).dbscan E 4 fuel = some res ∧ labelAt ((List.range 2).flatMap res) 0 ≠ -1 := by
  obtain ⟨E, h1, h2, h3⟩ := exists_run (Ieee.float false) 2 (by norm_num) threePoints threePoints_size (3847195 / 4) (7694391 / 4)
    (by norm_num) 3 (by norm_num) false
  obtain ⟨N, h⟩ := distributed_dbscan_float_sound_partial (Ieee.float false) 2 threePoints (3847195 / 4) (7694391 / 4) (by norm_num) (by norm_num) 3 (by norm_num)
    false (fun _ => three_reaches) E h1 h2 h3 4 le_rfl
  refine ⟨E, N, fun fuel hf => ?_⟩
  obtain ⟨res, k1, -, k2, -⟩ := h fuel hf
  refine ⟨res, k1, fun hneg => ?_⟩
  rw [threePoints_all] at k2
  have := ((k2 0 (by simp)).mp hneg).2
  rcases this with h | h
  · simp at h
  · exact h ⟨1, by simp, three_core.1, three_core.2⟩

/-- `distributed_dbscan_float_partial` applies as well. -/
example : ∃ (E : XEnv (Pt ℝ 3) 64) (N : ℕ), ∀ fuel ≥ N, ∃ res,
    (placed (Ieee.float false) 2 threePoints (3847195 / 4) (7694391 / 4) 3).dbscan E 4 fuel = some res ∧
    IsClustering false 3 (withinOf (Ieee.float false) (3847195 / 4) [ptP, ptQ, ptX]) 3 (labelAt ((List.range 2).flatMap res)) := by
  obtain ⟨E, h1, h2, h3⟩ := exists_run (Ieee.float false) 2 (by norm_num) threePoints threePoints_size (3847195 / 4) (7694391 / 4)
    (by norm_num) 3 (by norm_num) false
  obtain ⟨N, h⟩ := distributed_dbscan_float_partial (Ieee.float false) 2 threePoints (3847195 / 4) (7694391 / 4) (by norm_num) (by norm_num) 3 (by norm_num)
    false (fun _ => three_reaches) E h1 h2 h3 4 le_rfl
    (few_of_three (placed_base (by norm_num) (by norm_num)) h1 (h2.local (by norm_num) (by norm_num)) le_rfl (by show 3 ≤ 3; norm_num))
  refine ⟨E, N, fun fuel hf => ?_⟩
  obtain ⟨res, k1, -, k2⟩ := h fuel hf
  exact ⟨res, k1, k2⟩

end ArborX.Fp
