import Verif.Fp.DistributedLimits

/-!
# Property theorems: distributed nearest queries with boxes in floating-point arithmetic (C70)

`box_query_lost` loses a value because its computed distance is smaller than the exact distance along one axis. This is the only reason, and it does not happen if the coordinates are
integers that are not too large.
-/

namespace ArborX.Fp

open Geometry BVH Euclid

variable {D : ℕ} {T : Type}

/-! ## Specification -/

/-- The coordinates of a point or of the corners of a box are numbers of the type. -/
def Format.Coordinates (F : Format) : Geom ℝ D → Prop
  | .point p => ∀ d, F.Num (p d)
  | .box B => ∀ d, F.Num (B.lo d) ∧ F.Num (B.hi d)
  | _ => False

/-- The exact distance of `g` and `h` along each axis is at most `r`: there are points of both for which it is. This holds if their Euclidean distance is at most `r` (`within_of_edist`). -/
def Within (g h : Geom ℝ D) (r : EReal) : Prop := ∃ x ∈ g.set, ∃ y ∈ h.set, ∀ d, ((|x d - y d| : ℝ) : EReal) ≤ r

/-! ## Lemmas -/

lemma abs_le_edist (x y : Pt ℝ D) (d : Fin D) : |x d - y d| ≤ Geometry.edist x y := by
  unfold Geometry.edist dist2
  rw [← Real.sqrt_sq_eq_abs]
  exact Real.sqrt_le_sqrt (Finset.single_le_sum (f := fun d => (x d - y d) ^ 2) (fun i _ => sq_nonneg _) (Finset.mem_univ d))

lemma within_of_edist {g h : Geom ℝ D} {r : EReal} {x y : Pt ℝ D} (hx : x ∈ g.set) (hy : y ∈ h.set) (hr : ((Geometry.edist x y : ℝ) : EReal) ≤ r) : Within g h r :=
  ⟨x, hx, y, hy, fun d => le_trans (EReal.coe_le_coe_iff.mpr (abs_le_edist x y d)) hr⟩

/-- A number that the exact sum reaches is reached by the number after the rounded sum. -/
lemma Format.IsNext.reach {F : Format} {M : ℝ} {up : EReal → ℝ} (hn : F.IsNext M up) {x y : ℝ} (hy : F.Num y) {R : EReal} (h : ((y - x : ℝ) : EReal) ≤ R) :
    y ≤ up (F.add x R) := by
  unfold Format.add
  split
  · rw [hn.top]; exact hn.largest y hy
  · rename_i hR
    induction R using EReal.rec with
    | bot => exact absurd (le_bot_iff.mp h) (EReal.coe_ne_bot _)
    | top => exact absurd rfl hR
    | coe r =>
      rw [EReal.toReal_coe]
      have hle : (y : EReal) ≤ F.rnd (x + r) := by
        rw [← hy]
        exact F.mono (by linarith [EReal.coe_le_coe_iff.mp h])
      induction hz : F.rnd (x + r) using EReal.rec with
      | bot => rw [hz] at hle; simp at hle
      | top => rw [hn.top]; exact hn.largest y hy
      | coe z =>
        rw [hz] at hle
        refine (EReal.coe_le_coe_iff.mp hle).trans ?_
        rcases (hn.largest z (F.idem _ _ hz)).eq_or_lt with rfl | hlt
        · rw [hn.last]
        · exact (hn.next z (F.idem _ _ hz) hlt).2.1.le

/-- The lower and upper corners of a value. -/
lemma corners {F : Format} {g : Geom ℝ D} (hg : Simple g) (hc : F.Coordinates g) :
    ∃ lo ∈ g.set, ∃ hi ∈ g.set, (∀ y ∈ g.set, ∀ d, lo d ≤ y d ∧ y d ≤ hi d) ∧ ∀ d, F.Num (lo d) ∧ F.Num (hi d) := by
  cases g with
  | point p => exact ⟨p, rfl, p, rfl, fun y hy d => by rw [show y = p from hy]; exact ⟨le_rfl, le_rfl⟩, fun d => ⟨hc d, hc d⟩⟩
  | box B => exact ⟨B.lo, fun d => ⟨le_rfl, hg d⟩, B.hi, fun d => ⟨hg d, le_rfl⟩, fun y hy d => hy d, hc⟩
  | _ => exact hg.elim

/-- The expanded box reaches the values within the radius. -/
lemma box_reaches {F : Format} {M : ℝ} {up : EReal → ℝ} (hn : F.IsNext M up) {B : Box ℝ D} {g : Geom ℝ D} (hg : Simple g) (hc : F.Coordinates g) {R : EReal}
    (hR : Within (.box B) g R) {C : Box ℝ D} (hC : g.set ⊆ C.set) : intersectsBoxBox (F.expandBox up B R) C = true := by
  obtain ⟨x, hx, y, hy, hxy⟩ := hR
  obtain ⟨lo, hlo, hi, hhi, hb, hnum⟩ := corners hg hc
  simp only [intersectsBoxBox, List.all_eq_true, Bool.not_eq_true', Bool.or_eq_false_iff, decide_eq_false_iff_not, not_lt, gt_iff_lt]
  intro d _
  have hxy := hxy d
  have h1 := abs_le.mp (le_refl |x d - y d|)
  obtain ⟨h2, h3⟩ := (hx : ∀ d, B.lo d ≤ x d ∧ x d ≤ B.hi d) d
  obtain ⟨h4, h5⟩ := hb y hy d
  have h6 : lo d ≤ up (F.add (B.hi d) R) := hn.reach (hnum d).1 (le_trans (EReal.coe_le_coe_iff.mpr (by linarith)) hxy)
  have hneg : F.Num (-hi d) := by
    show F.rnd _ = _
    rw [F.neg, (hnum d).2, EReal.coe_neg]
  have h7 : -hi d ≤ up (F.add (-B.lo d) R) := hn.reach hneg (le_trans (EReal.coe_le_coe_iff.mpr (by linarith)) hxy)
  constructor
  · show -up (F.add (-B.lo d) R) ≤ C.hi d
    linarith [(hC hhi d).2]
  · exact (hC hlo d).1.trans h6

/-! ## Theorems -/

/-- **C70 (partial), boxes as queries.** Queries `nearest(box, k)` on a distributed tree of points and boxes, in floating-point arithmetic, at distances that do not overflow, if no
computed distance is smaller than the exact distance along an axis. On every process the result is the compressed row storage of one row for each of its queries, in their order: what the callback outputs for
`min k n` values of all processes, in the order of their computed distances, such that no value left out on any process has a smaller computed distance. `E` ranges over all executions.
Partial: it is false if computed distances are smaller than the exact distances along an axis, see `box_query_lost`; the rest as in `distributed_nearest_float_partial`. -/
theorem distributed_nearest_box_partial (S : DScene D) (h : S.Valid) (F : Format) (M : ℝ) (up : EReal → ℝ) (hn : F.IsNext M up)
    (withCallback asserts : Bool) (hab : S.size ≠ 0 ∨ withCallback = true ∨ asserts = false)
    (hb : ∀ t < S.P, Nearest.StackFits (S.scene t).input 64) (ht : ∀ r < S.P, Nearest.StackFits (S.tree.top r) 64)
    (E : Distributed.NEnv EReal) (hE : E.Valid S.P) (fuel : ℕ) (hft : 2 * S.P ≤ fuel)
    (hfb : ∀ r < S.P, 2 * (S.scene r).geo.length ≤ fuel) (cb : Distributed.NPred (ℕ × ℕ) (Bound D) EReal → ℕ × ℕ → T)
    (hnum : ∀ a, S.Has a → F.Coordinates (S.at a)) (queries : ℕ → List (Box ℝ D × ℕ))
    (hq : ∀ s < S.P, ∀ q ∈ queries s, q.1.Valid ∧ ∀ a, S.Has a → ∀ r, F.distance (.box q.1) (S.at a) = some r → r < ⊤ ∧ Within (.box q.1) (S.at a) r) :
    ∃ res, S.tree.nearest withCallback asserts E fuel cb (fun s => (queries s).map (fun q => S.npred F up (.box q.1) q.2)) = some res ∧
      ∀ s < S.P, ∃ calls : ℕ → List (ℕ × ℕ),
        (∃ rows : ℕ → List T, Crs.IsCrs (queries s).length rows (res s).1 ((res s).2.map some) ∧
          ∀ i (hi : i < (queries s).length), rows i = (calls i).map (cb (S.npred F up (.box (queries s)[i].1) (queries s)[i].2))) ∧
        ∀ i (hi : i < (queries s).length), S.NearestOf F (.box (queries s)[i].1) (queries s)[i].2 (calls i) := by
  have key := distributed_nearest_reaches S h F up withCallback asserts hab hb ht E hE fuel hft hfb cb (fun s => (queries s).map fun q => (Geom.box q.1, q.2)) (by
    intro s hs q hqm
    obtain ⟨⟨B, k⟩, hx, rfl⟩ := List.mem_map.mp hqm
    obtain ⟨hB, hfin⟩ := hq s hs (B, k) hx
    have hsq : SimpleQuery (.box B) := hB
    refine ⟨hsq, fun a ha => ?_, fun t ht' a ha R v hv hR => ?_⟩
    · obtain ⟨r, e, -, -⟩ := distance_mono F hsq (h.at a)
      show asDistance (F.distance (.box B) (S.at a)) < ⊤
      rw [e]
      exact (hfin a (S.mem_all.mp ha) r e).1
    · have hhas := S.mem_all.mp (Distributed.mem_all.mpr ⟨t, ht', ha⟩)
      obtain ⟨C, rfl, hC⟩ := leafBound_le (h.at a).valid hv
      obtain ⟨r, e, -, -⟩ := distance_mono F hsq (h.at a)
      change asDistance (F.distance (.box B) (S.at a)) ≤ R at hR
      rw [e] at hR
      obtain ⟨x, hx', y, hy, hxy⟩ := (hfin a hhas r e).2
      exact box_reaches hn (h.at a) (hnum a hhas) ⟨x, hx', y, hy, fun d => (hxy d).trans hR⟩ hC)
  simp only [List.map_map, List.length_map, List.getElem_map] at key
  exact key

/-! ## The hypotheses are met -/

/-- Points at distances one and two from `loneQuery`, on two processes. -/
noncomputable def sidePoint (t : ℕ) : Pt ℝ 2 := ![2 ^ ((if t = 0 then 0 else 1 : ℤ)) - 1, 0]

lemma side_closest (t : ℕ) : closestPointBox (sidePoint t) loneQuery = ![-1, 0] := by
  have h0 : (0 : ℝ) ≤ 2 ^ ((if t = 0 then 0 else 1 : ℤ)) - 1 := by split <;> norm_num
  funext d
  fin_cases d
  · show (if (2 : ℝ) ^ ((if t = 0 then 0 else 1 : ℤ)) - 1 < -2 then (-2 : ℝ) else if (2 : ℝ) ^ ((if t = 0 then 0 else 1 : ℤ)) - 1 > -1 then (-1 : ℝ) else _) = -1
    rw [if_neg (by linarith), if_pos (by linarith)]
  · show (if (0 : ℝ) < -1 then (-1 : ℝ) else if (0 : ℝ) > 1 then (1 : ℝ) else 0) = 0
    rw [if_neg (by norm_num), if_neg (by norm_num)]

lemma side_distance (fma : Bool) (t : ℕ) :
    (Ieee.float fma).distance (.box loneQuery) (.point (sidePoint t)) = some (((2 : ℝ) ^ ((if t = 0 then 0 else 1 : ℤ)) : ℝ) : EReal) := by
  set k : ℤ := if t = 0 then 0 else 1 with hk
  have hk' : 0 ≤ k ∧ k ≤ 1 := by rw [hk]; split <;> norm_num
  have h1 : (Ieee.float fma).rnd (2 ^ k) = ((2 ^ k : ℝ) : EReal) := float_pow fma (by omega) (by omega)
  have h2 : (Ieee.float fma).rnd (2 ^ k * 2 ^ k) = ((2 ^ k * 2 ^ k : ℝ) : EReal) := by
    rw [← zpow_add₀ (by norm_num)]
    exact float_pow fma (by omega) (by omega)
  have hpos : (0 : ℝ) < 2 ^ k := by positivity
  show some ((Ieee.float fma).distPoint (sidePoint t) (closestPointBox (sidePoint t) loneQuery)) = _
  rw [side_closest]
  congr 1
  have hs : (Ieee.float fma).step 0 (some (-1 - ((2 : ℝ) ^ k - 1))) = ((2 ^ k * 2 ^ k : ℝ) : EReal) := by
    rw [Format.step_abs, show |(-1 : ℝ) - (2 ^ k - 1)| = 2 ^ k by rw [show (-1 : ℝ) - (2 ^ k - 1) = -2 ^ k by ring, abs_neg, abs_of_pos hpos]]
    unfold Format.step Format.madd
    simp only [h1, EReal.coe_ne_top, EReal.coe_ne_bot, EReal.zero_ne_top, or_self, if_false, EReal.toReal_coe, EReal.toReal_zero,
      add_zero, zero_add, h2]
    simp
  unfold Format.distPoint Format.norm
  have e : (List.finRange 2) = [0, 1] := by decide
  rw [e]
  simp only [sidePoint, List.foldl_cons, List.foldl_nil, Matrix.cons_val_zero, Matrix.cons_val_one, sub_zero]
  rw [← hk, hs, Format.step_zero _ ⟨EReal.coe_nonneg.mpr (by positivity), fun x hx => by rw [← EReal.coe_eq_coe_iff.mp hx]; exact h2⟩]
  unfold Format.sqrt
  rw [if_neg (EReal.coe_ne_top _), EReal.toReal_coe, Real.sqrt_mul_self hpos.le, h1]

/-- One of the points. -/
noncomputable def sideScene (t : ℕ) : Scene 2 where
  geo := [.point (sidePoint t)]
  M := 2 ^ (127 : ℤ)
  code := fun _ => 0
  perm := fun i => i

lemma sideScene_valid (t : ℕ) : (sideScene t).Valid where
  fits := by show 1 ≤ 2 ^ 63; norm_num
  sorted := ⟨by show ((List.range 1).map (fun i => i)).Perm (List.range 1); rw [List.map_id'], fun i hi => absurd hi (by show ¬ i + 1 < 1; omega)⟩
  top := fun i _ => by show (0 : BitVec 64).toNat < 2 ^ 63; decide
  simple := by
    intro g hg
    simp only [sideScene, List.mem_cons, List.not_mem_nil, or_false] at hg
    rw [hg]; exact trivial

/-- Two processes with a point each. -/
lemma side_exists : ∃ S : DScene 2, S.Valid ∧ S.P = 2 ∧ S.size = 2 ∧
    (∀ t < S.P, Nearest.StackFits (S.scene t).input 64) ∧ (∀ r < S.P, Nearest.StackFits (S.tree.top r) 64) ∧
    ∀ a, S.Has a → S.at a = .point (sidePoint a.1) := by
  let S0 : DScene 2 := ⟨2, sideScene, fun _ => [], fun _ _ => 0, fun _ i => i, fun _ => []⟩
  have hv : ∀ r, (S0.tree.top r).Valid := fun r => Distributed.equalCodes_valid _ rfl rfl (by show 2 ≤ 2 ^ 63; norm_num)
  choose ts hts using fun r => Distributed.exists_finished (S0.tree.top r) (hv r)
  refine ⟨⟨2, sideScene, fun _ => [], fun _ _ => 0, fun _ i => i, ts⟩, ⟨by show 2 ≤ 2 ^ 63; norm_num, fun t _ => ⟨sideScene_valid t, fun h => absurd h (by show ¬ 2 ≤ 1; omega)⟩,
    fun r _ => ⟨(hv r).sorted, hts r⟩, fun r _ i _ => by show (0 : BitVec 64).toNat < 2 ^ 63; decide⟩, rfl, rfl,
    fun t _ => Nearest.stack_suffices_small _ (by norm_num) (by show 1 ≤ _; norm_num), fun r _ => Nearest.stack_suffices_small _ (by norm_num) (by show 2 ≤ _; norm_num), ?_⟩
  rintro ⟨t, i⟩ ⟨h1, h2⟩
  have h1 : t < 2 := h1
  obtain rfl : i = 0 := by have : i < 1 := h2; omega
  unfold DScene.at
  rw [if_pos h1]
  rfl

/-- The hypotheses of the theorem are met by them. -/
example (fma : Bool) : ∃ S : DScene 2, S.Valid ∧ S.P = 2 ∧ S.size = 2 ∧ (∃ M up, (Ieee.float fma).IsNext M up) ∧
    (∀ t < S.P, Nearest.StackFits (S.scene t).input 64) ∧ (∀ r < S.P, Nearest.StackFits (S.tree.top r) 64) ∧
    (∀ a, S.Has a → (Ieee.float fma).Coordinates (S.at a)) ∧ loneQuery.Valid ∧
    ∀ a, S.Has a → ∀ r, (Ieee.float fma).distance (.box loneQuery) (S.at a) = some r → r < ⊤ ∧ Within (.box loneQuery) (S.at a) r := by
  obtain ⟨S, h1, h2, h3, h4, h5, hat⟩ := side_exists
  refine ⟨S, h1, h2, h3, Ieee.exists_next (by norm_num) fma, h4, h5, fun a ha => ?_, loneQuery_valid, fun a ha r hr => ?_⟩
  · rw [hat a ha]
    intro d
    fin_cases d
    · show (Ieee.float fma).Num (2 ^ ((if a.1 = 0 then 0 else 1 : ℤ)) - 1)
      split
      · rw [zpow_zero, sub_self]; exact Ieee.num_zero _
      · have := float_pow fma (a := 0) (by norm_num) (by norm_num)
        rw [zpow_zero] at this
        rw [zpow_one, show (2 : ℝ) - 1 = 1 by norm_num]
        exact this
    · exact Ieee.num_zero _
  · rw [hat a ha] at hr ⊢
    rw [side_distance, Option.some_inj] at hr
    rw [← hr]
    refine ⟨EReal.coe_lt_top _, within_of_edist (x := ![-1, 0]) (fun d => ?_) rfl (EReal.coe_le_coe_iff.mpr ?_)⟩
    · fin_cases d <;> simp [loneQuery]
    · unfold Geometry.edist dist2
      rw [Fin.sum_univ_two]
      show Real.sqrt ((-1 - (2 ^ ((if a.1 = 0 then 0 else 1 : ℤ)) - 1)) ^ 2 + (0 - 0) ^ 2) ≤ _
      rw [show ((-1 : ℝ) - (2 ^ ((if a.1 = 0 then 0 else 1 : ℤ)) - 1)) ^ 2 + (0 - 0) ^ 2 = (2 ^ ((if a.1 = 0 then 0 else 1 : ℤ))) ^ 2 by ring]
      exact (Real.sqrt_sq (by positivity)).le

end ArborX.Fp
