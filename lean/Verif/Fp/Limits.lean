import Verif.Fp.Theorems
import Mathlib.Tactic.FinCases

/-!
# Where floating-point arithmetic shows: overflow and spheres as values (C64, C65)
-/

namespace ArborX.Traversal

open BVH Construction

variable {α V : Type} {w : ℕ} [SemilatticeSup V] [OrderBot V]

omit [OrderBot V] in
lemma vol_of_sup {P : V → Prop} (hs : ∀ a b, P a → P b → P (a ⊔ b)) (f : ℕ → V) (hf : ∀ i, P (f i)) (T : BTree) : P (T.vol f) := by
  induction T with
  | leaf i => exact hf i
  | node a b iha ihb => exact hs _ _ iha ihb

/-- A predicate that rejects the volume of the root finds nothing, whatever it says of the values. -/
lemma spatial_query_rejected (I : Input α V w) (h : I.Valid) (hn : 2 ≤ I.n) (pl : α → Bool) (pv : V → Bool) (P : V → Prop)
    (hs : ∀ a b, P a → P b → P (a ⊔ b)) (hvol : ∀ a, P (I.vol a)) (hrej : ∀ v, P v → pv v = false) (stop : List α → Bool)
    (sched : List ℕ) (hf : I.Finished sched) (fuel : ℕ) (hfuel : 2 * I.n ≤ fuel) :
    spatialQuery (I.build sched) pl pv stop fuel = .done [] := by
  obtain ⟨T, hT⟩ := build_wellFormed I h hn
  obtain ⟨hl, hlay⟩ := hT sched hf
  rw [build_size] at hl hlay
  cases T with
  | leaf i =>
    have := congrArg List.length hl
    rw [List.length_range] at this
    simp [BTree.leaves] at this
    omega
  | node a b =>
    obtain ⟨ia, ib, h1, h2, -, -⟩ := hlay
    obtain ⟨f, rfl⟩ : ∃ f, fuel = f + 1 := ⟨fuel - 1, by omega⟩
    rw [build_size] at h2
    have hr := hrej _ (vol_of_sup hs (fun i => I.vol (I.values (I.perm i))) (fun i => hvol _) (BTree.node a b))
    unfold spatialQuery
    rw [build_size, if_neg (by omega), if_neg (by omega)]
    unfold spatialLoop
    rw [build_size, if_neg (lt_irrefl _), h2]
    simp only [hr, Bool.false_eq_true, if_false]
    cases f <;> rfl

end ArborX.Traversal

namespace ArborX.Fp

open Geometry BVH Euclid

/-! ## Some results of `float` operations -/

lemma float_pow (fma : Bool) {a : ℤ} (h1 : -149 ≤ a) (h2 : a < 128) : (Ieee.float fma).rnd (2 ^ a) = ((2 ^ a : ℝ) : EReal) := by
  show Ieee.rnd 24 (-149) 128 (2 ^ a) = _
  unfold Ieee.rnd Ieee.pos
  rw [if_pos (Ieee.ulp_pos a).le, Ieee.near_pow (by norm_num) h1, if_pos (zpow_lt_zpow_right₀ (by norm_num) h2)]

lemma float_top (fma : Bool) {a : ℤ} (h : 128 ≤ a) : (Ieee.float fma).rnd (2 ^ a) = ⊤ := by
  show Ieee.rnd 24 (-149) 128 (2 ^ a) = _
  unfold Ieee.rnd Ieee.pos
  rw [if_pos (Ieee.ulp_pos a).le, Ieee.near_pow (by norm_num) (by omega), if_neg (not_lt.mpr (zpow_le_zpow_right₀ (by norm_num) h))]

/-- `1 - 2 ^ -24` is a `float`. -/
lemma float_below_one (fma : Bool) : (Ieee.float fma).rnd (1 - 2 ^ (-24 : ℤ)) = ((1 - 2 ^ (-24 : ℤ) : ℝ) : EReal) := by
  have hpos : (0 : ℝ) < 1 - 2 ^ (-24 : ℤ) := by norm_num
  have hlog : Int.log 2 (1 - 2 ^ (-24 : ℤ) : ℝ) = -1 := by
    have h1 : (-1 : ℤ) ≤ Int.log 2 (1 - 2 ^ (-24 : ℤ) : ℝ) := by
      rw [← Int.zpow_le_iff_le_log (b := 2) (by norm_num) hpos]
      norm_num
    have h2 : Int.log 2 (1 - 2 ^ (-24 : ℤ) : ℝ) < 0 := by
      rw [← Int.lt_zpow_iff_log_lt (b := 2) (by norm_num) hpos]
      norm_num
    omega
  have hu : Ieee.ulpExp 24 (-149) (1 - 2 ^ (-24 : ℤ) : ℝ) = -24 := by
    unfold Ieee.ulpExp
    rw [hlog]; norm_num
  have hn : Ieee.near 24 (-149) (1 - 2 ^ (-24 : ℤ) : ℝ) = 1 - 2 ^ (-24 : ℤ) := by
    refine Ieee.near_of_mul (2 ^ 24 - 1) ?_
    rw [hu]; norm_num
  show Ieee.rnd 24 (-149) 128 _ = _
  unfold Ieee.rnd Ieee.pos
  rw [if_pos hpos.le, hn, if_pos (by norm_num)]

/-- `1 + 2 ^ -24` is rounded to `1`. -/
lemma float_above_one (fma : Bool) : (Ieee.float fma).rnd (1 + 2 ^ (-24 : ℤ)) = ((1 : ℝ) : EReal) := by
  have hpos : (0 : ℝ) < 1 + 2 ^ (-24 : ℤ) := by norm_num
  have hlog : Int.log 2 (1 + 2 ^ (-24 : ℤ) : ℝ) = 0 := by
    have h1 : (0 : ℤ) ≤ Int.log 2 (1 + 2 ^ (-24 : ℤ) : ℝ) := by
      rw [← Int.zpow_le_iff_le_log (b := 2) (by norm_num) hpos]
      norm_num
    have h2 : Int.log 2 (1 + 2 ^ (-24 : ℤ) : ℝ) < 1 := by
      rw [← Int.lt_zpow_iff_log_lt (b := 2) (by norm_num) hpos]
      norm_num
    omega
  have hu : Ieee.ulpExp 24 (-149) (1 + 2 ^ (-24 : ℤ) : ℝ) = -23 := by
    unfold Ieee.ulpExp
    rw [hlog]; norm_num
  have hn : Ieee.near 24 (-149) (1 + 2 ^ (-24 : ℤ) : ℝ) = 1 := by
    unfold Ieee.near
    rw [hu]
    have hq : (1 + 2 ^ (-24 : ℤ) : ℝ) / 2 ^ (-23 : ℤ) = 8388608 + 1 / 2 := by norm_num
    have hf : ⌊(8388608 + 1 / 2 : ℝ)⌋ = 8388608 := by
      rw [Int.floor_eq_iff]; norm_num
    have hr : Ieee.roundEven (8388608 + 1 / 2) = 8388608 := by
      unfold Ieee.roundEven
      rw [hf]
      norm_num
    rw [hq, hr]
    norm_num
  show Ieee.rnd 24 (-149) 128 _ = _
  unfold Ieee.rnd Ieee.pos
  rw [if_pos hpos.le, hn, if_pos (by norm_num)]

/-! ## Overflow -/

/-- Points of type `float` which are all farther from the origin than the square root of the largest `float`. -/
noncomputable def farScene : Scene 2 where
  geo := [.point ![2 ^ (100 : ℤ), 0], .point ![2 ^ (101 : ℤ), 0], .point ![2 ^ (102 : ℤ), 0]]
  M := 2 ^ (127 : ℤ)
  code := fun i => BitVec.ofNat 64 i
  perm := fun i => i

lemma three_sorted {code : ℕ → BitVec 64} (hc : code = fun i => BitVec.ofNat 64 i) : ∀ i, i + 1 < 3 → code i ≤ code (i + 1) := by
  intro i hi
  subst hc
  rcases (by omega : i = 0 ∨ i = 1) with rfl | rfl <;> decide

theorem farScene_valid : farScene.Valid where
  fits := by show 3 ≤ 2 ^ 63; norm_num
  sorted := ⟨by show ((List.range 3).map (fun i => i)).Perm (List.range 3); rw [List.map_id'], fun i hi => three_sorted rfl i hi⟩
  top := by
    intro i hi
    have hi' : i < 3 := hi
    rcases (by omega : i = 0 ∨ i = 1 ∨ i = 2) with rfl | rfl | rfl <;> decide
  simple := by
    intro g hg
    simp only [farScene, List.mem_cons, List.not_mem_nil, or_false] at hg
    rcases hg with rfl | rfl | rfl <;> exact trivial

lemma madd_top (F : Format) (t : EReal) : F.madd ⊤ t = ⊤ := by
  unfold Format.madd
  rw [if_pos (.inl rfl)]

lemma float_overflow (fma : Bool) {a : ℤ} (h1 : 64 ≤ a) (h2 : a < 128) :
    (Ieee.float fma).distPoint (![0, 0] : Pt ℝ 2) ![2 ^ a, 0] = ⊤ := by
  have hs : (Ieee.float fma).step 0 (some ((2 : ℝ) ^ a)) = ⊤ := by
    unfold Format.step Format.madd
    simp only [float_pow fma (by omega : -149 ≤ a) h2, EReal.coe_ne_top, EReal.coe_ne_bot, EReal.zero_ne_top, or_self, if_false, EReal.toReal_coe,
      EReal.toReal_zero, add_zero, zero_add]
    rw [← zpow_add₀ (by norm_num), float_top fma (by omega : 128 ≤ a + a)]
    simp
  unfold Format.distPoint Format.norm
  have e : (List.finRange 2) = [0, 1] := by decide
  rw [e]
  simp only [List.foldl_cons, List.foldl_nil, Matrix.cons_val_zero, Matrix.cons_val_one, sub_zero]
  rw [hs]
  show (Ieee.float fma).sqrt ((Ieee.float fma).madd ⊤ _) = ⊤
  rw [madd_top]
  unfold Format.sqrt
  rw [if_pos rfl]

/-- **C65 (the restriction is needed).** If the squares of all distances overflow, a query for the nearest neighbours finds none, although the points, the
query and the distances are in the range of `float`. -/
theorem nearest_overflow (fma : Bool) (k : ℕ) (sched : List ℕ) (hf : farScene.input.Finished sched) (fuel : ℕ) (hfuel : 6 ≤ fuel) :
    Nearest.nearestQuery (farScene.input.build sched) (farScene.nearest (Ieee.float fma) (.point ![0, 0]) k) fuel = .done [] := by
  have hd : ∀ i < 3, (Ieee.float fma).distance (.point ![0, 0]) (farScene.at i) = some ⊤ := by
    intro i hi
    rcases (by omega : i = 0 ∨ i = 1 ∨ i = 2) with rfl | rfl | rfl
    · exact congrArg some (float_overflow fma (a := 100) (by norm_num) (by norm_num))
    · exact congrArg some (float_overflow fma (a := 101) (by norm_num) (by norm_num))
    · exact congrArg some (float_overflow fma (a := 102) (by norm_num) (by norm_num))
  have hz : ∀ i, (farScene.nearest (Ieee.float fma) (.point ![0, 0]) k).zero ≤ (farScene.nearest (Ieee.float fma) (.point ![0, 0]) k).dl i := by
    intro i
    obtain ⟨s, e, h0, -⟩ := distance_mono (Ieee.float fma) (Q := .point ![0, 0]) trivial (farScene_valid.at i)
    show (0 : EReal) ≤ asDistance ((Ieee.float fma).distance (.point ![0, 0]) (farScene.at i))
    rw [e]; exact h0
  have hcap : Nearest.StackFits farScene.input 64 := fun T hT =>
    Nearest.stack_suffices_small farScene.input (by norm_num) (by show 3 ≤ _; norm_num) T hT
  obtain ⟨calls, h1, om, h3, -, h5, -⟩ := Nearest.nearest_query farScene.input farScene_valid.input (by show 3 ≠ 1; norm_num)
    (farScene.nearest (Ieee.float fma) (.point ![0, 0]) k) (Scene.admissible farScene_valid _ (Q := .point ![0, 0]) trivial k) hz hcap sched hf fuel hfuel
  rw [h1]
  congr 1
  rw [farScene.stored_eq] at h3
  refine List.eq_nil_iff_forall_not_mem.mpr fun i hi => ?_
  have hi3 : i < 3 := List.mem_range.mp (h3.mem_iff.mp (List.mem_append_left _ hi))
  have : asDistance ((Ieee.float fma).distance (.point ![0, 0]) (farScene.at i)) < ⊤ := h5 i hi
  rw [hd i hi3] at this
  exact lt_irrefl _ this

/-! ## Spheres as values -/

/-- The box `expand(Box, Sphere)` makes of a sphere (`src/geometry/algorithms/ArborX_Expand.hpp` 78-96), for a sphere whose box does not overflow. -/
noncomputable def Format.sphereBox (F : Format) {D : ℕ} (S : Sphere ℝ D) : Box ℝ D where
  lo d := (F.rnd (S.center d - S.radius)).toReal
  hi d := (F.rnd (S.center d + S.radius)).toReal

/-- The input of the construction of a tree on spheres. -/
noncomputable def sphereInput {D : ℕ} (F : Format) (M : ℝ) (spheres : List (Sphere ℝ D)) : Input ℕ (Bound D) 64 where
  n := spheres.length
  values := fun i => i
  vol := fun i => leafBound M (.box (F.sphereBox (spheres.getD i ⟨0, 0⟩)))
  code := fun i => BitVec.ofNat 64 i
  perm := fun i => i

/-- The predicate `intersects(p)`, `p` a point, on a sphere (`ArborX_Intersects.hpp` 104-113). -/
noncomputable def sphereTest {D : ℕ} (F : Format) (spheres : List (Sphere ℝ D)) (p : Pt ℝ D) (i : ℕ) : Bool :=
  decide (F.intersects (.sphere (spheres.getD i ⟨0, 0⟩)) (.point p) = some true)

/-- A sphere of radius one whose centre is slightly left of the origin. -/
noncomputable def leftSphere : Sphere ℝ 2 := ⟨![-2 ^ (-24 : ℤ), 0], 1⟩

/-- A sphere far away. -/
noncomputable def otherSphere : Sphere ℝ 2 := ⟨![-5, 0], 1⟩

lemma leftSphere_test (fma : Bool) : (Ieee.float fma).distPoint leftSphere.center ![1, 0] ≤ ((1 : ℝ) : EReal) := by
  have h1 : (Ieee.float fma).rnd 1 = ((1 : ℝ) : EReal) := by
    have := float_pow fma (a := 0) (by norm_num) (by norm_num)
    rwa [zpow_zero] at this
  have hs : (Ieee.float fma).step 0 (some (1 - -(2 : ℝ) ^ (-24 : ℤ))) = ((1 : ℝ) : EReal) := by
    unfold Format.step Format.madd
    rw [sub_neg_eq_add]
    simp only [float_above_one fma, EReal.coe_ne_top, EReal.coe_ne_bot, EReal.zero_ne_top, or_self, if_false, EReal.toReal_coe, EReal.toReal_zero,
      add_zero, zero_add, mul_one, h1]
    simp
  unfold Format.distPoint Format.norm
  have e : (List.finRange 2) = [0, 1] := by decide
  rw [e]
  simp only [leftSphere, List.foldl_cons, List.foldl_nil, Matrix.cons_val_zero, Matrix.cons_val_one, sub_zero]
  rw [hs, Format.step_zero _ ⟨EReal.coe_nonneg.mpr zero_le_one, fun x hx => by rw [← EReal.coe_eq_coe_iff.mp hx]; exact h1⟩]
  unfold Format.sqrt
  rw [if_neg (EReal.coe_ne_top _), EReal.toReal_coe, Real.sqrt_one, h1]

/-- Every box right of which the point `(1, 0)` lies. -/
def LeftOfOne (v : Bound 2) : Prop := ∀ C : VBox 2, v = (C : Bound 2) → C.1.hi 0 < 1

lemma leftOfOne_sup (a b : Bound 2) (ha : LeftOfOne a) (hb : LeftOfOne b) : LeftOfOne (a ⊔ b) := by
  induction a using WithBot.recBotCoe with
  | bot => rw [bot_sup_eq]; exact hb
  | coe A =>
    induction b using WithBot.recBotCoe with
    | bot => rw [sup_bot_eq]; exact ha
    | coe B =>
      intro C hC
      have : A ⊔ B = C := WithBot.coe_injective hC
      rw [← this]
      exact max_lt (ha A rfl) (hb B rfl)

lemma leafBound_left {M : ℝ} (hM : 0 < M) {B : Box ℝ 2} (hB : B.hi 0 < 1) : LeftOfOne (leafBound M (.box B)) := by
  intro C hC
  unfold leafBound at hC
  split_ifs at hC with h
  · have := WithBot.coe_injective hC
    rw [← this]
    exact max_lt (by show -M < 1; linarith) hB
  · exact absurd hC.symm (WithBot.coe_ne_bot)

lemma sphere_boxes (fma : Bool) {M : ℝ} (hM : 0 < M) (i : ℕ) : LeftOfOne ((sphereInput (Ieee.float fma) M [leftSphere, otherSphere]).vol i) := by
  refine leafBound_left hM ?_
  have hle : ∀ x : ℝ, x ≤ 0 → ((Ieee.float fma).rnd x).toReal < 1 := by
    intro x hx
    have h := (Ieee.float fma).mono hx
    rw [Format.rnd_zero] at h
    exact lt_of_le_of_lt (EReal.toReal_nonpos h) zero_lt_one
  rcases (by omega : i = 0 ∨ i = 1 ∨ 2 ≤ i) with rfl | rfl | hi
  · show ((Ieee.float fma).rnd (-2 ^ (-24 : ℤ) + 1)).toReal < 1
    rw [neg_add_eq_sub, float_below_one, EReal.toReal_coe]
    norm_num
  · exact hle (-5 + 1) (by norm_num)
  · rw [List.getD_eq_default _ _ (by simpa using hi)]
    exact hle (0 + 0) (by norm_num)

/-- **C64 (the restriction to points and boxes as values is needed).** Two spheres of type `float`, and a point that the test of the library puts into the
first one. A tree on the first sphere alone finds it, but a tree on both finds nothing: the corners of the boxes are rounded too, and the point is
outside. -/
theorem sphere_values_hidden (fma : Bool) (M : ℝ) (hM : 0 < M) :
    (Ieee.float fma).intersects (.sphere leftSphere) (.point ![1, 0]) = some true ∧
    (∀ sched fuel, Traversal.spatialQuery ((sphereInput (Ieee.float fma) M [leftSphere]).build sched)
      (sphereTest (Ieee.float fma) [leftSphere] ![1, 0]) (nodeTest (Ieee.float fma) (.point ![1, 0])) (fun _ => false) fuel = .done [0]) ∧
    ∀ sched, (sphereInput (Ieee.float fma) M [leftSphere, otherSphere]).Finished sched → ∀ fuel, 4 ≤ fuel →
      Traversal.spatialQuery ((sphereInput (Ieee.float fma) M [leftSphere, otherSphere]).build sched)
        (sphereTest (Ieee.float fma) [leftSphere, otherSphere] ![1, 0]) (nodeTest (Ieee.float fma) (.point ![1, 0])) (fun _ => false) fuel = .done [] := by
  have ht : (Ieee.float fma).intersects (.sphere leftSphere) (.point ![1, 0]) = some true :=
    congrArg some (decide_eq_true (leftSphere_test fma))
  refine ⟨ht, fun sched fuel => ?_, fun sched hf fuel hfuel => ?_⟩
  · rw [Traversal.spatial_query_single _ rfl, if_pos]
    · rfl
    · exact decide_eq_true ht
  · refine Traversal.spatial_query_rejected _ ⟨by norm_num, by show 2 ≤ 2 ^ 63; norm_num, ⟨?_, ?_⟩, ?_⟩ le_rfl _ _ LeftOfOne leftOfOne_sup
      (sphere_boxes fma hM) ?_ _ sched hf fuel hfuel
    · show ((List.range 2).map (fun i => i)).Perm (List.range 2)
      rw [List.map_id']
    · intro i hi
      have hi' : i + 1 < 2 := hi
      obtain rfl : i = 0 := by omega
      exact (by decide : (BitVec.ofNat 64 0).toNat ≤ (BitVec.ofNat 64 (0 + 1)).toNat)
    · intro i hi
      have hi' : i < 2 := hi
      rcases (by omega : i = 0 ∨ i = 1) with rfl | rfl
      · exact (by decide : (BitVec.ofNat 64 0).toNat < 2 ^ 63)
      · exact (by decide : (BitVec.ofNat 64 1).toNat < 2 ^ 63)
    · intro v hv
      induction v using WithBot.recBotCoe with
      | bot => rfl
      | coe C =>
        refine decide_eq_false fun h => ?_
        have h' : intersectsPointBox (![1, 0] : Pt ℝ 2) C.1 = true := Option.some_injective _ h
        rw [intersects_point_box] at h'
        have := (h' 0).2
        exact absurd (hv C rfl) (not_lt.mpr this)

end ArborX.Fp
