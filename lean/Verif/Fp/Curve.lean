import Verif.Fp.CurveModel
import Verif.Fp.Limits

/-!
# Property theorems: positions on the space-filling curve are defined and ordered (C103)
-/

namespace ArborX.Fp

open Nearest Morton

variable {D w : ℕ}

/-! ## Specification -/

/-- Differences of different numbers of the type are not rounded to zero, as is the case if there are subnormal numbers. -/
def Format.Gradual (F : Format) : Prop := ∀ x y : ℝ, F.rnd x = x → F.rnd y = y → F.rnd (x - y) = 0 → x = y

/-- The number of cells along an axis, and its predecessor, are numbers of the types the functions compute in, and fit into the result. -/
structure Curve.Ok (C : Curve w) : Prop where
  bits : C.bits < w
  g : C.G.rnd (2 ^ C.bits) = ((2 ^ C.bits : ℝ) : EReal)
  h : C.H.rnd (2 ^ C.bits) = ((2 ^ C.bits : ℝ) : EReal)

/-- The number of the last cell, and one, are numbers of the types as well. -/
structure Curve.Fine (C : Curve w) (F : Format) : Prop extends Curve.Ok C where
  glast : C.G.rnd (2 ^ C.bits - 1) = ((2 ^ C.bits - 1 : ℝ) : EReal)
  hlast : C.H.rnd (2 ^ C.bits - 1) = ((2 ^ C.bits - 1 : ℝ) : EReal)
  gone : C.G.rnd 1 = ((1 : ℝ) : EReal)
  fone : F.rnd 1 = ((1 : ℝ) : EReal)

/-- The vertices are numbers of the type `F` with largest number `M`. -/
structure SceneOk (F : Format) (M : ℝ) (geo : List (Hull D)) : Prop where
  rep : ∀ g ∈ geo, ∀ v ∈ g, ∀ d, F.rnd (v d) = (v d : EReal)
  range : ∀ g ∈ geo, ∀ v ∈ g, ∀ d, |v d| ≤ M
  nonempty : ∀ g ∈ geo, g ≠ []

/-- No two vertices are so far apart along an axis that the difference of their coordinates overflows. -/
def SceneFits (F : Format) (geo : List (Hull D)) : Prop :=
  ∀ g ∈ geo, ∀ v ∈ g, ∀ g' ∈ geo, ∀ v' ∈ g', ∀ d, F.rnd (v d - v' d) ≠ ⊤

/-! ## Lemmas -/

lemma Format.rnd_zero' (F : Format) : F.rnd 0 = ((0 : ℝ) : EReal) := by rw [F.rnd_zero]; rfl

/-- `Format.scale` on numbers. -/
noncomputable def Format.scaleE (F : Format) (N : ℝ) (x : EReal) : EReal := if x = ⊤ ∨ x = ⊥ then x else F.rnd (x.toReal * N)

lemma Format.scale_some (F : Format) (N : ℝ) (x : EReal) : F.scale N (some x) = some (F.scaleE N x) := by
  unfold Format.scale Format.scaleE
  dsimp only
  split_ifs <;> rfl

lemma Format.conv_some (F : Format) (x : EReal) : F.conv (some x) = some (F.scaleE 1 x) := by
  unfold Format.conv Format.scaleE
  rw [mul_one]
  dsimp only
  split_ifs <;> rfl

lemma Format.scaleE_coe (F : Format) (N x : ℝ) : F.scaleE N x = F.rnd (x * N) := by
  unfold Format.scaleE
  rw [if_neg (by simp), EReal.toReal_coe]

lemma Format.scaleE_mono (F : Format) {N : ℝ} (hN : 0 ≤ N) : Monotone (F.scaleE N) := by
  intro x y h
  induction x using EReal.rec with
  | bot => simp [Format.scaleE]
  | top => rw [top_le_iff] at h; rw [h]
  | coe x =>
    induction y using EReal.rec with
    | bot => exact absurd h (by simp)
    | top => simp [Format.scaleE]
    | coe y =>
      rw [F.scaleE_coe, F.scaleE_coe]
      exact F.mono (mul_le_mul_of_nonneg_right (EReal.coe_le_coe_iff.mp h) hN)

lemma nclamp_some (v h : EReal) : nclamp (some v) (some 0) (some h) = some (if v < 0 then 0 else if h < v then h else v) := by
  unfold nclamp nanLt
  by_cases h1 : v < 0
  · simp [h1]
  · by_cases h2 : h < v <;> simp [h1, h2]

lemma clamp_mono {h : EReal} (h0 : 0 ≤ h) : Monotone (fun v : EReal => if v < 0 then 0 else if h < v then h else v) := by
  intro v v' hv
  dsimp only
  split_ifs with h1 h2 h3 h4 h5 h6 h7
  · exact le_rfl
  · exact h0
  · exact not_lt.mp h2
  · exact absurd (lt_of_le_of_lt hv h5) h1
  · exact le_rfl
  · exact absurd (lt_of_lt_of_le h4 hv) h6
  · exact absurd (lt_of_le_of_lt hv h7) h1
  · exact not_lt.mp h4
  · exact hv

lemma clamp_bounds {h : EReal} (h0 : 0 ≤ h) (v : EReal) :
    0 ≤ (if v < 0 then 0 else if h < v then h else v) ∧ (if v < 0 then 0 else if h < v then h else v) ≤ h := by
  split_ifs with h1 h2
  · exact ⟨le_rfl, h0⟩
  · exact ⟨h0, le_rfl⟩
  · exact ⟨not_lt.mp h1, not_lt.mp h2⟩

/-- The number that `Curve.cell` converts to an integer. -/
noncomputable def Curve.cellE (C : Curve w) (x : EReal) : EReal :=
  C.H.scaleE 1 ((fun v : EReal => if v < 0 then 0 else if C.G.rnd (2 ^ C.bits - 1) < v then C.G.rnd (2 ^ C.bits - 1) else v)
    (C.G.scaleE (2 ^ C.bits) (C.G.scaleE 1 x)))

lemma Curve.cell_none (C : Curve w) : C.cell none = none := by
  simp [Curve.cell, Format.conv, Format.scale, nclamp, nanLt, toUnsigned]

lemma Curve.cell_some (C : Curve w) (x : EReal) : C.cell (some x) = toUnsigned w (some (C.cellE x)) := by
  unfold Curve.cell Curve.cellE
  rw [Format.conv_some, Format.scale_some, nclamp_some, Format.conv_some]

lemma Curve.hi_nonneg (C : Curve w) : 0 ≤ C.G.rnd (2 ^ C.bits - 1) := by
  have h : (0 : ℝ) ≤ 2 ^ C.bits - 1 := by
    have : (1 : ℝ) ≤ 2 ^ C.bits := one_le_pow₀ (by norm_num)
    linarith
  calc (0 : EReal) = C.G.rnd 0 := C.G.rnd_zero.symm
    _ ≤ _ := C.G.mono h

lemma Curve.cellE_mono (C : Curve w) : Monotone C.cellE := by
  intro x y h
  exact C.H.scaleE_mono zero_le_one (clamp_mono C.hi_nonneg (C.G.scaleE_mono (by positivity) (C.G.scaleE_mono zero_le_one h)))

lemma Curve.cellE_bounds {C : Curve w} (x : EReal) {m : ℝ} (hm : C.G.rnd (2 ^ C.bits - 1) ≤ (m : EReal)) (hh : C.H.rnd m = (m : EReal)) :
    0 ≤ C.cellE x ∧ C.cellE x ≤ (m : EReal) := by
  have h := clamp_bounds C.hi_nonneg (C.G.scaleE (2 ^ C.bits) (C.G.scaleE 1 x))
  constructor
  · have := C.H.scaleE_mono zero_le_one h.1
    rwa [show (0 : EReal) = ((0 : ℝ) : EReal) from rfl, C.H.scaleE_coe, zero_mul, C.H.rnd_zero'] at this
  · have := C.H.scaleE_mono zero_le_one (h.2.trans hm)
    rwa [C.H.scaleE_coe, mul_one, hh] at this

lemma Curve.Ok.bounds {C : Curve w} (h : C.Ok) (x : EReal) : 0 ≤ C.cellE x ∧ C.cellE x ≤ ((2 ^ C.bits : ℝ) : EReal) := by
  refine Curve.cellE_bounds x ?_ h.h
  rw [← h.g]
  exact C.G.mono (by linarith)

lemma Curve.Ok.cell {C : Curve w} (h : C.Ok) (x : EReal) : ∃ y : ℝ, C.cellE x = y ∧ C.cell (some x) = some ⌊y⌋₊ := by
  obtain ⟨h0, h1⟩ := h.bounds x
  rw [C.cell_some]
  generalize C.cellE x = y at h0 h1
  induction y using EReal.rec with
  | bot => exact absurd h0 (by simp)
  | top => exact absurd h1 (not_le.mpr (EReal.coe_lt_top _))
  | coe y =>
    refine ⟨y, rfl, ?_⟩
    have h0' : (0 : ℝ) ≤ y := by exact_mod_cast h0
    have h1' : y ≤ 2 ^ C.bits := by exact_mod_cast h1
    have : (2 : ℝ) ^ C.bits < 2 ^ w := pow_lt_pow_right₀ (by norm_num) h.bits
    unfold toUnsigned
    dsimp only
    rw [if_neg (by simp), EReal.toReal_coe, if_pos ⟨by linarith, by linarith⟩]

/-- A cell is defined exactly if the coordinate is a number. -/
lemma Curve.Ok.cell_isSome {C : Curve w} (h : C.Ok) (p : Num) : (C.cell p).isSome = p.isSome := by
  cases p with
  | none => rw [C.cell_none]; rfl
  | some x =>
    obtain ⟨y, _, e⟩ := h.cell x
    rw [e]; rfl

lemma Curve.Ok.morton_isSome {C : Curve w} (h : C.Ok) (p : Fin D → Num) : (C.morton p).isSome ↔ ∀ d, (p d).isSome := by
  unfold Curve.morton
  split_ifs with h1
  · simp only [Option.isSome_some, true_iff]
    intro d
    rw [← h.cell_isSome]
    exact List.all_eq_true.mp h1 d (List.mem_finRange d)
  · simp only [Option.isSome_none, Bool.false_eq_true, false_iff]
    intro h2
    exact h1 (List.all_eq_true.mpr fun d _ => by rw [h.cell_isSome]; exact h2 d)

lemma Curve.Ok.project_isSome {C : Curve w} (h : C.Ok) (F : Format) (M : ℝ) (geo : List (Hull D)) (c : Fin D → Num) :
    (C.project F M geo c).isSome ↔ ∀ d, (F.place (c d) (some (sceneLo M geo d : EReal)) (some (sceneHi M geo d : EReal))).isSome := h.morton_isSome _

lemma place_eq (F : Format) (x : Num) (a : EReal) : F.place x (some a) (some a) = some 0 := by
  unfold Format.place
  rw [if_neg (by simp [nanNe])]

lemma place_ne (F : Format) (x : Num) {a b : ℝ} (h : a ≠ b) :
    F.place x (some (a : EReal)) (some (b : EReal)) = F.quotient (F.nsub x (some (a : EReal))) (F.nsub (some (b : EReal)) (some (a : EReal))) := by
  unfold Format.place
  rw [if_pos]
  simpa [nanNe] using h

lemma nsub_coe (F : Format) (x y : ℝ) : F.nsub (some (x : EReal)) (some (y : EReal)) = some (F.rnd (x - y)) := by
  unfold Format.nsub
  dsimp only
  rw [if_neg (by simp), if_neg (by simp), if_neg (by simp), EReal.toReal_coe, EReal.toReal_coe]

/-- `x - a` for a finite `a`. -/
noncomputable def Format.offE (F : Format) (a : ℝ) (x : EReal) : EReal := if x = ⊤ ∨ x = ⊥ then x else F.rnd (x.toReal - a)

lemma nsub_num (F : Format) (x : EReal) (y : ℝ) : F.nsub (some x) (some (y : EReal)) = some (F.offE y x) := by
  induction x using EReal.rec with
  | bot => simp [Format.nsub, Format.offE]
  | top => simp [Format.nsub, Format.offE]
  | coe x =>
    rw [nsub_coe]
    unfold Format.offE
    rw [if_neg (by simp), EReal.toReal_coe]

lemma offE_coe (F : Format) (a x : ℝ) : F.offE a x = F.rnd (x - a) := by
  unfold Format.offE
  rw [if_neg (by simp), EReal.toReal_coe]

lemma offE_mono (F : Format) (a : ℝ) : Monotone (F.offE a) := by
  intro x y h
  induction x using EReal.rec with
  | bot => simp [Format.offE]
  | top => rw [top_le_iff] at h; rw [h]
  | coe x =>
    induction y using EReal.rec with
    | bot => exact absurd h (by simp)
    | top => simp [Format.offE]
    | coe y =>
      unfold Format.offE
      rw [if_neg (by simp), if_neg (by simp), EReal.toReal_coe, EReal.toReal_coe]
      exact F.mono (sub_le_sub_right (EReal.coe_le_coe_iff.mp h) a)

/-- If the extent of the scene neither overflows nor is rounded to zero, the place is a number, and monotone. -/
lemma place_num (F : Format) {a b : ℝ} (hab : a < b) {s : ℝ} (hs : F.rnd (b - a) = s) (h0 : s ≠ 0) (x : EReal) :
    F.place (some x) (some (a : EReal)) (some (b : EReal)) = some (F.rayQuot (F.offE a x) s) := by
  rw [place_ne F _ hab.ne, nsub_num, nsub_coe, hs]
  unfold Format.quotient
  dsimp only
  rw [if_neg (by simp), if_neg (by exact_mod_cast h0), EReal.toReal_coe]

lemma extent_coe {F : Format} {a b : ℝ} (hab : a < b) (h1 : F.rnd (b - a) ≠ ⊤) (h0 : F.rnd (b - a) ≠ 0) : ∃ s : ℝ, F.rnd (b - a) = s ∧ 0 < s := by
  have h : 0 ≤ F.rnd (b - a) := by
    calc (0 : EReal) = F.rnd 0 := F.rnd_zero.symm
      _ ≤ _ := F.mono (by linarith)
  generalize F.rnd (b - a) = e at *
  induction e using EReal.rec with
  | bot => exact absurd h (by simp)
  | top => exact absurd rfl h1
  | coe s =>
    refine ⟨s, rfl, lt_of_le_of_ne (by exact_mod_cast h) ?_⟩
    intro e; exact h0 (by rw [← e]; rfl)

/-! ### Corners of the scene -/

lemma foldl_min_le (l : List (Fin D → ℝ)) (d : Fin D) (m : ℝ) :
    l.foldl (fun m v => min m (v d)) m ≤ m ∧ ∀ v ∈ l, l.foldl (fun m v => min m (v d)) m ≤ v d := by
  induction l generalizing m with
  | nil => simp
  | cons v l ih =>
    rw [List.foldl_cons]
    refine ⟨(ih _).1.trans (min_le_left _ _), ?_⟩
    intro u hu
    rcases List.mem_cons.mp hu with rfl | hu
    · exact (ih _).1.trans (min_le_right _ _)
    · exact (ih _).2 u hu

lemma foldl_min_mem (l : List (Fin D → ℝ)) (d : Fin D) (m : ℝ) :
    l.foldl (fun m v => min m (v d)) m = m ∨ ∃ v ∈ l, l.foldl (fun m v => min m (v d)) m = v d := by
  induction l generalizing m with
  | nil => simp
  | cons v l ih =>
    rw [List.foldl_cons]
    rcases ih (min m (v d)) with h | ⟨u, hu, h⟩
    · rcases le_total m (v d) with h' | h'
      · left; rw [h, min_eq_left h']
      · right; exact ⟨v, List.mem_cons_self, by rw [h, min_eq_right h']⟩
    · right; exact ⟨u, List.mem_cons_of_mem _ hu, h⟩

lemma foldl_max_eq (l : List (Fin D → ℝ)) (d : Fin D) (m : ℝ) :
    l.foldl (fun m v => max m (v d)) (-m) = -((l.map (fun v => -v)).foldl (fun m v => min m (v d)) m) := by
  induction l generalizing m with
  | nil => simp
  | cons v l ih =>
    rw [List.foldl_cons, List.map_cons, List.foldl_cons, ← ih]
    congr 1
    rw [Pi.neg_apply, ← max_neg_neg, neg_neg]

/-- The corners are attained, and enclose all vertices. -/
lemma sceneLo_spec {F : Format} {M : ℝ} {geo : List (Hull D)} (h : SceneOk F M geo) (hne : geo ≠ []) (d : Fin D) :
    (∃ g ∈ geo, ∃ v ∈ g, sceneLo M geo d = v d) ∧ ∀ g ∈ geo, ∀ v ∈ g, sceneLo M geo d ≤ v d := by
  refine ⟨?_, fun g hg v hv => (foldl_min_le _ d M).2 v (List.mem_flatten.mpr ⟨g, hg, hv⟩)⟩
  rcases foldl_min_mem geo.flatten d M with e | ⟨v, hv, e⟩
  · obtain ⟨g, hg⟩ := List.exists_mem_of_ne_nil _ hne
    obtain ⟨v, hv⟩ := List.exists_mem_of_ne_nil _ (h.nonempty g hg)
    refine ⟨g, hg, v, hv, le_antisymm ((foldl_min_le _ d M).2 v (List.mem_flatten.mpr ⟨g, hg, hv⟩)) ?_⟩
    rw [sceneLo, e]
    exact (le_abs_self _).trans (h.range g hg v hv d)
  · obtain ⟨g, hg, hv⟩ := List.mem_flatten.mp hv
    exact ⟨g, hg, v, hv, e⟩

lemma sceneHi_spec {F : Format} {M : ℝ} {geo : List (Hull D)} (h : SceneOk F M geo) (hne : geo ≠ []) (d : Fin D) :
    (∃ g ∈ geo, ∃ v ∈ g, sceneHi M geo d = v d) ∧ ∀ g ∈ geo, ∀ v ∈ g, v d ≤ sceneHi M geo d := by
  have hub : ∀ g ∈ geo, ∀ v ∈ g, v d ≤ sceneHi M geo d := by
    intro g hg v hv
    have := (foldl_min_le (geo.flatten.map (fun v => -v)) d M).2 (-v) (List.mem_map_of_mem (List.mem_flatten.mpr ⟨g, hg, hv⟩))
    rw [sceneHi, foldl_max_eq]
    rw [Pi.neg_apply] at this
    linarith
  refine ⟨?_, hub⟩
  rcases foldl_min_mem (geo.flatten.map (fun v => -v)) d M with e | ⟨u, hu, e⟩
  · obtain ⟨g, hg⟩ := List.exists_mem_of_ne_nil _ hne
    obtain ⟨v, hv⟩ := List.exists_mem_of_ne_nil _ (h.nonempty g hg)
    refine ⟨g, hg, v, hv, le_antisymm ?_ (hub g hg v hv)⟩
    rw [sceneHi, foldl_max_eq, e]
    have := h.range g hg v hv d
    linarith [(abs_le.mp this).1]
  · obtain ⟨v, hv, rfl⟩ := List.mem_map.mp hu
    obtain ⟨g, hg, hv⟩ := List.mem_flatten.mp hv
    refine ⟨g, hg, v, hv, ?_⟩
    rw [sceneHi, foldl_max_eq, e, Pi.neg_apply, neg_neg]

/-- Along every axis, the scene is flat, or its extent is a positive number. -/
lemma scene_axis {F : Format} (hF : F.Gradual) {M : ℝ} {geo : List (Hull D)} (h : SceneOk F M geo) (hne : geo ≠ []) (hfit : SceneFits F geo) (d : Fin D) :
    sceneLo M geo d = sceneHi M geo d ∨
      sceneLo M geo d < sceneHi M geo d ∧ ∃ s : ℝ, F.rnd (sceneHi M geo d - sceneLo M geo d) = s ∧ 0 < s := by
  obtain ⟨⟨g, hg, v, hv, e⟩, hlo⟩ := sceneLo_spec h hne d
  obtain ⟨⟨g', hg', v', hv', e'⟩, hhi⟩ := sceneHi_spec h hne d
  have hle : sceneLo M geo d ≤ sceneHi M geo d := by rw [e]; exact hhi g hg v hv
  rcases hle.eq_or_lt with h1 | h1
  · exact .inl h1
  · refine .inr ⟨h1, extent_coe h1 ?_ ?_⟩
    · rw [e, e']; exact hfit g' hg' v' hv' g hg v hv d
    · intro h0
      rw [e, e'] at h0 h1
      exact h1.ne' (hF _ _ (h.rep g' hg' v' hv' d) (h.rep g hg v hv d) h0)

/-- The centroid of a geometry with finite vertices is not NaN, although it may overflow. -/
lemma centroid_num (F : Format) {g : Hull D} (hg : g ≠ []) (d : Fin D) : ∃ x : EReal, F.centroid g d = some x := by
  have hsum : ∀ (vs : Hull D) (s : EReal), ∃ t : EReal, vs.foldl (fun s v => F.nsub s (some ((-(v d) : ℝ) : EReal))) (some s) = some t := by
    intro vs
    induction vs with
    | nil => exact fun s => ⟨s, rfl⟩
    | cons v vs ih =>
      intro s
      rw [List.foldl_cons, nsub_num]
      exact ih _
  match g with
  | [] => exact absurd rfl hg
  | [v] => exact ⟨v d, rfl⟩
  | v :: u :: vs =>
    obtain ⟨t, ht⟩ := hsum (u :: vs) (v d)
    refine ⟨F.rayQuot t ((v :: u :: vs).length : ℝ), ?_⟩
    unfold Format.centroid
    dsimp only
    rw [ht]
    unfold Format.quotient
    dsimp only
    rw [if_neg (by rintro (h | h); exacts [EReal.coe_ne_top _ h, EReal.coe_ne_bot _ h]), if_neg, EReal.toReal_coe]
    intro h
    have h' : ((v :: u :: vs).length : ℝ) = 0 := by exact_mod_cast h
    rw [List.length_cons] at h'
    have : (0 : ℝ) ≤ ((u :: vs).length : ℝ) := by positivity
    push_cast at h'
    linarith

/-! ## Theorems -/

/-- **C103 (partial).** On a tree whose values have finite coordinates and are not so far apart that the difference of two coordinates overflows, the position on the curve of
a predicate is defined wherever its centroid is, infinitely far away included. (Missing: scenes whose extent overflows, for which it is false even for the values
themselves, see `points_positions_defined_iff`; empty trees, `empty_tree_position`; predicates with NaN, `nan_position`.) -/
theorem predicate_position_defined_partial (C : Curve w) (hC : C.Ok) (F : Format) (hF : F.Gradual) (M : ℝ) (geo : List (Hull D)) (h : SceneOk F M geo) (hne : geo ≠ [])
    (hfit : SceneFits F geo) (c : Fin D → EReal) : (C.project F M geo (fun d => some (c d))).isSome := by
  rw [hC.project_isSome]
  intro d
  rcases scene_axis hF h hne hfit d with e | ⟨hlt, s, hs, h0⟩
  · rw [e, place_eq]; rfl
  · rw [place_num F hlt hs h0.ne']; rfl

/-- **C103 (partial).** The constructor of a tree computes a defined position for every value, if the values have finite coordinates and are not so far apart that the difference
of two coordinates overflows; it does not matter if centroids overflow. -/
theorem value_position_defined_partial (C : Curve w) (hC : C.Ok) (F : Format) (hF : F.Gradual) (M : ℝ) (geo : List (Hull D)) (h : SceneOk F M geo)
    (hfit : SceneFits F geo) (g : Hull D) (hg : g ∈ geo) : (C.project F M geo (F.centroid g)).isSome := by
  have hc : ∀ d, ∃ x : EReal, F.centroid g d = some x := centroid_num F (h.nonempty g hg)
  choose c hc using hc
  rw [show F.centroid g = fun d => some (c d) from funext hc]
  exact predicate_position_defined_partial C hC F hF M geo h (List.ne_nil_of_mem hg) hfit c

/-- **C103.** The constructor of a tree of points has no undefined behaviour in the computation of the positions exactly if no difference of coordinates of two of the points
overflows: building a tree of finite points that are too far apart is undefined. -/
theorem points_positions_defined_iff (C : Curve w) (hC : C.Ok) (F : Format) (hF : F.Gradual) (M : ℝ) (pts : List (Fin D → ℝ))
    (h : SceneOk F M (pts.map fun p => [p])) :
    (∀ p ∈ pts, (C.project F M (pts.map fun p => [p]) (F.centroid [p])).isSome) ↔ ∀ p ∈ pts, ∀ q ∈ pts, ∀ d, F.rnd (p d - q d) ≠ ⊤ := by
  constructor
  · intro hdef p hp q hq d hov
    have hne : pts.map (fun p => [p]) ≠ [] := by
      intro e; rw [List.map_eq_nil_iff] at e; rw [e] at hp; simp at hp
    obtain ⟨⟨_, hg, v, hv, e⟩, hlo⟩ := sceneLo_spec h hne d
    obtain ⟨⟨_, hg', v', hv', e'⟩, hhi⟩ := sceneHi_spec h hne d
    obtain ⟨u, hu, rfl⟩ := List.mem_map.mp hg'
    have := List.mem_singleton.mp hv'
    subst this
    have h1 : F.rnd (sceneHi M (pts.map fun p => [p]) d - sceneLo M (pts.map fun p => [p]) d) = ⊤ := by
      refine top_le_iff.mp (hov ▸ F.mono ?_)
      have h2 := hhi [p] (List.mem_map.mpr ⟨p, hp, rfl⟩) p (by simp)
      have h3 := hlo [q] (List.mem_map.mpr ⟨q, hq, rfl⟩) q (by simp)
      linarith
    have h4 : sceneLo M (pts.map fun p => [p]) d ≠ sceneHi M (pts.map fun p => [p]) d := by
      intro e2
      rw [e2, sub_self, F.rnd_zero] at h1
      exact absurd h1 (by simp)
    have h5 := hdef v' hu
    rw [hC.project_isSome] at h5
    have h6 := h5 d
    rw [place_ne F _ h4, show F.centroid [v'] d = some ((sceneHi M (pts.map fun p => [p]) d : ℝ) : EReal) by rw [e']; rfl, nsub_coe, h1] at h6
    simp [Format.quotient] at h6
  · intro hfit p hp
    refine value_position_defined_partial C hC F hF M _ h ?_ [p] (List.mem_map.mpr ⟨p, hp, rfl⟩)
    intro g hg v hv g' hg' v' hv' d
    obtain ⟨u, hu, rfl⟩ := List.mem_map.mp hg
    obtain ⟨u', hu', rfl⟩ := List.mem_map.mp hg'
    rw [List.mem_singleton.mp hv, List.mem_singleton.mp hv']
    exact hfit u hu u' hu' d

/-- **C103 (limits).** On an empty tree (of a type whose largest number is `M`), the position of a predicate at a finite place is defined exactly if the difference of its
coordinates to `M` does not overflow: a query of an empty tree for something very far in the negative direction is undefined, if predicates are sorted. -/
theorem empty_tree_position (C : Curve w) (hC : C.Ok) (F : Format) (M : ℝ) (hM : 0 < M) (hov : F.rnd (M + M) = ⊤) (c : Fin D → ℝ) (hc : ∀ d, c d ≤ M) :
    (C.project F M ([] : List (Hull D)) (fun d => some (c d : EReal))).isSome ↔ ∀ d, F.rnd (c d - M) ≠ ⊥ := by
  rw [hC.project_isSome]
  refine forall_congr' fun d => ?_
  have e1 : sceneLo M ([] : List (Hull D)) d = M := rfl
  have e2 : sceneHi M ([] : List (Hull D)) d = -M := rfl
  have e3 : F.rnd (-M - M) = ⊥ := by
    rw [show -M - M = -(M + M) by ring, F.neg, hov]; rfl
  rw [e1, e2, place_ne F _ (by linarith : M ≠ -M), nsub_coe, nsub_coe, e3]
  unfold Format.quotient
  dsimp only
  rw [if_pos (.inr rfl)]
  have htop : F.rnd (c d - M) ≠ ⊤ := by
    intro h
    have : F.rnd (c d - M) ≤ F.rnd 0 := F.mono (by linarith [hc d])
    rw [h, F.rnd_zero] at this
    exact absurd this (by simp)
  by_cases h : F.rnd (c d - M) = ⊥
  · simp [h]
  · rw [if_neg (by simp [h, htop])]
    simp [h]

/-- **C103 (limits).** The position of a predicate with a NaN coordinate is undefined, unless the scene is flat along this axis. -/
theorem nan_position (C : Curve w) (hC : C.Ok) (F : Format) (hF : F.Gradual) (M : ℝ) (geo : List (Hull D)) (h : SceneOk F M geo) (hne : geo ≠ [])
    (hfit : SceneFits F geo) (c : Fin D → Num) :
    (C.project F M geo c).isSome ↔ ∀ d, c d = none → ∀ g ∈ geo, ∀ v ∈ g, ∀ g' ∈ geo, ∀ v' ∈ g', v d = v' d := by
  rw [hC.project_isSome]
  refine forall_congr' fun d => ?_
  have hflat : sceneLo M geo d = sceneHi M geo d ↔ ∀ g ∈ geo, ∀ v ∈ g, ∀ g' ∈ geo, ∀ v' ∈ g', v d = v' d := by
    obtain ⟨⟨g, hg, v, hv, e⟩, hlo⟩ := sceneLo_spec h hne d
    obtain ⟨⟨g', hg', v', hv', e'⟩, hhi⟩ := sceneHi_spec h hne d
    constructor
    · intro e1 g hg v hv g' hg' v' hv'
      have := hlo g hg v hv
      have := hlo g' hg' v' hv'
      have := hhi g hg v hv
      have := hhi g' hg' v' hv'
      linarith
    · intro h1
      rw [e, e']
      exact h1 g hg v hv g' hg' v' hv'
  rcases scene_axis hF h hne hfit d with e | ⟨hlt, s, hs, h0⟩
  · have := hflat.mp e
    rw [e, place_eq]
    simp only [Option.isSome_some, true_iff]
    exact fun _ => this
  · have hn : ¬ (∀ g ∈ geo, ∀ v ∈ g, ∀ g' ∈ geo, ∀ v' ∈ g', v d = v' d) := fun h1 => hlt.ne (hflat.mpr h1)
    cases hcd : c d with
    | none =>
      rw [place_ne F _ hlt.ne]
      simp only [Format.nsub, Format.quotient, Option.isSome_none, Bool.false_eq_true, true_implies, false_iff]
      exact hn
    | some x =>
      rw [place_num F hlt hs h0.ne']
      simp

/-- **C103 (limits).** Where differences of different numbers are rounded to zero (subnormal numbers are flushed), building a tree of two points can be undefined although no
difference overflows. -/
theorem flushed_position (C : Curve w) (hC : C.Ok) (F : Format) (M a b : ℝ) (hab : a < b) (hflush : F.rnd (b - a) = 0) (ha : -M ≤ a) (hb : b ≤ M) :
    C.project F M [[fun _ : Fin 1 => a], [fun _ => b]] (F.centroid [fun _ => a]) = none := by
  rw [← Option.not_isSome_iff_eq_none]
  rw [hC.project_isSome]
  intro h
  have h0 := h 0
  have e1 : sceneLo M [[fun _ : Fin 1 => a], [fun _ => b]] 0 = a := by
    simp only [sceneLo, List.flatten_cons, List.flatten_nil, List.append_nil, List.singleton_append, List.foldl_cons, List.foldl_nil]
    rw [min_eq_right (show a ≤ M by linarith), min_eq_left hab.le]
  have e2 : sceneHi M [[fun _ : Fin 1 => a], [fun _ => b]] 0 = b := by
    simp only [sceneHi, List.flatten_cons, List.flatten_nil, List.append_nil, List.singleton_append, List.foldl_cons, List.foldl_nil]
    rw [max_eq_right ha, max_eq_right hab.le]
  rw [e1, e2, place_ne F _ hab.ne, nsub_coe, hflush, show F.centroid [fun _ : Fin 1 => a] 0 = some (a : EReal) from rfl, nsub_coe, sub_self, F.rnd_zero] at h0
  simp [Format.quotient] at h0

/-! ### Cells -/

lemma Curve.Fine.cell_lt {C : Curve w} {F : Format} (h : C.Fine F) (p : Num) : (C.cell p).getD 0 < 2 ^ C.bits := by
  cases p with
  | none => rw [C.cell_none]; exact Nat.two_pow_pos _
  | some x =>
    obtain ⟨y, hy, e⟩ := h.toOk.cell x
    rw [e, Option.getD_some]
    have hb := (Curve.cellE_bounds (C := C) x h.glast.le h.hlast).2
    rw [hy, EReal.coe_le_coe_iff] at hb
    have h0 := (h.toOk.bounds x).1
    rw [hy] at h0
    rw [Nat.floor_lt (by exact_mod_cast h0)]
    push_cast
    linarith

lemma Curve.Ok.cell_mono {C : Curve w} (h : C.Ok) {x y : EReal} (hxy : x ≤ y) : (C.cell (some x)).getD 0 ≤ (C.cell (some y)).getD 0 := by
  obtain ⟨a, ha, e⟩ := h.cell x
  obtain ⟨b, hb, e'⟩ := h.cell y
  rw [e, e', Option.getD_some, Option.getD_some]
  have := C.cellE_mono hxy
  rw [ha, hb, EReal.coe_le_coe_iff] at this
  exact Nat.floor_mono this

lemma Curve.Ok.cell_zero {C : Curve w} (h : C.Ok) {x : EReal} (hx : x ≤ 0) : (C.cell (some x)).getD 0 = 0 := by
  refine Nat.le_zero.mp ((h.cell_mono hx).trans (le_of_eq ?_))
  obtain ⟨a, ha, e⟩ := h.cell 0
  have hz : C.cellE 0 = ((0 : ℝ) : EReal) := by
    unfold Curve.cellE
    rw [show (0 : EReal) = ((0 : ℝ) : EReal) from rfl, C.G.scaleE_coe, zero_mul, C.G.rnd_zero', C.G.scaleE_coe, zero_mul, C.G.rnd_zero']
    dsimp only
    rw [if_neg (lt_irrefl _), if_neg (show ¬ C.G.rnd (2 ^ C.bits - 1) < ((0 : ℝ) : EReal) from not_lt.mpr C.hi_nonneg), C.H.scaleE_coe, zero_mul, C.H.rnd_zero']
  rw [hz, EReal.coe_eq_coe_iff] at ha
  rw [e, ← ha]
  simp

lemma Curve.Fine.cell_one {C : Curve w} {F : Format} (h : C.Fine F) {x : EReal} (hx : ((1 : ℝ) : EReal) ≤ x) : (C.cell (some x)).getD 0 = 2 ^ C.bits - 1 := by
  refine le_antisymm (Nat.le_sub_one_of_lt (h.cell_lt _)) (le_trans (le_of_eq ?_) (h.toOk.cell_mono hx))
  obtain ⟨a, ha, e⟩ := h.toOk.cell ((1 : ℝ) : EReal)
  have hz : C.cellE ((1 : ℝ) : EReal) = ((2 ^ C.bits - 1 : ℝ) : EReal) := by
    unfold Curve.cellE
    rw [C.G.scaleE_coe, one_mul, h.gone, C.G.scaleE_coe, one_mul, h.g]
    dsimp only
    have hN : (0 : ℝ) < 2 ^ C.bits := by positivity
    rw [if_neg (not_lt.mpr (by exact_mod_cast hN.le)), h.glast, if_pos (by exact_mod_cast (by linarith : (2 ^ C.bits - 1 : ℝ) < 2 ^ C.bits)),
      C.H.scaleE_coe, mul_one, h.hlast]
  rw [hz, EReal.coe_eq_coe_iff] at ha
  rw [e, ← ha, Option.getD_some]
  have : (2 ^ C.bits - 1 : ℝ) = ((2 ^ C.bits - 1 : ℕ) : ℝ) := by
    rw [Nat.cast_sub Nat.one_le_two_pow]; push_cast; rfl
  rw [this, Nat.floor_natCast]

/-- **C103 (partial).** On such a tree, the position of an object is the interleaving of numbers of cells, one for each coordinate of its centroid. Along each axis the cells are
numbered in increasing order; everything at or before the lowest vertex of the scene is in the first cell, and everything at or beyond the highest in the last (if
they differ). -/
theorem position_interleaves_partial (C : Curve w) (F : Format) (hC : C.Fine F) (hD : 0 < D) (hw : D * C.bits ≤ w) (he : IsSpread D C.bits C.expand)
    (hF : F.Gradual) (M : ℝ) (geo : List (Hull D)) (h : SceneOk F M geo) (hne : geo ≠ []) (hfit : SceneFits F geo) :
    ∃ cell : Fin D → EReal → ℕ, (∀ d, Monotone (cell d)) ∧ (∀ d x, cell d x < 2 ^ C.bits) ∧
      (∀ d x, (∀ g ∈ geo, ∀ v ∈ g, x ≤ (v d : EReal)) → cell d x = 0) ∧
      (∀ d x, (∀ g ∈ geo, ∀ v ∈ g, (v d : EReal) ≤ x) → (∃ g ∈ geo, ∃ v ∈ g, ∃ g' ∈ geo, ∃ v' ∈ g', v d < v' d) → cell d x = 2 ^ C.bits - 1) ∧
      ∀ c : Fin D → EReal, ∃ code, C.project F M geo (fun d => some (c d)) = some code ∧
        IsInterleaving D C.bits (fun d => if hd : d < D then cell ⟨d, hd⟩ (c ⟨d, hd⟩) else 0) code.toNat := by
  refine ⟨fun d x => (C.cell (F.place (some x) (some (sceneLo M geo d : EReal)) (some (sceneHi M geo d : EReal)))).getD 0, ?_, ?_, ?_, ?_, ?_⟩
  · intro d x y hxy
    dsimp only
    rcases scene_axis hF h hne hfit d with e | ⟨hlt, s, hs, h0⟩
    · rw [e, place_eq, place_eq]
    · rw [place_num F hlt hs h0.ne', place_num F hlt hs h0.ne']
      exact hC.toOk.cell_mono (F.rayQuot_mono h0 (offE_mono F _ hxy))
  · exact fun d x => hC.cell_lt _
  · intro d x hx
    dsimp only
    rcases scene_axis hF h hne hfit d with e | ⟨hlt, s, hs, h0⟩
    · rw [e, place_eq]; exact hC.toOk.cell_zero le_rfl
    · rw [place_num F hlt hs h0.ne']
      refine hC.toOk.cell_zero ?_
      obtain ⟨⟨g, hg, v, hv, e⟩, -⟩ := sceneLo_spec h hne d
      have hx' := hx g hg v hv
      rw [← e] at hx'
      have := F.rayQuot_mono h0 (offE_mono F (sceneLo M geo d) hx')
      rwa [offE_coe, sub_self, F.rnd_zero', F.rayQuot_coe, zero_div, F.rnd_zero] at this
  · intro d x hx ⟨g, hg, v, hv, g', hg', v', hv', hvv⟩
    dsimp only
    rcases scene_axis hF h hne hfit d with e | ⟨hlt, s, hs, h0⟩
    · have := (sceneLo_spec h hne d).2 g hg v hv
      have := (sceneHi_spec h hne d).2 g' hg' v' hv'
      linarith
    · rw [place_num F hlt hs h0.ne']
      refine hC.cell_one ?_
      obtain ⟨⟨g, hg, v, hv, e⟩, -⟩ := sceneHi_spec h hne d
      have hx' := hx g hg v hv
      rw [← e] at hx'
      have := F.rayQuot_mono h0 (offE_mono F (sceneLo M geo d) hx')
      rwa [offE_coe, hs, F.rayQuot_coe, div_self h0.ne', hC.fone] at this
  · intro c
    obtain ⟨code, hcode⟩ := Option.isSome_iff_exists.mp (predicate_position_defined_partial C hC.toOk F hF M geo h hne hfit c)
    refine ⟨code, hcode, ?_⟩
    unfold Curve.project Curve.position Curve.morton at hcode
    split_ifs at hcode with h1
    rw [← Option.some.inj hcode]
    exact codeLoop_interleaving hD he hw _

/-- **C103 (partial).** The computed centroid of a box or a segment lies between its ends along every axis, if twice their coordinates do not overflow; so a box is placed where
it is. (If they do, the centroid may be infinite.) -/
theorem centroid_between_partial (F : Format) (u v : Fin D → ℝ) (d : Fin D) (huv : u d ≤ v d) (hu : F.rnd (u d) = (u d : EReal)) (hv : F.rnd (v d) = (v d : EReal))
    (hu2 : F.rnd (2 * u d) = ((2 * u d : ℝ) : EReal)) (hv2 : F.rnd (2 * v d) = ((2 * v d : ℝ) : EReal)) :
    ∃ x : ℝ, F.centroid [u, v] d = some (x : EReal) ∧ u d ≤ x ∧ x ≤ v d := by
  have squeeze : ∀ {a b t : ℝ}, F.rnd a = (a : EReal) → F.rnd b = (b : EReal) → a ≤ t → t ≤ b → ∃ y : ℝ, F.rnd t = y ∧ a ≤ y ∧ y ≤ b := by
    intro a b t ha hb h1 h2
    have l := F.mono h1
    have r := F.mono h2
    rw [ha] at l
    rw [hb] at r
    generalize F.rnd t = e at l r
    induction e using EReal.rec with
    | bot => exact absurd l (by simp)
    | top => exact absurd r (by simp)
    | coe y => exact ⟨y, rfl, by exact_mod_cast l, by exact_mod_cast r⟩
  obtain ⟨s, hs, h1, h2⟩ := squeeze hu2 hv2 (t := u d - -(v d)) (by linarith) (by linarith)
  obtain ⟨x, hx, h3, h4⟩ := squeeze hu hv (t := s / 2) (by linarith) (by linarith)
  refine ⟨x, ?_, h3, h4⟩
  unfold Format.centroid
  dsimp only [List.foldl_cons, List.foldl_nil]
  rw [nsub_coe, hs]
  unfold Format.quotient
  dsimp only
  have h2' : (([u, v].length : ℕ) : ℝ) = 2 := by norm_num
  have h0 : ¬ (((2 : ℝ) : EReal) = 0) := by
    intro h
    have : (2 : ℝ) = 0 := by exact_mod_cast h
    norm_num at this
  rw [h2', if_neg (by rintro (h | h); exacts [EReal.coe_ne_top _ h, EReal.coe_ne_bot _ h]), if_neg h0, EReal.toReal_coe, F.rayQuot_coe, hx]

/-- **C103 (partial).** The positions of `Morton64` leave the highest bit clear, as the constructor of the tree needs it (C03). -/
theorem position_top_bit_partial (C : Curve 64) (F : Format) (hC : C.Fine F) (hD : 0 < D) (hw : D * C.bits ≤ 63) (he : IsSpread D C.bits C.expand)
    (hF : F.Gradual) (M : ℝ) (geo : List (Hull D)) (h : SceneOk F M geo) (hfit : SceneFits F geo) (g : Hull D) (hg : g ∈ geo) :
    ∃ code, C.project F M geo (F.centroid g) = some code ∧ code.toNat < 2 ^ 63 := by
  have hc : ∀ d, ∃ x : EReal, F.centroid g d = some x := centroid_num F (h.nonempty g hg)
  choose c hc using hc
  rw [show F.centroid g = fun d => some (c d) from funext hc]
  obtain ⟨cell, -, -, -, -, hcode⟩ := position_interleaves_partial C F hC hD (by omega) he hF M geo h (List.ne_nil_of_mem hg) hfit
  obtain ⟨code, e, hi⟩ := hcode c
  refine ⟨code, e, Nat.lt_pow_two_of_testBit _ fun j hj => ?_⟩
  rw [hi j]
  have : ¬ j / D < C.bits := by
    rw [Nat.div_lt_iff_lt_mul hD, mul_comm]
    omega
  simp [this]

/-! ## The IEEE types -/

namespace Ieee

variable {p : ℕ} {emin emax : ℤ}

lemma near_nat (he : emin ≤ 0) {n : ℕ} (hn : n < 2 ^ p) : near p emin (n : ℝ) = n := by
  rcases Nat.eq_zero_or_pos n with rfl | h0
  · simpa using near_zero (p := p) (emin := emin)
  have hpos : (0 : ℝ) < (n : ℝ) := by exact_mod_cast h0
  have hlog : Int.log 2 (n : ℝ) < p := by
    rw [← Int.lt_zpow_iff_log_lt (by norm_num) hpos]
    exact_mod_cast hn
  have hu : ulpExp p emin (n : ℝ) ≤ 0 := by unfold ulpExp; omega
  have hs := zpow_split hu
  rw [zpow_zero] at hs
  refine near_of_mul ((n : ℤ) * 2 ^ (0 - ulpExp p emin (n : ℝ)).toNat) ?_
  push_cast at hs ⊢
  rw [mul_assoc, ← hs, mul_one]

lemma rnd_nat (he : emin ≤ 0) {n : ℕ} (hn : n < 2 ^ p) (hm : (n : ℝ) < 2 ^ emax) : rnd p emin emax (n : ℝ) = ((n : ℝ) : EReal) := by
  unfold rnd pos
  rw [if_pos (Nat.cast_nonneg n), near_nat he hn, if_pos hm]

lemma rnd_pow (hp : 1 ≤ p) (he : emin ≤ 0) {k : ℕ} (hk : (k : ℤ) < emax) : rnd p emin emax (2 ^ k) = ((2 ^ k : ℝ) : EReal) := by
  have e : ((2 : ℝ) ^ k) = 2 ^ (k : ℤ) := (zpow_natCast _ _).symm
  rw [e]
  unfold rnd pos
  rw [if_pos (by positivity), near_pow hp (by omega), if_pos (zpow_lt_zpow_right₀ (by norm_num) hk)]

/-- Numbers of the type are multiples of the smallest one. -/
lemma multiple {x : ℝ} (h : rnd p emin emax x = x) : ∃ z : ℤ, x = z * 2 ^ emin := by
  have key : ∀ y : ℝ, pos p emin emax y = (y : EReal) → ∃ z : ℤ, y = z * 2 ^ emin := by
    intro y hy
    unfold pos at hy
    split_ifs at hy with h1
    · rw [EReal.coe_eq_coe_iff] at hy
      have hle : emin ≤ ulpExp p emin y := le_max_right _ _
      refine ⟨roundEven (y / 2 ^ ulpExp p emin y) * 2 ^ (ulpExp p emin y - emin).toNat, ?_⟩
      have hs := zpow_split hle
      conv_lhs => rw [← hy]
      unfold near
      push_cast at hs ⊢
      rw [mul_assoc, ← hs]
    · exact absurd hy.symm (EReal.coe_ne_top y)
  unfold rnd at h
  split_ifs at h with h1
  · exact key x h
  · have h2 : pos p emin emax (-x) = ((-x : ℝ) : EReal) := by rw [EReal.coe_neg, ← h, neg_neg]
    obtain ⟨z, hz⟩ := key _ h2
    exact ⟨-z, by push_cast; linarith⟩

lemma gradual (hp : 1 ≤ p) (he : emin < emax) (fma : Bool) : (format p hp emin emax fma).Gradual := by
  have key : ∀ z : ℤ, 0 < z → rnd p emin emax (z * 2 ^ emin) ≠ 0 := by
    intro z hz h0
    have h1 : (2 : ℝ) ^ emin ≤ z * 2 ^ emin := by
      have : (1 : ℝ) ≤ z := by exact_mod_cast hz
      exact le_mul_of_one_le_left (ulp_pos emin).le this
    have h2 := rnd_mono (p := p) (emin := emin) (emax := emax) hp h1
    have h3 : rnd p emin emax ((2 : ℝ) ^ emin) = (((2 : ℝ) ^ emin : ℝ) : EReal) := by
      unfold rnd pos
      rw [if_pos (ulp_pos emin).le, near_pow hp le_rfl, if_pos (zpow_lt_zpow_right₀ (by norm_num) he)]
    rw [h3, h0] at h2
    have h4 : (2 : ℝ) ^ emin ≤ 0 := by exact_mod_cast h2
    exact absurd (ulp_pos emin) (not_lt.mpr h4)
  intro x y hx hy h0
  obtain ⟨z, hz⟩ := multiple (p := p) (emin := emin) (emax := emax) hx
  obtain ⟨z', hz'⟩ := multiple (p := p) (emin := emin) (emax := emax) hy
  have e : x - y = ((z - z' : ℤ) : ℝ) * 2 ^ emin := by rw [hz, hz']; push_cast; ring
  change rnd p emin emax (x - y) = 0 at h0
  rcases lt_trichotomy (z - z') 0 with h | h | h
  · refine absurd ?_ (key (-(z - z')) (by omega))
    rw [show ((-(z - z') : ℤ) : ℝ) * 2 ^ emin = -(x - y) by rw [e]; push_cast; ring, rnd_neg, h0, neg_zero]
  · rw [h] at e; simp at e; linarith
  · rw [e] at h0
    exact absurd h0 (key _ h)

/-- The types `float` and `double` have subnormal numbers. -/
lemma gradual_float (fma : Bool) : (float fma).Gradual := gradual _ (by norm_num) fma

lemma gradual_double (fma : Bool) : (double fma).Gradual := gradual _ (by norm_num) fma

lemma fine {w : ℕ} {C : Curve w} {F : Format} {p p' p'' : ℕ} (hp : 1 ≤ p) (hp' : 1 ≤ p') (hp'' : 1 ≤ p'') {e e' e'' m m' m'' : ℤ} {b b' b'' : Bool}
    (hG : C.G = format p hp e m b) (hH : C.H = format p' hp' e' m' b') (hF : F = format p'' hp'' e'' m'' b'')
    (h1 : C.bits < w) (h2 : C.bits ≤ p) (h3 : C.bits ≤ p') (he : e ≤ 0) (he' : e' ≤ 0) (he'' : e'' ≤ 0)
    (hm : (C.bits : ℤ) < m) (hm' : (C.bits : ℤ) < m') (hm'' : 0 < m'') : C.Fine F := by
  have hlast : ((2 ^ C.bits - 1 : ℕ) : ℝ) = (2 : ℝ) ^ C.bits - 1 := by
    rw [Nat.cast_sub Nat.one_le_two_pow]; push_cast; rfl
  have hlt : ∀ {q : ℕ}, C.bits ≤ q → 2 ^ C.bits - 1 < 2 ^ q := by
    intro q hq
    have := Nat.pow_le_pow_right (n := 2) (by norm_num) hq
    have := Nat.two_pow_pos C.bits
    omega
  have hsmall : ∀ {m : ℤ}, (C.bits : ℤ) < m → ((2 ^ C.bits - 1 : ℕ) : ℝ) < 2 ^ m := by
    intro m hm
    rw [hlast]
    have : (2 : ℝ) ^ (C.bits : ℤ) < 2 ^ m := zpow_lt_zpow_right₀ (by norm_num) hm
    rw [zpow_natCast] at this
    linarith
  have hone : ∀ {p : ℕ} {e m : ℤ}, 1 ≤ p → e ≤ 0 → 0 < m → rnd p e m 1 = ((1 : ℝ) : EReal) := by
    intro p e m hp he hm
    have := rnd_pow (p := p) (emin := e) (emax := m) hp he (k := 0) (by exact_mod_cast hm)
    simpa using this
  refine { bits := h1, g := ?_, h := ?_, glast := ?_, hlast := ?_, gone := ?_, fone := ?_ }
  · rw [hG]; exact rnd_pow hp he hm
  · rw [hH]; exact rnd_pow hp' he' hm'
  · rw [hG, ← hlast]; exact rnd_nat he (hlt h2) (hsmall hm)
  · rw [hH, ← hlast]; exact rnd_nat he' (hlt h3) (hsmall hm')
  · rw [hG]; exact hone hp he (by omega)
  · rw [hF]; exact hone hp'' he'' hm''

end Ieee

/-- What the theorems above assume of the curve holds for `Morton32` and `Morton64` in 2 to 10 dimensions, for coordinates of type `float` and `double`. -/
theorem morton_curves_fine (D : ℕ) (h2 : 2 ≤ D) (h10 : D ≤ 10) (b b' b'' : Bool) (F : Format) (hF : F = Ieee.float b ∨ F = Ieee.double b) :
    ((curve32 F (Ieee.float b') D).Fine F ∧ D * (curve32 F (Ieee.float b') D).bits ≤ 32 ∧
      IsSpread D (curve32 F (Ieee.float b') D).bits (curve32 F (Ieee.float b') D).expand) ∧
    (curve64 F (Ieee.float b') (Ieee.double b'') D).Fine F ∧ D * (curve64 F (Ieee.float b') (Ieee.double b'') D).bits ≤ 63 ∧
      IsSpread D (curve64 F (Ieee.float b') (Ieee.double b'') D).bits (curve64 F (Ieee.float b') (Ieee.double b'') D).expand := by
  have e32 : bits32 D = 32 / D := by unfold bits32; rw [if_neg (by omega)]
  have l32 : 32 / D ≤ 16 := (Nat.div_le_div_left h2 (by norm_num)).trans (by norm_num)
  have s32 := expand32_spec (D - 1) (by omega)
  rw [Nat.sub_add_cancel (by omega)] at s32
  have s64 := expand64_spec (D - 1) (by omega)
  rw [if_neg (by omega), Nat.sub_add_cancel (by omega)] at s64
  have w64 : D * (63 / D) ≤ 63 := Nat.mul_div_le 63 D
  refine ⟨⟨?_, ?_, ?_⟩, ?_⟩
  · have hb : (curve32 F (Ieee.float b') D).bits ≤ 16 := by
      show bits32 D ≤ 16
      rw [e32]; exact l32
    rcases hF with rfl | rfl
    · exact Ieee.fine (by norm_num) (by norm_num) (by norm_num) rfl rfl rfl (by omega) (by omega) (by omega) (by norm_num) (by norm_num) (by norm_num) (by omega) (by omega) (by norm_num)
    · exact Ieee.fine (by norm_num) (by norm_num) (by norm_num) rfl rfl rfl (by omega) (by omega) (by omega) (by norm_num) (by norm_num) (by norm_num) (by omega) (by omega) (by norm_num)
  · show D * bits32 D ≤ 32
    rw [e32]; exact Nat.mul_div_le 32 D
  · show IsSpread D (bits32 D) (expand32 (D - 1))
    rw [e32]; exact s32
  · unfold curve64
    have l64 : 63 / D ≤ 31 := (Nat.div_le_div_left h2 (by norm_num)).trans (by norm_num)
    by_cases hd : needDouble D
    · rw [if_pos hd]
      refine ⟨?_, w64, s64⟩
      have hb : bits64 D ≤ 31 := l64
      rcases hF with rfl | rfl
      · exact Ieee.fine (by norm_num) (by norm_num) (by norm_num) rfl rfl rfl (show bits64 D < 64 by omega) (show bits64 D ≤ 53 by omega) (show bits64 D ≤ 53 by omega) (by norm_num) (by norm_num) (by norm_num)
          (show (bits64 D : ℤ) < 1024 by omega) (show (bits64 D : ℤ) < 1024 by omega) (by norm_num)
      · exact Ieee.fine (by norm_num) (by norm_num) (by norm_num) rfl rfl rfl (show bits64 D < 64 by omega) (show bits64 D ≤ 53 by omega) (show bits64 D ≤ 53 by omega) (by norm_num) (by norm_num) (by norm_num)
          (show (bits64 D : ℤ) < 1024 by omega) (show (bits64 D : ℤ) < 1024 by omega) (by norm_num)
    · rw [if_neg hd]
      refine ⟨?_, w64, s64⟩
      have hb : bits64 D ≤ 24 := by
        by_contra hc
        refine hd (decide_eq_true ?_)
        calc 16777217 < 2 ^ 25 := by norm_num
          _ ≤ 2 ^ bits64 D := Nat.pow_le_pow_right (by norm_num) (by omega)
      rcases hF with rfl | rfl
      · exact Ieee.fine (by norm_num) (by norm_num) (by norm_num) rfl rfl rfl (show bits64 D < 64 by omega) (show bits64 D ≤ 24 by omega) (show bits64 D ≤ 24 by omega) (by norm_num) (by norm_num) (by norm_num)
          (show (bits64 D : ℤ) < 128 by omega) (show (bits64 D : ℤ) < 128 by omega) (by norm_num)
      · exact Ieee.fine (by norm_num) (by norm_num) (by norm_num) rfl rfl rfl (show bits64 D < 64 by omega) (show bits64 D ≤ 53 by omega) (show bits64 D ≤ 24 by omega) (by norm_num) (by norm_num) (by norm_num)
          (show (bits64 D : ℤ) < 1024 by omega) (show (bits64 D : ℤ) < 128 by omega) (by norm_num)

/-- In one dimension the last cell has a number that `float` and `double` do not have; the assumption of the theorems on definedness holds nevertheless. -/
theorem morton_curves_ok_one (b b' b'' : Bool) (F : Format) (hF : F = Ieee.float b ∨ F = Ieee.double b) :
    (curve32 F (Ieee.float b') 1).Ok ∧ (curve64 F (Ieee.float b') (Ieee.double b'') 1).Ok := by
  have h31 : ∀ {p : ℕ} {e m : ℤ}, 1 ≤ p → e ≤ 0 → 63 < m → Ieee.rnd p e m (2 ^ 31) = ((2 ^ 31 : ℝ) : EReal) := fun hp he hm => Ieee.rnd_pow hp he (by omega)
  have h63 : ∀ {p : ℕ} {e m : ℤ}, 1 ≤ p → e ≤ 0 → 63 < m → Ieee.rnd p e m (2 ^ 63) = ((2 ^ 63 : ℝ) : EReal) := fun hp he hm => Ieee.rnd_pow hp he (by omega)
  have e64 : curve64 F (Ieee.float b') (Ieee.double b'') 1 = ⟨Ieee.double b'', Ieee.double b'', 63, expand64 0⟩ := by
    unfold curve64
    rw [if_pos (by decide)]
    rfl
  refine ⟨⟨?_, ?_, ?_⟩, ?_⟩
  · show bits32 1 < 32
    decide
  · rcases hF with rfl | rfl
    · exact h31 (by norm_num) (by norm_num) (by norm_num)
    · exact h31 (by norm_num) (by norm_num) (by norm_num)
  · exact h31 (by norm_num) (by norm_num) (by norm_num)
  · rw [e64]
    exact ⟨by norm_num, h63 (by norm_num) (by norm_num) (by norm_num), h63 (by norm_num) (by norm_num) (by norm_num)⟩

/-! ## The hypotheses are met -/

/-- The largest number of type `float`. -/
noncomputable def floatMax : ℝ := 2 ^ (128 : ℤ) - 2 ^ (104 : ℤ)

lemma two_points_ok {a b : ℤ} (ha : -149 ≤ a) (ha' : a < 128) (hb : -149 ≤ b) (hb' : b < 128) (fma : Bool) :
    SceneOk (Ieee.float fma) floatMax (([fun _ => -2 ^ a, fun _ => 2 ^ b] : List (Fin 3 → ℝ)).map fun p => [p]) := by
  have hr : ∀ c : ℤ, -149 ≤ c → c < 128 → (Ieee.float fma).rnd (2 ^ c) = ((2 ^ c : ℝ) : EReal) := fun c h h' => float_pow fma h h'
  have hm : ∀ c : ℤ, c < 128 → (2 : ℝ) ^ c ≤ floatMax := fun c h =>
    (zpow_le_zpow_right₀ (by norm_num) (by omega : c ≤ 127)).trans (by norm_num [floatMax])
  refine ⟨?_, ?_, ?_⟩
  · intro g hg v hv d
    simp only [List.map_cons, List.map_nil, List.mem_cons, List.not_mem_nil, or_false] at hg
    rcases hg with rfl | rfl
    · rw [List.mem_singleton.mp hv, (Ieee.float fma).neg, hr a ha ha', EReal.coe_neg]
    · rw [List.mem_singleton.mp hv, hr b hb hb']
  · intro g hg v hv d
    simp only [List.map_cons, List.map_nil, List.mem_cons, List.not_mem_nil, or_false] at hg
    rcases hg with rfl | rfl
    · rw [List.mem_singleton.mp hv, abs_neg, abs_of_pos (Ieee.ulp_pos a)]; exact hm a ha'
    · rw [List.mem_singleton.mp hv, abs_of_pos (Ieee.ulp_pos b)]; exact hm b hb'
  · intro g hg
    simp only [List.map_cons, List.map_nil, List.mem_cons, List.not_mem_nil, or_false] at hg
    rcases hg with rfl | rfl <;> simp

/-- Building a tree of the two points `(-2^127, -2^127, -2^127)` and `(2^127, 2^127, 2^127)` of type `float` is undefined. -/
example (b b' b'' : Bool) : ∃ p ∈ ([fun _ => -2 ^ (127 : ℤ), fun _ => 2 ^ (127 : ℤ)] : List (Fin 3 → ℝ)),
    (curve64 (Ieee.float b) (Ieee.float b') (Ieee.double b'') 3).project (Ieee.float b) floatMax
      (([fun _ => -2 ^ (127 : ℤ), fun _ => 2 ^ (127 : ℤ)] : List (Fin 3 → ℝ)).map fun p => [p]) ((Ieee.float b).centroid [p]) = none := by
  by_contra hno
  have h := (points_positions_defined_iff (curve64 (Ieee.float b) (Ieee.float b') (Ieee.double b'') 3)
    (morton_curves_fine 3 (by norm_num) (by norm_num) b b' b'' _ (.inl rfl)).2.1.toOk (Ieee.float b) (Ieee.gradual_float b) floatMax _
    (two_points_ok (a := 127) (b := 127) (by norm_num) (by norm_num) (by norm_num) (by norm_num) b)).mp (by
      intro p hp
      by_contra hc
      exact hno ⟨p, hp, by simpa using hc⟩)
  refine h (fun _ => 2 ^ (127 : ℤ)) (by simp) (fun _ => -2 ^ (127 : ℤ)) (by simp) 0 ?_
  rw [show (2 : ℝ) ^ (127 : ℤ) - -2 ^ (127 : ℤ) = 2 ^ (128 : ℤ) by norm_num]
  exact float_top b (by norm_num)

/-- Building a tree of `(-1, -1, -1)` and `(1, 1, 1)` is defined. -/
example (b b' b'' : Bool) : ∀ p ∈ ([fun _ => -2 ^ (0 : ℤ), fun _ => 2 ^ (0 : ℤ)] : List (Fin 3 → ℝ)),
    ((curve64 (Ieee.float b) (Ieee.float b') (Ieee.double b'') 3).project (Ieee.float b) floatMax
      (([fun _ => -2 ^ (0 : ℤ), fun _ => 2 ^ (0 : ℤ)] : List (Fin 3 → ℝ)).map fun p => [p]) ((Ieee.float b).centroid [p])).isSome := by
  refine (points_positions_defined_iff _ (morton_curves_fine 3 (by norm_num) (by norm_num) b b' b'' _ (.inl rfl)).2.1.toOk (Ieee.float b) (Ieee.gradual_float b)
    floatMax _ (two_points_ok (a := 0) (b := 0) (by norm_num) (by norm_num) (by norm_num) (by norm_num) b)).mpr ?_
  intro p hp q hq d
  have hle : (Ieee.float b).rnd (p d - q d) ≤ (Ieee.float b).rnd (2 ^ (1 : ℤ)) := by
    refine (Ieee.float b).mono ?_
    simp only [List.mem_cons, List.not_mem_nil, or_false] at hp hq
    rcases hp with rfl | rfl <;> rcases hq with rfl | rfl <;> norm_num
  rw [float_pow b (by norm_num) (by norm_num)] at hle
  intro h
  rw [h] at hle
  exact absurd hle (not_le.mpr (EReal.coe_lt_top _))

/-- A query of an empty tree for something at `(-2^127, -2^127, -2^127)` is undefined. -/
example (b b' : Bool) : (curve32 (Ieee.float b) (Ieee.float b') 3).project (Ieee.float b) floatMax [] (fun _ : Fin 3 => some ((-2 ^ (127 : ℤ) : ℝ) : EReal)) = none := by
  rw [← Option.not_isSome_iff_eq_none]
  intro h
  have hov : ∀ x : ℝ, 2 ^ (128 : ℤ) ≤ x → (Ieee.float b).rnd x = ⊤ := fun x hx =>
    top_le_iff.mp ((float_top b (a := 128) (by norm_num)) ▸ (Ieee.float b).mono hx)
  have := (empty_tree_position _ (morton_curves_fine 3 (by norm_num) (by norm_num) b b' b _ (.inl rfl)).1.1.toOk (Ieee.float b) floatMax (by norm_num [floatMax])
    (hov _ (by norm_num [floatMax])) (fun _ => -2 ^ (127 : ℤ)) (fun _ => by norm_num [floatMax])).mp h 0
  apply this
  rw [show -(2 : ℝ) ^ (127 : ℤ) - floatMax = -(2 ^ (127 : ℤ) + floatMax) by ring, (Ieee.float b).neg, hov _ (by norm_num [floatMax])]
  rfl

/-- An arithmetic that flushes small numbers to zero. -/
noncomputable def flushing : Format where
  rnd := fun x => ((if |x| < 1 then 0 else x : ℝ) : EReal)
  mono := by
    intro x y h
    rw [EReal.coe_le_coe_iff]
    split_ifs with h1 h2 h2
    · exact le_rfl
    · rw [abs_lt] at h1
      by_contra hc
      exact h2 (abs_lt.mpr ⟨by linarith, by linarith⟩)
    · rw [abs_lt] at h2
      by_contra hc
      exact h1 (abs_lt.mpr ⟨by linarith, by linarith⟩)
    · exact h
  neg := by
    intro x
    rw [abs_neg, ← EReal.coe_neg]
    congr 1
    split_ifs <;> simp
  idem := by
    intro x y h
    rw [EReal.coe_eq_coe_iff] at h ⊢
    subst h
    split_ifs <;> rfl
  fma := false

example (b b' : Bool) : (curve32 (Ieee.float b) (Ieee.float b') 1).project flushing 2 [[fun _ : Fin 1 => 1], [fun _ => 3 / 2]] (flushing.centroid [fun _ => 1]) = none :=
  flushed_position _ (morton_curves_ok_one b b' b _ (.inl rfl)).1 flushing 2 1 (3 / 2) (by norm_num)
    (by show ((if |(3 / 2 - 1 : ℝ)| < 1 then 0 else 3 / 2 - 1 : ℝ) : EReal) = 0
        rw [if_pos (by norm_num [abs_of_pos])]; rfl) (by norm_num) (by norm_num)

example (b : Bool) : ∃ x : ℝ, (Ieee.float b).centroid [fun _ : Fin 1 => 2 ^ (0 : ℤ), fun _ => 2 ^ (5 : ℤ)] 0 = some (x : EReal) ∧ (2 : ℝ) ^ (0 : ℤ) ≤ x ∧ x ≤ 2 ^ (5 : ℤ) := by
  refine centroid_between_partial (Ieee.float b) (fun _ => 2 ^ (0 : ℤ)) (fun _ => 2 ^ (5 : ℤ)) 0 (by norm_num) (float_pow b (by norm_num) (by norm_num))
    (float_pow b (by norm_num) (by norm_num)) ?_ ?_
  · rw [show (2 : ℝ) * 2 ^ (0 : ℤ) = 2 ^ (1 : ℤ) by norm_num]; exact float_pow b (by norm_num) (by norm_num)
  · rw [show (2 : ℝ) * 2 ^ (5 : ℤ) = 2 ^ (6 : ℤ) by norm_num]; exact float_pow b (by norm_num) (by norm_num)

end ArborX.Fp
