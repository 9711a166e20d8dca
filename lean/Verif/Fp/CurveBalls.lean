import Verif.Fp.EmptyBoxes

/-!
# Property theorems: positions of balls on the space-filling curve (C103)

The bounding box of a ball has rounded corners, which can overflow although its center and radius are finite.
-/

namespace ArborX.Fp

variable {D w : ℕ}

/-! ## Model -/

/-- A ball: center and radius, which may be infinite (`src/geometry/ArborX_Sphere.hpp` 24-47). -/
abbrev Ball (D : ℕ) := (Fin D → ℝ) × EReal

/-- `sphere.centroid()[d] - sphere.radius()` (`src/geometry/algorithms/ArborX_Expand.hpp` 91). -/
noncomputable def Format.below (F : Format) (x : ℝ) (r : EReal) : EReal := if r = ⊤ then ⊥ else F.rnd (x - r.toReal)

/-- `sphere.centroid()[d] + sphere.radius()` (93). -/
noncomputable def Format.above (F : Format) (x : ℝ) (r : EReal) : EReal := if r = ⊤ then ⊤ else F.rnd (x + r.toReal)

/-- The lower corner of the scene (`src/spatial/detail/ArborX_TreeConstruction.hpp` 26-39, `ArborX_Expand.hpp` 79-96), see `sceneLo`. -/
noncomputable def ballsLo (F : Format) (M : ℝ) (balls : List (Ball D)) (d : Fin D) : EReal := balls.foldl (fun m b => min m (F.below (b.1 d) b.2)) M

/-- The upper corner. -/
noncomputable def ballsHi (F : Format) (M : ℝ) (balls : List (Ball D)) (d : Fin D) : EReal := balls.foldl (fun m b => max m (F.above (b.1 d) b.2)) (-M)

/-- `projectOntoSpaceFillingCurve` (`src/spatial/detail/ArborX_SpaceFillingCurves.hpp` 66-89) on a ball; the centroid is the center
(`src/geometry/algorithms/ArborX_Centroid.hpp` 62-69). -/
noncomputable def Curve.projectBall (C : Curve w) (F : Format) (M : ℝ) (balls : List (Ball D)) (b : Ball D) : Option (BitVec w) :=
  C.position F (fun d => some (ballsLo F M balls d)) (fun d => some (ballsHi F M balls d)) (fun d => some (b.1 d : EReal))

/-! ## Specification -/

/-- The centers are numbers of the type `F` with largest number `M`, the radii are not negative. -/
structure BallsOk (F : Format) (M : ℝ) (balls : List (Ball D)) : Prop where
  pos : 0 < M
  largest : F.rnd M = (M : EReal)
  rep : ∀ b ∈ balls, ∀ d, F.rnd (b.1 d) = (b.1 d : EReal)
  range : ∀ b ∈ balls, ∀ d, |b.1 d| ≤ M
  radius : ∀ b ∈ balls, 0 ≤ b.2

/-! ## Lemmas -/

lemma foldl_min_spec {β : Type} (f : β → EReal) (l : List β) : ∀ m : EReal,
    l.foldl (fun m b => min m (f b)) m ≤ m ∧ (∀ b ∈ l, l.foldl (fun m b => min m (f b)) m ≤ f b) ∧
      (l.foldl (fun m b => min m (f b)) m = m ∨ ∃ b ∈ l, l.foldl (fun m b => min m (f b)) m = f b) := by
  induction l with
  | nil => intro m; exact ⟨le_rfl, by simp, .inl rfl⟩
  | cons a l ih =>
    intro m
    obtain ⟨h1, h2, h3⟩ := ih (min m (f a))
    rw [List.foldl_cons]
    refine ⟨h1.trans (min_le_left _ _), ?_, ?_⟩
    · intro b hb
      rcases List.mem_cons.mp hb with rfl | hb
      · exact h1.trans (min_le_right _ _)
      · exact h2 b hb
    · rcases h3 with h3 | ⟨b, hb, h3⟩
      · rcases min_choice m (f a) with e | e
        · exact .inl (h3.trans e)
        · exact .inr ⟨a, by simp, h3.trans e⟩
      · exact .inr ⟨b, by simp [hb], h3⟩

lemma foldl_max_spec {β : Type} (f : β → EReal) (l : List β) : ∀ m : EReal,
    m ≤ l.foldl (fun m b => max m (f b)) m ∧ (∀ b ∈ l, f b ≤ l.foldl (fun m b => max m (f b)) m) ∧
      (l.foldl (fun m b => max m (f b)) m = m ∨ ∃ b ∈ l, l.foldl (fun m b => max m (f b)) m = f b) := by
  induction l with
  | nil => intro m; exact ⟨le_rfl, by simp, .inl rfl⟩
  | cons a l ih =>
    intro m
    obtain ⟨h1, h2, h3⟩ := ih (max m (f a))
    rw [List.foldl_cons]
    refine ⟨(le_max_left _ _).trans h1, ?_, ?_⟩
    · intro b hb
      rcases List.mem_cons.mp hb with rfl | hb
      · exact (le_max_right _ _).trans h1
      · exact h2 b hb
    · rcases h3 with h3 | ⟨b, hb, h3⟩
      · rcases max_choice m (f a) with e | e
        · exact .inl (h3.trans e)
        · exact .inr ⟨a, by simp, h3.trans e⟩
      · exact .inr ⟨b, by simp [hb], h3⟩

lemma Format.below_le {F : Format} {x : ℝ} (hx : F.rnd x = (x : EReal)) {r : EReal} (hr : 0 ≤ r) : F.below x r ≤ x := by
  unfold Format.below
  split
  · exact bot_le
  · rw [← hx]; exact F.mono (by linarith [EReal.toReal_nonneg hr])

lemma Format.le_above {F : Format} {x : ℝ} (hx : F.rnd x = (x : EReal)) {r : EReal} (hr : 0 ≤ r) : (x : EReal) ≤ F.above x r := by
  unfold Format.above
  split
  · exact le_top
  · rw [← hx]; exact F.mono (by linarith [EReal.toReal_nonneg hr])

/-- Corners are numbers of the type. -/
lemma Format.below_rep {F : Format} {x y : ℝ} {r : EReal} (h : F.below x r = (y : EReal)) : F.rnd y = (y : EReal) := by
  unfold Format.below at h
  split at h
  · exact absurd h.symm (EReal.coe_ne_bot y)
  · exact F.idem _ _ h

lemma Format.above_rep {F : Format} {x y : ℝ} {r : EReal} (h : F.above x r = (y : EReal)) : F.rnd y = (y : EReal) := by
  unfold Format.above at h
  split at h
  · exact absurd h.symm (EReal.coe_ne_top y)
  · exact F.idem _ _ h

/-! ## Property theorems -/

/-- **C103.** The constructor of a tree of balls has no undefined behaviour in the computation of the positions exactly if no lower end of a ball overflows and the differences
of the coordinates of centers and lower ends do not overflow. (Upper ends may.) -/
theorem ball_positions_defined_iff (C : Curve w) (hC : C.Ok) (F : Format) (hF : F.Gradual) (M : ℝ) (balls : List (Ball D)) (h : BallsOk F M balls) :
    (∀ b ∈ balls, (C.projectBall F M balls b).isSome) ↔
      ∀ d, ∀ b ∈ balls, F.below (b.1 d) b.2 ≠ ⊥ ∧ ∀ b' ∈ balls, F.rnd (b'.1 d - (F.below (b.1 d) b.2).toReal) ≠ ⊤ := by
  have hz : F.rnd 0 = 0 := F.rnd_zero
  have hpos : ∀ b, (C.projectBall F M balls b).isSome ↔ ∀ d, (F.place (some (b.1 d : EReal)) (some (ballsLo F M balls d)) (some (ballsHi F M balls d))).isSome :=
    fun b => hC.morton_isSome _
  have hlo := fun d => foldl_min_spec (fun b : Ball D => F.below (b.1 d) b.2) balls M
  have hhi := fun d => foldl_max_spec (fun b : Ball D => F.above (b.1 d) b.2) balls (-M)
  have hhi_bot : ∀ d, ballsHi F M balls d ≠ ⊥ := fun d e => by
    have := (hhi d).1
    have e' : balls.foldl (fun m b => max m (F.above (b.1 d) b.2)) (-(M : EReal)) = ⊥ := e
    rw [e', le_bot_iff, ← EReal.coe_neg] at this
    exact EReal.coe_ne_bot _ this
  have hbot : ∀ d b, ballsLo F M balls d = ⊥ → F.place (some (b : ℝ)) (some (ballsLo F M balls d)) (some (ballsHi F M balls d)) = none := by
    intro d b e
    unfold Format.place
    have hne : nanNe (some (ballsLo F M balls d)) (some (ballsHi F M balls d)) := by
      show ballsLo F M balls d ≠ ballsHi F M balls d
      rw [e]; exact (hhi_bot d).symm
    rw [if_pos hne, e]
    have e1 : F.nsub (some (b : EReal)) (some ⊥) = some ⊤ := by simp [Format.nsub]
    have e2 : F.nsub (some (ballsHi F M balls d)) (some ⊥) = some ⊤ := by simp [Format.nsub, hhi_bot d]
    rw [e1, e2]
    simp [Format.quotient]
  constructor
  · intro hall d b hb
    have hbot' : ballsLo F M balls d ≠ ⊥ := by
      intro e
      have := (hpos b).mp (hall b hb) d
      rw [hbot d _ e] at this
      cases this
    have hle : ballsLo F M balls d ≤ F.below (b.1 d) b.2 := (hlo d).2.1 b hb
    refine ⟨fun e => hbot' (le_bot_iff.mp (e ▸ hle)), fun b' hb' hov => ?_⟩
    have hbl := Format.below_le (h.rep b hb d) (h.radius b hb)
    have htop : F.below (b.1 d) b.2 ≠ ⊤ := fun e => by rw [e, top_le_iff] at hbl; exact EReal.coe_ne_top _ hbl
    have hbb : F.below (b.1 d) b.2 ≠ ⊥ := fun e => hbot' (le_bot_iff.mp (e ▸ hle))
    obtain ⟨y, hy⟩ : ∃ y : ℝ, F.below (b.1 d) b.2 = y := ⟨_, (EReal.coe_toReal htop hbb).symm⟩
    rw [hy, EReal.toReal_coe] at hov
    rw [hy] at hle
    obtain ⟨a, ha⟩ : ∃ a : ℝ, ballsLo F M balls d = a :=
      ⟨_, (EReal.coe_toReal (fun e => by rw [e, top_le_iff] at hle; exact EReal.coe_ne_top _ hle) hbot').symm⟩
    rw [ha] at hle
    have hay : a ≤ y := EReal.coe_le_coe_iff.mp hle
    have hov' : F.rnd (b'.1 d - a) = ⊤ := top_le_iff.mp (hov ▸ F.mono (by linarith))
    have hgt : a < b'.1 d := by
      by_contra hcon
      have : F.rnd (b'.1 d - a) ≤ 0 := by rw [← hz]; exact F.mono (by linarith [not_lt.mp hcon])
      rw [hov', top_le_iff] at this
      exact EReal.zero_ne_top this
    have hup : (b'.1 d : EReal) ≤ ballsHi F M balls d := (Format.le_above (h.rep b' hb' d) (h.radius b' hb')).trans ((hhi d).2.1 b' hb')
    have hsome := (hpos b').mp (hall b' hb') d
    rw [ha] at hsome
    unfold Format.place at hsome
    have hne : nanNe (some (a : EReal)) (some (ballsHi F M balls d)) :=
      ((EReal.coe_lt_coe_iff.mpr hgt).trans_le hup).ne
    rw [if_pos hne, nsub_coe, hov'] at hsome
    have e2 : F.nsub (some (ballsHi F M balls d)) (some (a : EReal)) = some ⊤ := by
      revert hup
      generalize ballsHi F M balls d = z
      intro hup
      induction z using EReal.rec with
      | bot => exact absurd hup (by simp)
      | top => simp [Format.nsub]
      | coe z => rw [nsub_coe]; exact congrArg some (top_le_iff.mp (hov' ▸ F.mono (by linarith [EReal.coe_le_coe_iff.mp hup])))
    rw [e2] at hsome
    simp [Format.quotient] at hsome
  · intro hall b hb
    rw [hpos]
    intro d
    have hbl := Format.below_le (h.rep b hb d) (h.radius b hb)
    have hloM : ballsLo F M balls d ≤ M := (hlo d).1
    have hlob : ballsLo F M balls d ≤ F.below (b.1 d) b.2 := (hlo d).2.1 b hb
    obtain ⟨b0, hb0, e0⟩ : ∃ b0 ∈ balls, ballsLo F M balls d = F.below (b0.1 d) b0.2 := by
      rcases (hlo d).2.2 with e | e
      · refine ⟨b, hb, le_antisymm hlob ?_⟩
        have e' : ballsLo F M balls d = M := e
        rw [e']
        exact hbl.trans (EReal.coe_le_coe_iff.mpr (abs_le.mp (h.range b hb d)).2)
      · exact e
    have hbot' : ballsLo F M balls d ≠ ⊥ := e0 ▸ (hall d b0 hb0).1
    obtain ⟨a, ha⟩ : ∃ a : ℝ, ballsLo F M balls d = a :=
      ⟨_, (EReal.coe_toReal (fun e => by rw [e, top_le_iff] at hloM; exact EReal.coe_ne_top _ hloM) hbot').symm⟩
    have hov : F.rnd (b.1 d - a) ≠ ⊤ := by
      have := (hall d b0 hb0).2 b hb
      rwa [← e0, ha, EReal.toReal_coe] at this
    have harep : F.rnd a = (a : EReal) := Format.below_rep (e0.symm.trans ha)
    rw [ha] at hlob
    have hab : a ≤ b.1 d := EReal.coe_le_coe_iff.mp (hlob.trans hbl)
    have hge : 0 ≤ F.rnd (b.1 d - a) := by rw [← hz]; exact F.mono (by linarith)
    have hnb : F.rnd (b.1 d - a) ≠ ⊥ := fun e => by rw [e] at hge; simp at hge
    have hup : (b.1 d : EReal) ≤ ballsHi F M balls d := (Format.le_above (h.rep b hb d) (h.radius b hb)).trans ((hhi d).2.1 b hb)
    rw [ha]
    by_cases heq : ballsHi F M balls d = a
    · rw [heq, place_eq]; rfl
    · unfold Format.place
      rw [if_pos (show nanNe (some (a : EReal)) (some (ballsHi F M balls d)) from fun e => heq e.symm), nsub_coe]
      have hzrep : ∀ z : ℝ, ballsHi F M balls d = z → F.rnd z = (z : EReal) := by
        intro z e
        rcases (hhi d).2.2 with e1 | ⟨b1, -, e1⟩
        · have e' : ballsHi F M balls d = ((-M : ℝ) : EReal) := by rw [EReal.coe_neg]; exact e1
          have : z = -M := EReal.coe_eq_coe_iff.mp (e.symm.trans e')
          rw [this, F.neg, h.largest, EReal.coe_neg]
        · exact Format.above_rep (e1.symm.trans e)
      revert hup heq hzrep
      generalize ballsHi F M balls d = z
      intro hup heq hzrep
      induction z using EReal.rec with
      | bot => exact absurd hup (by simp)
      | top =>
        have : F.nsub (some (⊤ : EReal)) (some (a : EReal)) = some ⊤ := by simp [Format.nsub]
        rw [this]
        simp [Format.quotient, hov, hnb]
      | coe z =>
        rw [nsub_coe]
        have hza : a ≤ z := hab.trans (EReal.coe_le_coe_iff.mp hup)
        have hne0 : F.rnd (z - a) ≠ 0 := fun e => heq (EReal.coe_eq_coe_iff.mpr (hF z a (hzrep z rfl) harep e))
        have hge' : 0 ≤ F.rnd (z - a) := by rw [← hz]; exact F.mono (by linarith)
        have hnb' : F.rnd (z - a) ≠ ⊥ := fun e => by rw [e] at hge'; simp at hge'
        by_cases ht : F.rnd (z - a) = ⊤
        · rw [ht]; simp [Format.quotient, hov, hnb]
        · simp [Format.quotient, ht, hnb', hne0]

/-- **C103 (limits).** A single ball of infinite radius, or one whose lower end overflows, makes the positions of all balls undefined. -/
theorem infinite_ball_positions (C : Curve w) (hC : C.Ok) (F : Format) (M : ℝ) (balls : List (Ball D)) (d : Fin D) (b : Ball D) (hb : b ∈ balls)
    (hinf : b.2 = ⊤ ∨ F.below (b.1 d) b.2 = ⊥) (b' : Ball D) : C.projectBall F M balls b' = none := by
  have hbl : F.below (b.1 d) b.2 = ⊥ := by
    rcases hinf with e | e
    · rw [Format.below, if_pos e]
    · exact e
  have hlo : ballsLo F M balls d = ⊥ := by
    have := (foldl_min_spec (fun b : Ball D => F.below (b.1 d) b.2) balls M).2.1 b hb
    simp only [hbl] at this
    exact le_bot_iff.mp this
  have hhi : ballsHi F M balls d ≠ ⊥ := fun e => by
    have := (foldl_max_spec (fun b : Ball D => F.above (b.1 d) b.2) balls (-M)).1
    have e' : balls.foldl (fun m b => max m (F.above (b.1 d) b.2)) (-(M : EReal)) = ⊥ := e
    rw [e', le_bot_iff, ← EReal.coe_neg] at this
    exact EReal.coe_ne_bot _ this
  rw [← Option.not_isSome_iff_eq_none]
  intro hs
  have h1 : (F.place (some (b'.1 d : EReal)) (some (ballsLo F M balls d)) (some (ballsHi F M balls d))).isSome := (hC.morton_isSome _).mp hs d
  unfold Format.place at h1
  rw [hlo, if_pos (show nanNe (some (⊥ : EReal)) (some (ballsHi F M balls d)) from hhi.symm)] at h1
  have e1 : F.nsub (some (b'.1 d : EReal)) (some ⊥) = some ⊤ := by simp [Format.nsub]
  have e2 : F.nsub (some (ballsHi F M balls d)) (some ⊥) = some ⊤ := by simp [Format.nsub, hhi]
  rw [e1, e2] at h1
  simp [Format.quotient] at h1

/-! ## Non-vacuity -/

/-- A ball around the origin whose radius is the largest `float`, and the unit ball: the positions are defined. If the first has an infinite radius, none is. -/
example (b b' b'' : Bool) :
    (∀ x ∈ [((0 : Fin 3 → ℝ), ((Ieee.largest 24 128 : ℝ) : EReal)), (0, ((1 : ℝ) : EReal))],
      ((curve64 (Ieee.float b) (Ieee.float b') (Ieee.double b'') 3).projectBall (Ieee.float b) (Ieee.largest 24 128)
        [((0 : Fin 3 → ℝ), ((Ieee.largest 24 128 : ℝ) : EReal)), (0, ((1 : ℝ) : EReal))] x).isSome) ∧
    (curve64 (Ieee.float b) (Ieee.float b') (Ieee.double b'') 3).projectBall (Ieee.float b) (Ieee.largest 24 128)
      [((0 : Fin 3 → ℝ), (⊤ : EReal)), (0, ((1 : ℝ) : EReal))] (0, ((1 : ℝ) : EReal)) = none := by
  have hr := (Ieee.largest_rnd 24 (by norm_num) (-149) 128 (by norm_num) b).1
  have hM := (Ieee.format_square 24 (by norm_num) (by norm_num) (-149) 128 (by norm_num) (by norm_num) b).pos
  have hfine := morton_curves_fine 3 (by norm_num) (by norm_num) b b' b'' (Ieee.float b) (.inl rfl)
  have hC := hfine.2.1.toOk
  have h0 : (Ieee.float b).rnd 0 = 0 := Format.rnd_zero _
  have h1 : (Ieee.float b).rnd 1 = ((1 : ℝ) : EReal) := hfine.2.1.fone
  have hr' : (Ieee.float b).rnd (Ieee.largest 24 128) = ((Ieee.largest 24 128 : ℝ) : EReal) := hr
  have hm : ∀ r : ℝ, (Ieee.float b).rnd r = (r : EReal) → (Ieee.float b).below 0 r = ((-r : ℝ) : EReal) := by
    intro r e
    rw [Format.below, if_neg (EReal.coe_ne_top r), EReal.toReal_coe, zero_sub, Format.neg, e, EReal.coe_neg]
  refine ⟨(ball_positions_defined_iff _ hC (Ieee.float b) (Ieee.gradual_float b) _ _ ⟨hM, hr, ?_, ?_, ?_⟩).mpr ?_, ?_⟩
  · intro x hx d
    rcases List.mem_pair.mp hx with rfl | rfl <;> simpa using h0
  · intro x hx d
    rcases List.mem_pair.mp hx with rfl | rfl <;> simpa using hM.le
  · intro x hx
    rcases List.mem_pair.mp hx with rfl | rfl
    · exact EReal.coe_nonneg.mpr hM.le
    · exact EReal.coe_nonneg.mpr zero_le_one
  · intro d x hx
    have key : ∀ r : ℝ, (Ieee.float b).rnd r = (r : EReal) → (Ieee.float b).below 0 r ≠ ⊥ ∧ (Ieee.float b).rnd (0 - ((Ieee.float b).below 0 r).toReal) ≠ ⊤ := by
      intro r e
      rw [hm r e, EReal.toReal_coe, zero_sub, neg_neg, e]
      exact ⟨EReal.coe_ne_bot _, EReal.coe_ne_top _⟩
    rcases List.mem_pair.mp hx with rfl | rfl
    · refine ⟨(key _ hr').1, fun y hy => ?_⟩
      rcases List.mem_pair.mp hy with rfl | rfl <;> exact (key _ hr').2
    · refine ⟨(key _ h1).1, fun y hy => ?_⟩
      rcases List.mem_pair.mp hy with rfl | rfl <;> exact (key _ h1).2
  · exact infinite_ball_positions _ hC (Ieee.float b) _ _ 0 _ (List.mem_cons_self) (.inl rfl) _

end ArborX.Fp
