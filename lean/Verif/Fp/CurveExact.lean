import Verif.Fp.CurveKdops

/-!
# Property theorems: exactly when a position on the space-filling curve is defined (C103)
-/

namespace ArborX.Fp

variable {D w : ℕ}

/-! ## Specification -/

/-- All vertices agree along the axis `d`. -/
def FlatAlong (geo : List (Hull D)) (d : Fin D) : Prop := ∀ g ∈ geo, ∀ v ∈ g, ∀ g' ∈ geo, ∀ v' ∈ g', v d = v' d

/-- No difference of coordinates of two vertices along the axis `d` overflows. -/
def FitsAlong (F : Format) (geo : List (Hull D)) (d : Fin D) : Prop := ∀ g ∈ geo, ∀ v ∈ g, ∀ g' ∈ geo, ∀ v' ∈ g', F.rnd (v d - v' d) ≠ ⊤

/-- The difference of `y` and the lowest vertex along the axis `d` overflows in neither direction. -/
def NearLowest (F : Format) (geo : List (Hull D)) (d : Fin D) (y : ℝ) : Prop :=
  (∀ g ∈ geo, ∀ v ∈ g, F.rnd (y - v d) ≠ ⊤) ∧ ∃ g ∈ geo, ∃ v ∈ g, F.rnd (y - v d) ≠ ⊥

/-! ## Lemmas -/

lemma flatAlong_iff {F : Format} {M : ℝ} {geo : List (Hull D)} (h : SceneOk F M geo) (hne : geo ≠ []) (d : Fin D) :
    sceneLo M geo d = sceneHi M geo d ↔ FlatAlong geo d := by
  obtain ⟨⟨g, hg, v, hv, e⟩, hlo⟩ := sceneLo_spec h hne d
  obtain ⟨⟨g', hg', v', hv', e'⟩, hhi⟩ := sceneHi_spec h hne d
  constructor
  · intro e1 g hg v hv g' hg' v' hv'
    have := hlo g hg v hv
    have := hlo g' hg' v' hv'
    have := hhi g hg v hv
    have := hhi g' hg' v' hv'
    linarith
  · intro h1
    rw [e, e']
    exact h1 g hg v hv g' hg' v' hv'

lemma fitsAlong_iff {F : Format} {M : ℝ} {geo : List (Hull D)} (h : SceneOk F M geo) (hne : geo ≠ []) (d : Fin D) :
    F.rnd (sceneHi M geo d - sceneLo M geo d) ≠ ⊤ ↔ FitsAlong F geo d := by
  obtain ⟨⟨g, hg, v, hv, e⟩, hlo⟩ := sceneLo_spec h hne d
  obtain ⟨⟨g', hg', v', hv', e'⟩, hhi⟩ := sceneHi_spec h hne d
  constructor
  · intro h1 u hu p hp u' hu' p' hp' htop
    refine h1 (top_le_iff.mp (htop ▸ F.mono ?_))
    linarith [hhi u hu p hp, hlo u' hu' p' hp']
  · intro h1
    rw [e, e']
    exact h1 g' hg' v' hv' g hg v hv

lemma nearLowest_iff {F : Format} {M : ℝ} {geo : List (Hull D)} (h : SceneOk F M geo) (hne : geo ≠ []) (d : Fin D) (y : ℝ) :
    (F.rnd (y - sceneLo M geo d) ≠ ⊤ ∧ F.rnd (y - sceneLo M geo d) ≠ ⊥) ↔ NearLowest F geo d y := by
  obtain ⟨⟨g, hg, v, hv, e⟩, hlo⟩ := sceneLo_spec h hne d
  constructor
  · rintro ⟨h1, h2⟩
    refine ⟨fun u hu p hp htop => h1 (top_le_iff.mp (htop ▸ F.mono ?_)), g, hg, v, hv, e ▸ h2⟩
    linarith [hlo u hu p hp]
  · rintro ⟨h1, u, hu, p, hp, h2⟩
    refine ⟨e ▸ h1 g hg v hv, fun hbot => h2 (le_bot_iff.mp (hbot ▸ F.mono ?_))⟩
    linarith [hlo u hu p hp]

/-! ## Theorems -/

/-- **C103.** The position of an object with centroid `c` (a value of the tree or a predicate) is defined exactly if along each axis the scene is flat, or the coordinate of
the centroid is not NaN and either the extent of the scene does not overflow, or the coordinate is finite and its difference to the lowest vertex does not overflow. -/
theorem position_defined_iff (C : Curve w) (hC : C.Ok) (F : Format) (hF : F.Gradual) (M : ℝ) (geo : List (Hull D)) (h : SceneOk F M geo) (hne : geo ≠ [])
    (c : Fin D → Num) :
    (C.project F M geo c).isSome ↔
      ∀ d, FlatAlong geo d ∨ ∃ x, c d = some x ∧ (FitsAlong F geo d ∨ ∃ y : ℝ, x = y ∧ NearLowest F geo d y) := by
  rw [hC.project_isSome]
  refine forall_congr' fun d => ?_
  rw [← flatAlong_iff h hne d, ← fitsAlong_iff h hne d]
  by_cases e : sceneLo M geo d = sceneHi M geo d
  · rw [e, place_eq]; simp
  have hlt : sceneLo M geo d < sceneHi M geo d := by
    obtain ⟨⟨g, hg, v, hv, e1⟩, -⟩ := sceneLo_spec h hne d
    obtain ⟨-, hhi⟩ := sceneHi_spec h hne d
    exact lt_of_le_of_ne (by rw [e1]; exact hhi g hg v hv) e
  simp only [e, false_or]
  cases hcd : c d with
  | none =>
    rw [place_ne F _ e]
    simp [Format.nsub, Format.quotient]
  | some x =>
    by_cases hfit : F.rnd (sceneHi M geo d - sceneLo M geo d) = ⊤
    · rw [place_ne F _ e, nsub_coe, hfit]
      simp only [Option.some.injEq, exists_eq_left', ne_eq, not_true_eq_false, false_or]
      induction x with
      | bot => simp [Format.nsub, Format.quotient]
      | top => simp [Format.nsub, Format.quotient]
      | coe y =>
        rw [nsub_coe]
        simp only [EReal.coe_eq_coe_iff, exists_eq_left']
        rw [← nearLowest_iff h hne d y]
        unfold Format.quotient
        dsimp only
        rw [if_pos (.inl rfl)]
        by_cases h1 : F.rnd (y - sceneLo M geo d) = ⊤
        · simp [h1]
        · by_cases h2 : F.rnd (y - sceneLo M geo d) = ⊥
          · simp [h2]
          · simp [h1, h2]
    · have hs := extent_coe hlt hfit (by
        intro h0
        obtain ⟨⟨g, hg, v, hv, e1⟩, -⟩ := sceneLo_spec h hne d
        obtain ⟨⟨g', hg', v', hv', e'⟩, -⟩ := sceneHi_spec h hne d
        rw [e1, e'] at h0 hlt
        exact hlt.ne' (hF _ _ (h.rep g' hg' v' hv' d) (h.rep g hg v hv d) h0))
      obtain ⟨s, hs, h0⟩ := hs
      rw [place_num F hlt hs h0.ne']
      simp [hfit]

/-- **C103.** The constructor of a tree has no undefined behaviour in the computation of the positions exactly if this holds for the centroids of its values, which are never NaN. -/
theorem values_positions_defined_iff (C : Curve w) (hC : C.Ok) (F : Format) (hF : F.Gradual) (M : ℝ) (geo : List (Hull D)) (h : SceneOk F M geo) :
    (∀ g ∈ geo, (C.project F M geo (F.centroid g)).isSome) ↔
      ∀ d, FitsAlong F geo d ∨ ∀ g ∈ geo, ∃ y : ℝ, F.centroid g d = some (y : EReal) ∧ NearLowest F geo d y := by
  constructor
  · intro hdef d
    by_cases hfit : FitsAlong F geo d
    · exact .inl hfit
    refine .inr fun g hg => ?_
    rcases (position_defined_iff C hC F hF M geo h (List.ne_nil_of_mem hg) _).mp (hdef g hg) d with hf | ⟨x, hx, hf | ⟨y, rfl, hy⟩⟩
    · refine absurd ?_ hfit
      intro g hg v hv g' hg' v' hv' htop
      rw [hf g hg v hv g' hg' v' hv', sub_self, F.rnd_zero] at htop
      exact absurd htop (by simp)
    · exact absurd hf hfit
    · exact ⟨y, hx, hy⟩
  · intro hd g hg
    refine (position_defined_iff C hC F hF M geo h (List.ne_nil_of_mem hg) _).mpr fun d => .inr ?_
    obtain ⟨x, hx⟩ := centroid_num F (h.nonempty g hg) d
    rcases hd d with hf | hf
    · exact ⟨x, hx, .inl hf⟩
    · obtain ⟨y, hy, hn⟩ := hf g hg
      exact ⟨y, hy, .inr ⟨y, rfl, hn⟩⟩

/-! ## The hypotheses are met -/

/-- The box from `-2 ^ 127` to `2 ^ 127` along each axis, whose extent overflows. -/
noncomputable def hugeBox : Hull 3 := [fun _ => -2 ^ (127 : ℤ), fun _ => 2 ^ (127 : ℤ)]

lemma hugeBox_ok (b : Bool) : SceneOk (Ieee.float b) floatMax [hugeBox] := by
  have hr := float_pow b (a := 127) (by norm_num) (by norm_num)
  refine ⟨?_, ?_, ?_⟩
  · intro g hg v hv d
    rw [List.mem_singleton.mp hg] at hv
    simp only [hugeBox, List.mem_cons, List.not_mem_nil, or_false] at hv
    rcases hv with rfl | rfl
    · rw [(Ieee.float b).neg, hr, EReal.coe_neg]
    · exact hr
  · intro g hg v hv d
    rw [List.mem_singleton.mp hg] at hv
    simp only [hugeBox, List.mem_cons, List.not_mem_nil, or_false] at hv
    rcases hv with rfl | rfl <;> norm_num [floatMax, abs_of_pos, abs_neg]
  · intro g hg
    rw [List.mem_singleton.mp hg]; simp [hugeBox]

/-- The extent of this scene overflows; the position of its only box is defined, but the position of the point at its upper corner is not. -/
example (b b' b'' : Bool) : ¬ FitsAlong (Ieee.float b) [hugeBox] 0 ∧
    ((curve64 (Ieee.float b) (Ieee.float b') (Ieee.double b'') 3).project (Ieee.float b) floatMax [hugeBox] (fun _ => some ((0 : ℝ) : EReal))).isSome ∧
    ¬ ((curve64 (Ieee.float b) (Ieee.float b') (Ieee.double b'') 3).project (Ieee.float b) floatMax [hugeBox] (fun _ => some ((2 ^ (127 : ℤ) : ℝ) : EReal))).isSome := by
  have hC := (morton_curves_fine 3 (by norm_num) (by norm_num) b b' b'' _ (.inl rfl)).2.1.toOk
  have hr := float_pow b (a := 127) (by norm_num) (by norm_num)
  have hov : (Ieee.float b).rnd (2 ^ (127 : ℤ) - -2 ^ (127 : ℤ)) = ⊤ := by
    rw [show (2 : ℝ) ^ (127 : ℤ) - -2 ^ (127 : ℤ) = 2 ^ (128 : ℤ) by norm_num]
    exact float_top b (by norm_num)
  have hno : ∀ d, ¬ FitsAlong (Ieee.float b) [hugeBox] d := fun d hf => hf hugeBox (by simp) (fun _ => 2 ^ (127 : ℤ)) (by simp [hugeBox]) hugeBox (by simp)
    (fun _ => -2 ^ (127 : ℤ)) (by simp [hugeBox]) hov
  refine ⟨hno 0, ?_, ?_⟩
  · refine (position_defined_iff _ hC _ (Ieee.gradual_float b) _ _ (hugeBox_ok b) (by simp) _).mpr fun d => .inr ⟨_, rfl, .inr ⟨0, rfl, ?_, hugeBox, by simp, fun _ => -2 ^ (127 : ℤ), by simp [hugeBox], ?_⟩⟩
    · intro g hg v hv
      rw [List.mem_singleton.mp hg] at hv
      simp only [hugeBox, List.mem_cons, List.not_mem_nil, or_false] at hv
      rcases hv with rfl | rfl
      · rw [zero_sub, neg_neg, hr]; exact EReal.coe_ne_top _
      · rw [zero_sub, (Ieee.float b).neg, hr, ← EReal.coe_neg]; exact EReal.coe_ne_top _
    · rw [zero_sub, neg_neg, hr]; exact EReal.coe_ne_bot _
  · intro h
    rcases (position_defined_iff _ hC _ (Ieee.gradual_float b) _ _ (hugeBox_ok b) (by simp) _).mp h 0 with hf | ⟨x, hx, hf | ⟨y, rfl, hy, -⟩⟩
    · have := hf hugeBox (by simp) (fun _ => 2 ^ (127 : ℤ)) (by simp [hugeBox]) hugeBox (by simp) (fun _ => -2 ^ (127 : ℤ)) (by simp [hugeBox])
      have h2 := Ieee.ulp_pos 127
      linarith
    · exact hno 0 hf
    · have hy' : y = 2 ^ (127 : ℤ) := (EReal.coe_eq_coe_iff.mp (Option.some.inj hx)).symm
      subst hy'
      exact hy hugeBox (by simp) (fun _ => -2 ^ (127 : ℤ)) (by simp [hugeBox]) hov

/-- Building a tree of this box alone is defined: its centroid is the origin. -/
example (b b' b'' : Bool) : ∀ g ∈ [hugeBox], ((curve64 (Ieee.float b) (Ieee.float b') (Ieee.double b'') 3).project (Ieee.float b) floatMax [hugeBox]
    ((Ieee.float b).centroid g)).isSome := by
  have hr := float_pow b (a := 127) (by norm_num) (by norm_num)
  refine (values_positions_defined_iff _ (morton_curves_fine 3 (by norm_num) (by norm_num) b b' b'' _ (.inl rfl)).2.1.toOk (Ieee.float b) (Ieee.gradual_float b) _ _
    (hugeBox_ok b)).mpr fun d => .inr fun g hg => ?_
  rw [List.mem_singleton.mp hg]
  refine ⟨0, ?_, ?_, hugeBox, by simp, fun _ => -2 ^ (127 : ℤ), by simp [hugeBox], ?_⟩
  · simp only [hugeBox, Format.centroid, List.foldl_cons, List.foldl_nil]
    rw [nsub_coe, sub_self, (Ieee.float b).rnd_zero']
    have h2 : (([fun _ => -2 ^ (127 : ℤ), fun _ => 2 ^ (127 : ℤ)] : Hull 3).length : ℝ) = 2 := by simp
    rw [h2]
    unfold Format.quotient
    dsimp only
    rw [if_neg (by rintro (h | h); exacts [EReal.coe_ne_top _ h, EReal.coe_ne_bot _ h]), if_neg (by exact_mod_cast (two_ne_zero : (2 : ℝ) ≠ 0)), EReal.toReal_coe]
    congr 1
    simp [Format.rayQuot, (Ieee.float b).rnd_zero]
  · intro g hg v hv
    rw [List.mem_singleton.mp hg] at hv
    simp only [hugeBox, List.mem_cons, List.not_mem_nil, or_false] at hv
    rcases hv with rfl | rfl
    · rw [zero_sub, neg_neg, hr]; exact EReal.coe_ne_top _
    · rw [zero_sub, (Ieee.float b).neg, hr, ← EReal.coe_neg]; exact EReal.coe_ne_top _
  · rw [zero_sub, neg_neg, hr]; exact EReal.coe_ne_bot _

end ArborX.Fp
