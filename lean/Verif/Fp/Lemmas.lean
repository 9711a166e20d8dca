import Verif.Fp.Model
import Verif.Euclid.Lemmas

/-!
# Rounded distances are monotone

What the searches need of the arithmetic: the rounded distance to a smaller box is not smaller than that to a larger one, and distances are symmetric.
-/

namespace ArborX.Fp

open Geometry BVH Euclid

variable {D : ℕ} (F : Format)

namespace Format

lemma rnd_zero : F.rnd 0 = 0 := by
  have h := F.neg 0
  rw [neg_zero] at h
  induction hx : F.rnd 0 using EReal.rec with
  | bot => rw [hx] at h; simp at h
  | top => rw [hx] at h; simp at h
  | coe x =>
    rw [hx, ← EReal.coe_neg, EReal.coe_eq_coe_iff] at h
    have : x = 0 := by linarith
    rw [this]; rfl

lemma rnd_nonneg {x : ℝ} (h : 0 ≤ x) : 0 ≤ F.rnd x := F.rnd_zero ▸ F.mono h

lemma madd_neg (s t : EReal) : F.madd s (-t) = F.madd s t := by
  unfold madd
  have e : (-t = ⊤ ∨ -t = ⊥) = (t = ⊤ ∨ t = ⊥) := by
    rw [EReal.neg_eq_top_iff, EReal.neg_eq_bot_iff]
    exact propext or_comm
  have e2 : (-t).toReal * (-t).toReal = t.toReal * t.toReal := by
    rw [EReal.toReal_neg_eq, neg_mul_neg]
  simp only [e, e2]

/-- A number of the type. -/
def Rounded (s : EReal) : Prop := 0 ≤ s ∧ ∀ x : ℝ, s = x → F.rnd x = x

lemma rounded_rnd {x : ℝ} (h : 0 ≤ x) : F.Rounded (F.rnd x) := ⟨F.rnd_nonneg h, fun y hy => F.idem x y hy⟩

lemma rounded_top : F.Rounded ⊤ := ⟨le_top, fun x hx => absurd hx.symm (EReal.coe_ne_top x)⟩

lemma rounded_madd {s t : EReal} (hs : 0 ≤ s) : F.Rounded (F.madd s t) := by
  have h0 : 0 ≤ s.toReal := EReal.toReal_nonneg hs
  unfold madd
  split_ifs
  · exact F.rounded_top
  · exact F.rounded_rnd (add_nonneg (mul_self_nonneg _) h0)
  · exact F.rounded_top
  · exact F.rounded_rnd (add_nonneg h0 (EReal.toReal_nonneg (F.rnd_nonneg (mul_self_nonneg _))))

lemma ne_bot {s : EReal} (h : 0 ≤ s) : s ≠ ⊥ := fun e => by rw [e] at h; simp at h

/-- Adding a square does not make a number smaller. -/
lemma le_madd {s t : EReal} (hs : F.Rounded s) : s ≤ F.madd s t := by
  obtain ⟨h0, hr⟩ := hs
  unfold madd
  split_ifs with h1 h2 h3
  · exact le_top
  · have hs' : ((s.toReal : ℝ) : EReal) = s := EReal.coe_toReal (fun e => h1 (.inl e)) (ne_bot h0)
    have := F.mono (show s.toReal ≤ t.toReal * t.toReal + s.toReal from le_add_of_nonneg_left (mul_self_nonneg _))
    rwa [hr _ hs'.symm, hs'] at this
  · exact le_top
  · have hs' : ((s.toReal : ℝ) : EReal) = s := EReal.coe_toReal (fun e => h1 (.inl e)) (ne_bot h0)
    have := F.mono (show s.toReal ≤ s.toReal + (F.rnd (t.toReal * t.toReal)).toReal from
      le_add_of_nonneg_right (EReal.toReal_nonneg (F.rnd_nonneg (mul_self_nonneg _))))
    rwa [hr _ hs'.symm, hs'] at this

lemma madd_mono {s s' t t' : EReal} (hs : 0 ≤ s) (hss : s ≤ s') (ht : 0 ≤ t) (htt : t ≤ t') : F.madd s t ≤ F.madd s' t' := by
  have ht' := ht.trans htt
  unfold madd
  by_cases h' : s' = ⊤ ∨ t' = ⊤ ∨ t' = ⊥
  · rw [if_pos h']; exact le_top
  · have h : ¬(s = ⊤ ∨ t = ⊤ ∨ t = ⊥) := by
      rintro (h | h | h)
      · exact h' (.inl (top_le_iff.mp (h ▸ hss)))
      · exact h' (.inr (.inl (top_le_iff.mp (h ▸ htt))))
      · exact ne_bot ht h
    rw [if_neg h, if_neg h']
    push Not at h h'
    have e1 : s.toReal ≤ s'.toReal := EReal.toReal_le_toReal hss (ne_bot hs) h'.1
    have e2 : t.toReal ≤ t'.toReal := EReal.toReal_le_toReal htt h.2.2 h'.2.1
    have e3 : t.toReal * t.toReal ≤ t'.toReal * t'.toReal := mul_self_le_mul_self (EReal.toReal_nonneg ht) e2
    have e4 := F.mono e3
    by_cases hf : F.fma = true
    · rw [if_pos hf, if_pos hf]
      exact F.mono (add_le_add e3 e1)
    · rw [if_neg hf, if_neg hf]
      by_cases hq : F.rnd (t'.toReal * t'.toReal) = ⊤
      · rw [if_pos hq]; exact le_top
      · have hq' : F.rnd (t.toReal * t.toReal) ≠ ⊤ := fun e => hq (top_le_iff.mp (e ▸ e4))
        rw [if_neg hq, if_neg hq']
        exact F.mono (add_le_add e1 (EReal.toReal_le_toReal e4 (ne_bot (F.rnd_nonneg (mul_self_nonneg _))) hq))

lemma step_abs (s : EReal) (x : ℝ) : F.step s (some x) = F.step s (some |x|) := by
  show F.madd s (F.rnd x) = F.madd s (F.rnd |x|)
  rcases abs_choice x with h | h
  · rw [h]
  · rw [h, F.neg, madd_neg]

lemma rounded_step {s : EReal} (hs : F.Rounded s) (x : Option ℝ) : F.Rounded (F.step s x) := by
  cases x with
  | none => exact hs
  | some x => exact F.rounded_madd hs.1

/-- The difference `x` along an axis is not larger than `y`. -/
def GapLe (x y : Option ℝ) : Prop := ∀ a, x = some a → ∃ b, y = some b ∧ |a| ≤ |b|

lemma step_mono {s s' : EReal} (hs : F.Rounded s) (hs' : F.Rounded s') (hss : s ≤ s') {x y : Option ℝ} (h : GapLe x y) : F.step s x ≤ F.step s' y := by
  cases x with
  | none =>
    cases y with
    | none => exact hss
    | some b => exact hss.trans (F.le_madd hs')
  | some a =>
    obtain ⟨b, rfl, hab⟩ := h a rfl
    rw [step_abs, step_abs _ s']
    exact F.madd_mono hs.1 hss (F.rnd_nonneg (abs_nonneg a)) (F.mono hab)

lemma fold_mono {ι : Type} (l : List ι) {g g' : ι → Option ℝ} (h : ∀ d, GapLe (g d) (g' d)) :
    ∀ {s s' : EReal}, F.Rounded s → F.Rounded s' → s ≤ s' →
      l.foldl (fun s d => F.step s (g d)) s ≤ l.foldl (fun s d => F.step s (g' d)) s' := by
  induction l with
  | nil => intro s s' _ _ h; exact h
  | cons a l ih =>
    intro s s' h1 h2 h3
    exact ih (F.rounded_step h1 _) (F.rounded_step h2 _) (F.step_mono h1 h2 h3 (h a))

lemma fold_rounded {ι : Type} (l : List ι) (g : ι → Option ℝ) :
    ∀ {s : EReal}, F.Rounded s → F.Rounded (l.foldl (fun s d => F.step s (g d)) s) := by
  induction l with
  | nil => intro s h; exact h
  | cons a l ih => intro s h1; exact ih (F.rounded_step h1 _)

lemma rounded_zero : F.Rounded 0 := F.rnd_zero ▸ F.rounded_rnd le_rfl

lemma sqrt_mono {s s' : EReal} (hs : 0 ≤ s) (h : s ≤ s') : F.sqrt s ≤ F.sqrt s' := by
  unfold Format.sqrt
  by_cases h' : s' = ⊤
  · rw [if_pos h']; exact le_top
  · rw [if_neg h', if_neg (fun e : s = ⊤ => h' (top_le_iff.mp (e ▸ h)))]
    exact F.mono (Real.sqrt_le_sqrt (EReal.toReal_le_toReal h (ne_bot hs) h'))

lemma sqrt_nonneg (s : EReal) : 0 ≤ F.sqrt s := by
  unfold Format.sqrt
  split_ifs
  · exact le_top
  · exact F.rnd_nonneg (Real.sqrt_nonneg _)

lemma sub_mono {s s' : EReal} (hs : 0 ≤ s) (h : s ≤ s') (r : ℝ) : F.sub s r ≤ F.sub s' r := by
  unfold Format.sub
  by_cases h' : s' = ⊤
  · rw [if_pos h']; exact le_top
  · rw [if_neg h', if_neg (fun e : s = ⊤ => h' (top_le_iff.mp (e ▸ h)))]
    exact F.mono (sub_le_sub_right (EReal.toReal_le_toReal h (ne_bot hs) h') r)

lemma norm_mono {g g' : Fin D → Option ℝ} (h : ∀ d, GapLe (g d) (g' d)) : F.norm g ≤ F.norm g' :=
  F.sqrt_mono (F.fold_rounded _ g F.rounded_zero).1 (F.fold_mono _ h F.rounded_zero F.rounded_zero le_rfl)

lemma norm_nonneg (g : Fin D → Option ℝ) : 0 ≤ F.norm g := F.sqrt_nonneg _

lemma norm_congr {g g' : Fin D → Option ℝ} (h : ∀ d, ∃ a b, g d = some a ∧ g' d = some b ∧ |a| = |b|) : F.norm g = F.norm g' := by
  refine le_antisymm (F.norm_mono fun d => ?_) (F.norm_mono fun d => ?_)
  · obtain ⟨a, b, ha, hb, e⟩ := h d
    intro x hx
    rw [ha, Option.some_inj] at hx
    exact ⟨b, hb, by rw [← hx, e]⟩
  · obtain ⟨a, b, ha, hb, e⟩ := h d
    intro x hx
    rw [hb, Option.some_inj] at hx
    exact ⟨a, ha, by rw [← hx, e]⟩

/-- Rounded distances are symmetric. -/
lemma distPoint_comm (p q : Pt ℝ D) : F.distPoint p q = F.distPoint q p :=
  F.norm_congr (fun _ => ⟨_, _, rfl, rfl, abs_sub_comm _ _⟩)

lemma distPoint_nonneg (p q : Pt ℝ D) : 0 ≤ F.distPoint p q := F.norm_nonneg _

/-- The rounded distance of a point to itself is zero. -/
lemma distPoint_self (p : Pt ℝ D) : F.distPoint p p = 0 := by
  have hm : F.madd 0 0 = 0 := by
    unfold madd
    simp [F.rnd_zero]
  have : ∀ l : List (Fin D), l.foldl (fun s d => F.step s (some (p d - p d))) 0 = 0 := by
    intro l
    induction l with
    | nil => rfl
    | cons a l ih =>
      rw [List.foldl_cons]
      have : F.step 0 (some (p a - p a)) = 0 := by
        show F.madd 0 (F.rnd (p a - p a)) = 0
        rw [sub_self, rnd_zero, hm]
      rw [this]; exact ih
  unfold distPoint norm
  rw [this]
  unfold Format.sqrt
  simp [F.rnd_zero]

/-! ## Boxes -/

lemma clamp_gap {p lo hi x : ℝ} (h1 : lo ≤ x) (h2 : x ≤ hi) :
    |(if p < lo then lo else if p > hi then hi else p) - p| ≤ |x - p| := by
  split_ifs with a b
  · rw [abs_of_pos (by linarith), abs_of_pos (by linarith)]; linarith
  · rw [abs_of_neg (by linarith), abs_of_neg (by linarith)]; linarith
  · rw [sub_self, abs_zero]; exact abs_nonneg _

lemma clamp_mem {p lo hi : ℝ} (h : lo ≤ hi) :
    lo ≤ (if p < lo then lo else if p > hi then hi else p) ∧ (if p < lo then lo else if p > hi then hi else p) ≤ hi := by
  split_ifs with a b
  · exact ⟨le_rfl, h⟩
  · exact ⟨h, le_rfl⟩
  · exact ⟨not_lt.mp a, not_lt.mp b⟩

/-- No point of a box is nearer than the box. -/
lemma distPointBox_le (p : Pt ℝ D) (B : Box ℝ D) {x : Pt ℝ D} (hx : x ∈ B.set) : F.distPointBox p B ≤ F.distPoint p x := by
  refine F.norm_mono (fun d a ha => ⟨_, rfl, ?_⟩)
  rw [Option.some_inj] at ha
  rw [← ha]
  exact clamp_gap (hx d).1 (hx d).2

/-- A larger box is not farther away. -/
lemma distPointBox_mono (p : Pt ℝ D) {B C : Box ℝ D} (hB : B.Valid) (h : B.set ⊆ C.set) : F.distPointBox p C ≤ F.distPointBox p B :=
  F.distPointBox_le p C (h (fun d => clamp_mem (hB d)))

lemma corners {B C : Box ℝ D} (hB : B.Valid) (h : B.set ⊆ C.set) (d : Fin D) : C.lo d ≤ B.lo d ∧ B.hi d ≤ C.hi d :=
  ⟨(h (fun d => ⟨le_rfl, hB d⟩ : B.lo ∈ B.set) d).1, (h (fun d => ⟨hB d, le_rfl⟩ : B.hi ∈ B.set) d).2⟩

lemma distBox_mono {Q B C : Box ℝ D} (hQ : Q.Valid) (hB : B.Valid) (h : B.set ⊆ C.set) : F.distBox Q C ≤ F.distBox Q B := by
  refine F.norm_mono (fun d a ha => ?_)
  have hc := corners hB h d
  have h1 := hQ d
  have h2 := hB d
  unfold boxGap at ha ⊢
  split_ifs at ha with a1 a2
  · rw [Option.some_inj] at ha
    refine ⟨Q.lo d - B.hi d, if_pos (by linarith), ?_⟩
    rw [← ha, abs_of_pos (by linarith), abs_of_pos (by linarith)]
    linarith
  · rw [Option.some_inj] at ha
    refine ⟨B.lo d - Q.hi d, ?_, ?_⟩
    · rw [if_neg (by linarith), if_pos (by linarith)]
    · rw [← ha, abs_of_pos (by linarith), abs_of_pos (by linarith)]
      linarith

/-- The distance of a box to a point of another box. -/
lemma distBox_le {Q C : Box ℝ D} (hQ : Q.Valid) {x : Pt ℝ D} (hx : x ∈ C.set) : F.distBox Q C ≤ F.distPointBox x Q := by
  refine F.norm_mono (fun d a ha => ⟨_, rfl, ?_⟩)
  have hc := hx d
  have h1 := hQ d
  unfold closestPointBox
  unfold boxGap at ha
  split_ifs at ha with a1 a2
  · rw [Option.some_inj] at ha
    rw [if_pos (by linarith), ← ha, abs_of_pos (by linarith), abs_of_pos (by linarith)]
    linarith
  · rw [Option.some_inj] at ha
    rw [if_neg (by linarith), if_pos (show x d > Q.hi d by linarith), ← ha, abs_of_pos (by linarith), abs_of_neg (by linarith)]
    linarith

end Format

/-! ## Tests and distances of geometries -/

/-- Points, and boxes with ordered corners. -/
def Simple : Geom ℝ D → Prop
  | .point _ => True
  | .box B => B.Valid
  | _ => False

/-- Queries: as values, and spheres. -/
def SimpleQuery : Geom ℝ D → Prop
  | .point _ => True
  | .box B => B.Valid
  | .sphere _ => True
  | _ => False

lemma Simple.valid {g : Geom ℝ D} (h : Simple g) : g.Valid := by
  cases g <;> first | exact h | exact trivial | exact h.elim

/-- A box with a value inside passes every test the value passes. -/
lemma intersects_mono {Q g : Geom ℝ D} (hQ : SimpleQuery Q) (hg : Simple g) {C : Box ℝ D} (h : g.set ⊆ C.set) (ht : F.intersects Q g = some true) :
    F.intersects Q (.box C) = some true := by
  cases g with
  | point x =>
    have hx : x ∈ C.set := h rfl
    cases Q with
    | point p => simp [Format.intersects] at ht
    | box B =>
      have ht' : intersectsPointBox x B = true := Option.some_inj.mp ht
      exact congrArg some ((intersects_box_box _ _ hQ (fun d => (hx d).1.trans (hx d).2)).mpr ⟨x, (intersects_point_box _ _).mp ht', hx⟩)
    | sphere S =>
      have ht' : F.distPoint S.center x ≤ S.radius := of_decide_eq_true (Option.some_inj.mp ht)
      exact congrArg some (decide_eq_true ((F.distPointBox_le _ _ hx).trans ht'))
    | _ => exact hQ.elim
  | box B =>
    have hC : C.Valid := fun d => (Format.corners hg h d).1.trans ((hg d).trans (Format.corners hg h d).2)
    cases Q with
    | point p =>
      have ht' : intersectsPointBox p B = true := Option.some_inj.mp ht
      exact congrArg some ((intersects_point_box _ _).mpr (h ((intersects_point_box _ _).mp ht')))
    | box A =>
      have ht' : intersectsBoxBox A B = true := Option.some_inj.mp ht
      obtain ⟨x, hx, hx'⟩ := (intersects_box_box _ _ hQ hg).mp ht'
      exact congrArg some ((intersects_box_box _ _ hQ hC).mpr ⟨x, hx, h hx'⟩)
    | sphere S =>
      have ht' : F.distPointBox S.center B ≤ S.radius := of_decide_eq_true (Option.some_inj.mp ht)
      exact congrArg some (decide_eq_true ((F.distPointBox_mono _ hg h).trans ht'))
    | _ => exact hQ.elim
  | _ => exact hg.elim

/-- All distances between queries and values exist, are not negative, and not below those of the boxes around the values. -/
lemma distance_mono {Q g : Geom ℝ D} (hQ : SimpleQuery Q) (hg : Simple g) :
    ∃ s, F.distance Q g = some s ∧ 0 ≤ s ∧ ∀ C : Box ℝ D, g.set ⊆ C.set → ∃ r, F.distance Q (.box C) = some r ∧ r ≤ s := by
  cases g with
  | point x =>
    cases Q with
    | point p => exact ⟨_, rfl, F.norm_nonneg _, fun C h => ⟨_, rfl, F.distPointBox_le _ _ (h rfl)⟩⟩
    | box B => exact ⟨_, rfl, F.norm_nonneg _, fun C h => ⟨_, rfl, F.distBox_le hQ (h rfl)⟩⟩
    | sphere S =>
      refine ⟨_, rfl, le_max_right _ _, fun C h => ⟨_, rfl, max_le_max_right _ (F.sub_mono (F.norm_nonneg _) ?_ _)⟩⟩
      rw [F.distPoint_comm]
      exact F.distPointBox_le _ _ (h rfl)
    | _ => exact hQ.elim
  | box B =>
    cases Q with
    | point p => exact ⟨_, rfl, F.norm_nonneg _, fun C h => ⟨_, rfl, F.distPointBox_mono _ hg h⟩⟩
    | box A => exact ⟨_, rfl, F.norm_nonneg _, fun C h => ⟨_, rfl, F.distBox_mono hQ hg h⟩⟩
    | sphere S => exact ⟨_, rfl, le_max_right _ _, fun C h => ⟨_, rfl, max_le_max_right _ (F.sub_mono (F.norm_nonneg _) (F.distPointBox_mono _ hg h) _)⟩⟩
    | _ => exact hQ.elim
  | _ => exact hg.elim

end ArborX.Fp
