import Verif.Fp.DenseNanModel
import Verif.Fp.Valid
import Verif.Fp.DenseBoxExample

/-!
# Property theorems: FDBSCAN-DenseBox on points with NaN and infinite coordinates (C106)
-/

namespace ArborX.Fp

open Nearest Geometry

variable {D : ℕ}

/-! ## Lemmas -/

lemma minWith_le_coord (b x : EReal) : minWith b (some x) ≤ x := by
  unfold minWith
  by_cases h : x < b
  · simp [nanLt, h]
  · simpa [nanLt, h] using not_lt.mp h

lemma coord_le_maxWith (b x : EReal) : x ≤ maxWith b (some x) := by
  unfold maxWith
  by_cases h : b < x
  · simp [nanLt, h]
  · simpa [nanLt, h] using not_lt.mp h

lemma foldl_minWith_le (d : Fin D) (pts : List (Fin D → Num)) (m : EReal) : pts.foldl (fun m p => minWith m (p d)) m ≤ m := by
  induction pts generalizing m with
  | nil => exact le_rfl
  | cons p pts ih => exact (ih _).trans (minWith_le _ _)

lemma le_foldl_maxWith (d : Fin D) (pts : List (Fin D → Num)) (m : EReal) : m ≤ pts.foldl (fun m p => maxWith m (p d)) m := by
  induction pts generalizing m with
  | nil => exact le_rfl
  | cons p pts ih => exact (le_maxWith _ _).trans (ih _)

/-- The bounds contain every coordinate that is not NaN. -/
lemma nlo_le (M : ℝ) (pts : List (Fin D → Num)) (p : Fin D → Num) (hp : p ∈ pts) (d : Fin D) (x : EReal) (hx : p d = some x) : nlo M pts d ≤ x := by
  unfold nlo
  generalize (M : EReal) = m
  induction pts generalizing m with
  | nil => simp at hp
  | cons q pts ih =>
    rcases List.mem_cons.mp hp with rfl | hp
    · rw [List.foldl_cons, hx]
      exact (foldl_minWith_le d pts _).trans (minWith_le_coord _ _)
    · exact ih hp _

lemma le_nhi (M : ℝ) (pts : List (Fin D → Num)) (p : Fin D → Num) (hp : p ∈ pts) (d : Fin D) (x : EReal) (hx : p d = some x) : x ≤ nhi M pts d := by
  unfold nhi
  generalize ((-M : ℝ) : EReal) = m
  induction pts generalizing m with
  | nil => simp at hp
  | cons q pts ih =>
    rcases List.mem_cons.mp hp with rfl | hp
    · rw [List.foldl_cons, hx]
      exact (coord_le_maxWith _ _).trans (le_foldl_maxWith d pts _)
    · exact ih hp _

lemma quotient_finite (F : Format) (x : Num) (h : ℝ) (hh : 0 < h) (q : EReal) (hq : q ≠ ⊤ ∧ q ≠ ⊥) (e : F.quotient x (some (h : EReal)) = some q) :
    ∃ y : ℝ, x = some (y : EReal) := by
  cases x with
  | none => simp [Format.quotient] at e
  | some x =>
    have h0 : (h : EReal) ≠ 0 := by exact_mod_cast hh.ne'
    simp only [Format.quotient, EReal.coe_ne_top, EReal.coe_ne_bot, or_self, if_false, if_neg h0, Option.some.injEq, EReal.toReal_coe] at e
    induction x with
    | bot =>
      simp only [Format.rayQuot, bot_ne_top, if_false, if_true, if_pos hh] at e
      exact absurd e.symm hq.2
    | top =>
      simp only [Format.rayQuot, if_true, if_pos hh] at e
      exact absurd e.symm hq.1
    | coe x => exact ⟨x, rfl⟩

lemma ceilSize_some {x : Num} {n : ℕ} (h : ceilSize x = some n) : ∃ q, x = some q ∧ q ≠ ⊤ ∧ q ≠ ⊥ := by
  cases x with
  | none => simp [ceilSize] at h
  | some x =>
    unfold ceilSize at h
    dsimp only at h
    split_ifs at h with h1
    · exact ⟨x, rfl, fun e => h1 (.inl e), fun e => h1 (.inr e)⟩

lemma floorInt_some {x : Num} {n : ℤ} (h : floorInt x = some n) : ∃ q, x = some q ∧ q ≠ ⊤ ∧ q ≠ ⊥ := by
  cases x with
  | none => simp [floorInt] at h
  | some x =>
    unfold floorInt at h
    dsimp only at h
    split_ifs at h with h1
    · exact ⟨x, rfl, fun e => h1 (.inl e), fun e => h1 (.inr e)⟩

/-- A size is computed only if both bounds are finite. -/
lemma gridSize_ok (F : Format) (lo hi : EReal) (h : ℝ) (hh : 0 < h) (n : ℕ) (e : F.gridSize lo hi h = .ok n) : ∃ a b : ℝ, lo = a ∧ hi = b := by
  have key : ∀ z : ℝ, F.nsub (some hi) (some lo) = some (z : EReal) → ∃ a b : ℝ, lo = a ∧ hi = b := by
    intro z hz
    obtain ⟨b, a, h1, h2, -⟩ := nsub_finite F _ _ z hz
    exact ⟨a, b, Option.some.inj h2, Option.some.inj h1⟩
  unfold Format.gridSize at e
  dsimp only at e
  split_ifs at e with hne
  · split at e
    · cases e
    · rename_i m hm
      obtain ⟨q, hq, hf⟩ := ceilSize_some hm
      obtain ⟨z, hz⟩ := quotient_finite F _ h hh q hf hq
      exact key z hz
  · have : F.nsub (some hi) (some lo) = some ((0 : ℝ) : EReal) := by
      cases hd : F.nsub (some hi) (some lo) with
      | none => rw [hd] at hne; simp [nanNe] at hne
      | some x => rw [hd] at hne; simpa [nanNe] using hne
    exact key 0 this

lemma gridSizes_ok (F : Format) (lo hi : Fin D → EReal) (h : ℝ) (hh : 0 < h) (ds : List (Fin D)) (l : List ℕ) (e : F.gridSizes lo hi h ds = .ok l) :
    l.length = ds.length ∧ ∀ d ∈ ds, ∃ a b : ℝ, lo d = a ∧ hi d = b := by
  induction ds generalizing l with
  | nil =>
    unfold Format.gridSizes at e
    cases e
    simp
  | cons d ds ih =>
    unfold Format.gridSizes at e
    cases h1 : F.gridSize (lo d) (hi d) h with
    | rejected => rw [h1] at e; cases e
    | undefined => rw [h1] at e; cases e
    | ok n =>
      rw [h1] at e
      cases h2 : F.gridSizes lo hi h ds with
      | rejected => rw [h2] at e; cases e
      | undefined => rw [h2] at e; cases e
      | ok l' =>
        rw [h2] at e
        cases e
        obtain ⟨hl, hd⟩ := ih l' h2
        refine ⟨by simp [hl], fun d' hd' => ?_⟩
        rcases List.mem_cons.mp hd' with rfl | hd'
        · exact gridSize_ok F _ _ h hh n h1
        · exact hd d' hd'

lemma gridBuild_ok (F : Format) (lo hi : Fin D → EReal) (h prec : ℝ) (n : List ℕ) (e : F.gridBuild lo hi h prec = .ok n) :
    0 < h ∧ n.length = D ∧ ∀ d, ∃ a b : ℝ, lo d = a ∧ hi d = b := by
  unfold Format.gridBuild at e
  by_cases hh : h > 0
  swap
  · rw [if_neg hh] at e
    cases e
  rw [if_pos hh] at e
  cases h1 : F.gridSizes lo hi h (List.finRange D) with
  | rejected => rw [h1] at e; cases e
  | undefined => rw [h1] at e; cases e
  | ok l =>
    rw [h1] at e
    dsimp only at e
    split_ifs at e
    cases e
    obtain ⟨hl, hd⟩ := gridSizes_ok F lo hi h hh _ _ h1
    exact ⟨hh, by simpa using hl, fun d => hd d (List.mem_finRange d)⟩

lemma cellLoop_some (F : Format) (lo : Fin D → EReal) (h : ℝ) (p : Fin D → Num) (ds : List (Fin D)) (ns : List ℕ) (hl : ns.length = ds.length) (c : ℤ)
    (e : F.cellLoop lo h p ds ns = some c) : ∀ d ∈ ds, p d ≠ none := by
  induction ds generalizing ns c with
  | nil => simp
  | cons d ds ih =>
    cases ns with
    | nil => simp at hl
    | cons n ns =>
      unfold Format.cellLoop at e
      cases h1 : floorInt (F.quotient (F.nsub (p d) (some (lo d))) (some (h : EReal))) with
      | none => rw [h1] at e; simp at e
      | some i =>
        cases h2 : F.cellLoop lo h p ds ns with
        | none => rw [h1, h2] at e; simp at e
        | some s =>
          intro d' hd'
          rcases List.mem_cons.mp hd' with rfl | hd'
          · intro hp
            rw [hp] at h1
            simp [Format.nsub, Format.quotient, floorInt] at h1
          · exact ih ns (by simpa using hl) s h2 d' hd'

lemma cellsOf_some (F : Format) (lo : Fin D → EReal) (h : ℝ) (n : List ℕ) (pts : List (Fin D → Num)) (cs : List ℤ) (e : F.cellsOf lo h n pts = some cs) :
    cs.length = pts.length ∧ ∀ p ∈ pts, ∃ c, F.cellLoop lo h p (List.finRange D) n = some c := by
  induction pts generalizing cs with
  | nil =>
    unfold Format.cellsOf at e
    cases e
    simp
  | cons p pts ih =>
    unfold Format.cellsOf at e
    cases h1 : F.cellLoop lo h p (List.finRange D) n with
    | none => rw [h1] at e; simp at e
    | some c =>
      cases h2 : F.cellsOf lo h n pts with
      | none => rw [h1, h2] at e; simp at e
      | some cs' =>
        rw [h1, h2] at e
        cases e
        obtain ⟨hl, hc⟩ := ih cs' h2
        refine ⟨by simp [hl], fun q hq => ?_⟩
        rcases List.mem_cons.mp hq with rfl | hq
        · exact ⟨c, h1⟩
        · exact hc q hq

/-- A point with finite coordinates. -/
def lift (p : Pt ℝ D) : Fin D → Num := fun d => some (p d : EReal)

lemma minWith_coe (a b : ℝ) : minWith (a : EReal) (some (b : EReal)) = ((min a b : ℝ) : EReal) := by
  unfold minWith
  by_cases h : b < a
  · rw [min_eq_right h.le]
    simp [nanLt, h]
  · rw [min_eq_left (not_lt.mp h)]
    simp [nanLt, h]

lemma maxWith_coe (a b : ℝ) : maxWith (a : EReal) (some (b : EReal)) = ((max a b : ℝ) : EReal) := by
  unfold maxWith
  by_cases h : a < b
  · rw [max_eq_right h.le]
    simp [nanLt, h]
  · rw [max_eq_left (not_lt.mp h)]
    simp [nanLt, h]

lemma nlo_lift (M : ℝ) (pts : List (Pt ℝ D)) (d : Fin D) : nlo M (pts.map lift) d = (((boundsOf M pts).lo d : ℝ) : EReal) := by
  have : ∀ B : Box ℝ D, (pts.map lift).foldl (fun m p => minWith m (p d)) ((B.lo d : ℝ) : EReal) = (((pts.foldl Box.expandPoint B).lo d : ℝ) : EReal) := by
    induction pts with
    | nil => intro B; rfl
    | cons p pts ih =>
      intro B
      rw [List.map_cons, List.foldl_cons, List.foldl_cons, ← ih (B.expandPoint p)]
      congr 1
      exact minWith_coe _ _
  exact this (Box.empty M)

lemma nhi_lift (M : ℝ) (pts : List (Pt ℝ D)) (d : Fin D) : nhi M (pts.map lift) d = (((boundsOf M pts).hi d : ℝ) : EReal) := by
  have : ∀ B : Box ℝ D, (pts.map lift).foldl (fun m p => maxWith m (p d)) ((B.hi d : ℝ) : EReal) = (((pts.foldl Box.expandPoint B).hi d : ℝ) : EReal) := by
    induction pts with
    | nil => intro B; rfl
    | cons p pts ih =>
      intro B
      rw [List.map_cons, List.foldl_cons, List.foldl_cons, ← ih (B.expandPoint p)]
      congr 1
      exact maxWith_coe _ _
  exact this (Box.empty M)

/-- The quotient of two finite numbers in order, in the two models. -/
lemma quotient_quot (F : Format) (x y h : ℝ) (hh : 0 < h) (hxy : y ≤ x) (hq : F.quot x y h ≠ ⊤) :
    F.quotient (F.nsub (some (x : EReal)) (some (y : EReal))) (some (h : EReal)) = some (((F.quot x y h).toReal : ℝ) : EReal) := by
  have h0 : (h : EReal) ≠ 0 := by exact_mod_cast hh.ne'
  rw [nsub_coe]
  simp only [Format.quotient, EReal.coe_ne_top, EReal.coe_ne_bot, or_self, if_false, if_neg h0, EReal.toReal_coe]
  have hz : ¬(F.rnd (x - y) = ⊤ ∨ F.rnd (x - y) = ⊥) := fun hc => hq (by unfold Format.quot; rw [if_pos hc])
  have hpos : 0 ≤ F.rnd (x - y) := by
    rw [← F.rnd_zero]
    exact F.mono (by linarith)
  have hpos' : 0 ≤ (F.rnd (x - y)).toReal := EReal.toReal_nonneg hpos
  have e : F.quot x y h = F.rnd ((F.rnd (x - y)).toReal / h) := by unfold Format.quot; rw [if_neg hz]
  have hb : F.quot x y h ≠ ⊥ := by
    rw [e]
    have : 0 ≤ F.rnd ((F.rnd (x - y)).toReal / h) := by
      rw [← F.rnd_zero]
      exact F.mono (div_nonneg hpos' hh.le)
    intro hc
    rw [hc] at this
    simp at this
  rw [EReal.coe_toReal hq hb, e]
  unfold Format.rayQuot
  push Not at hz
  rw [if_neg hz.1, if_neg hz.2]

lemma gridSize_lift (F : Format) (lo hi h : ℝ) (hh : 0 < h) (hle : lo ≤ hi) (hq : F.quot hi lo h ≠ ⊤) (hq0 : F.rnd (hi - lo) ≠ 0 → F.quot hi lo h ≠ 0)
    (hn0 : DenseBox.cellCount ((F.quot hi lo h).toReal - 0) 1 ≠ 0) (hn : DenseBox.cellCount ((F.quot hi lo h).toReal - 0) 1 < 2 ^ 64) :
    F.gridSize (lo : EReal) (hi : EReal) h = .ok (DenseBox.cellCount ((F.quot hi lo h).toReal - 0) 1) := by
  unfold Format.gridSize
  dsimp only
  rw [quotient_quot F hi lo h hh hle hq]
  have hpos : 0 ≤ F.rnd (hi - lo) := by
    rw [← F.rnd_zero]
    exact F.mono (by linarith)
  by_cases h0 : F.rnd (hi - lo) = 0
  · have : ¬nanNe (F.nsub (some (hi : EReal)) (some (lo : EReal))) (some 0) := by
      rw [nsub_coe, h0]
      simp [nanNe]
    rw [if_neg this]
    have : F.quot hi lo h = 0 := by
      unfold Format.quot
      rw [h0, if_neg (by simp), EReal.toReal_zero, zero_div, F.rnd_zero]
    rw [this]
    simp [DenseBox.cellCount]
  · have hne : nanNe (F.nsub (some (hi : EReal)) (some (lo : EReal))) (some 0) := by
      rw [nsub_coe]
      exact h0
    rw [if_pos hne]
    have hz : ¬(F.rnd (hi - lo) = ⊤ ∨ F.rnd (hi - lo) = ⊥) := fun hc => hq (by unfold Format.quot; rw [if_pos hc])
    have hqp : 0 ≤ F.quot hi lo h := by
      unfold Format.quot
      rw [if_neg hz, ← F.rnd_zero]
      exact F.mono (div_nonneg (EReal.toReal_nonneg hpos) hh.le)
    have hqr : 0 ≤ (F.quot hi lo h).toReal := EReal.toReal_nonneg hqp
    have hqz : (F.quot hi lo h).toReal ≠ 0 := by
      intro hc
      rcases EReal.toReal_eq_zero_iff.mp hc with h1 | h1 | h1
      · exact hq0 h0 h1
      · exact hq h1
      · rw [h1] at hqp
        simp at hqp
    unfold DenseBox.cellCount at hn0 hn ⊢
    rw [if_pos (by rwa [sub_zero])] at hn0 hn ⊢
    rw [sub_zero, div_one] at hn0 hn ⊢
    have hc0 : 0 ≤ ⌈(F.quot hi lo h).toReal⌉ := Int.ceil_nonneg hqr
    have : ceilSize (some (((F.quot hi lo h).toReal : ℝ) : EReal)) = some ⌈(F.quot hi lo h).toReal⌉.toNat := by
      unfold ceilSize
      dsimp only
      rw [if_neg (by simp), EReal.toReal_coe, if_pos ⟨hc0, by omega⟩]
    rw [this]
    dsimp only
    rw [if_pos (by omega)]

lemma gridSizes_lift (F : Format) (lo hi : Fin D → EReal) (h : ℝ) (n : Fin D → ℕ) (hs : ∀ d, F.gridSize (lo d) (hi d) h = .ok (n d)) (ds : List (Fin D)) :
    F.gridSizes lo hi h ds = .ok (ds.map n) := by
  induction ds with
  | nil => rfl
  | cons d ds ih =>
    unfold Format.gridSizes
    rw [hs d, ih]
    rfl

lemma imprecise_lift (F : Format) (lo h prec : ℝ) (hh : 0 < h) (hl : ¬(lo ≠ 0 ∧ F.rnd |h / lo| < prec)) : F.imprecise (lo : EReal) h prec = false := by
  unfold Format.imprecise
  by_cases h0 : lo = 0
  · have hp : (0 : EReal) < h := by exact_mod_cast hh
    rw [h0]
    simp only [Format.quotient, EReal.coe_zero, EReal.zero_ne_top, EReal.zero_ne_bot, or_self, if_false, if_true, if_neg hp.ne', if_pos hp, Option.map_some]
    simp [nanLt]
  · have h0' : (lo : EReal) ≠ 0 := by exact_mod_cast h0
    simp only [Format.quotient, EReal.coe_ne_top, EReal.coe_ne_bot, or_self, if_false, if_neg h0', EReal.toReal_coe, Option.map_some]
    rw [Format.rayQuot_coe]
    have : max (F.rnd (h / lo)) (-F.rnd (h / lo)) = F.rnd |h / lo| := by
      rcases le_total 0 (h / lo) with hs | hs
      · rw [abs_of_nonneg hs, max_eq_left]
        rw [← F.neg]
        exact F.mono (by linarith)
      · rw [abs_of_nonpos hs, F.neg, max_eq_right]
        rw [← F.neg]
        exact F.mono (by linarith)
    rw [this]
    unfold nanLt
    rw [decide_eq_false_iff_not]
    exact fun hc => hl ⟨h0, hc⟩

lemma cellLoop_lift (F : Format) (g : FGrid D) (hg : (∀ a, g.unit.lo a = 0) ∧ ∀ a, g.unit.h a = 1) (hh : 0 < g.h) (p : Pt ℝ D) (hp : ∀ a, g.lo a ≤ p a)
    (hq : ∀ a, F.quot (p a) (g.lo a) g.h ≠ ⊤) (ds : List (Fin D)) (c : ℕ) (hc : g.unit.index (F.quots g.lo g.h p) ds = some c) :
    F.cellLoop (fun a => (g.lo a : EReal)) g.h (lift p) ds (ds.map g.unit.n) = some (c : ℤ) := by
  induction ds generalizing c with
  | nil =>
    simp only [DenseBox.Grid.index, Option.some.injEq] at hc
    rw [← hc]
    rfl
  | cons a ds ih =>
    unfold DenseBox.Grid.index at hc
    cases h1 : g.unit.coord (F.quots g.lo g.h p) a with
    | none => rw [h1] at hc; simp at hc
    | some i =>
      cases h2 : g.unit.index (F.quots g.lo g.h p) ds with
      | none => rw [h1, h2] at hc; simp at hc
      | some s =>
        rw [h1, h2] at hc
        simp only [Option.some.injEq] at hc
        rw [List.map_cons]
        unfold Format.cellLoop
        rw [ih s h2]
        have h3 : floorInt (F.quotient (F.nsub (lift p a) (some (g.lo a : EReal))) (some (g.h : EReal))) = some (i : ℤ) := by
          unfold lift
          rw [quotient_quot F (p a) (g.lo a) g.h hh (hp a) (hq a)]
          unfold DenseBox.Grid.coord at h1
          dsimp only at h1
          rw [hg.1 a, hg.2 a, sub_zero, div_one] at h1
          split_ifs at h1 with hr
          unfold Format.quots at h1 hr
          unfold floorInt
          dsimp only
          rw [if_neg (by simp), EReal.toReal_coe, if_pos ⟨by omega, hr.2⟩]
          have := Option.some.inj h1
          congr 1
          omega
        rw [h3]
        dsimp only
        rw [← hc]
        push_cast
        rfl

lemma cellsOf_lift (F : Format) (lo : Fin D → EReal) (h : ℝ) (n : List ℕ) (pts : List (Pt ℝ D)) (c : Pt ℝ D → ℤ)
    (hc : ∀ p ∈ pts, F.cellLoop lo h (lift p) (List.finRange D) n = some (c p)) : F.cellsOf lo h n (pts.map lift) = some (pts.map c) := by
  induction pts with
  | nil => rfl
  | cons p pts ih =>
    rw [List.map_cons]
    unfold Format.cellsOf
    rw [hc p List.mem_cons_self, ih fun q hq => hc q (List.mem_cons_of_mem _ hq)]
    rfl

lemma bounds_lo_le (M : ℝ) (pts : List (Pt ℝ D)) (p : Pt ℝ D) (hp : p ∈ pts) (d : Fin D) : (boundsOf M pts).lo d ≤ p d := by
  have := nlo_le M (pts.map lift) (lift p) (List.mem_map_of_mem hp) d _ rfl
  rw [nlo_lift] at this
  exact_mod_cast this

lemma bounds_le_hi (M : ℝ) (pts : List (Pt ℝ D)) (p : Pt ℝ D) (hp : p ∈ pts) (d : Fin D) : p d ≤ (boundsOf M pts).hi d := by
  have := le_nhi M (pts.map lift) (lift p) (List.mem_map_of_mem hp) d _ rfl
  rw [nhi_lift] at this
  exact_mod_cast this

/-- The grid is accepted here if it is accepted in the model with finite points. -/
lemma gridBuild_lift (F : Format) (M h prec : ℝ) (pts : List (Pt ℝ D)) (hne : pts ≠ []) (g : FGrid D) (hg : FGrid.build F (boundsOf M pts) h prec = some g) :
    0 < h ∧ g.lo = (boundsOf M pts).lo ∧ g.h = h ∧ ((∀ a, g.unit.lo a = 0) ∧ ∀ a, g.unit.h a = 1) ∧
    F.gridBuild (nlo M (pts.map lift)) (nhi M (pts.map lift)) h prec = .ok ((List.finRange D).map g.unit.n) := by
  unfold FGrid.build at hg
  split_ifs at hg with h1 h2 h3 h4
  push Not at h2 h3
  obtain ⟨u, hu, rfl⟩ := Option.map_eq_some_iff.mp hg
  unfold DenseBox.Grid.build at hu
  rw [if_neg (by simp)] at hu
  dsimp only at hu
  split_ifs at hu with u1 u2 u3
  obtain ⟨p, hp⟩ := List.exists_mem_of_ne_nil _ hne
  rw [← Option.some.inj hu]
  refine ⟨h1, rfl, rfl, ⟨fun _ => rfl, fun _ => rfl⟩, ?_⟩
  have hs : ∀ d, F.gridSize (nlo M (pts.map lift) d) (nhi M (pts.map lift) d) h = .ok (DenseBox.cellCount (F.quots (boundsOf M pts).lo h (boundsOf M pts).hi d - (0 : Fin D → ℝ) d) 1) := by
    intro d
    have hu1 : DenseBox.cellCount (F.quots (boundsOf M pts).lo h (boundsOf M pts).hi d - (0 : Fin D → ℝ) d) 1 ≠ 0 ∧
        DenseBox.cellCount (F.quots (boundsOf M pts).lo h (boundsOf M pts).hi d - (0 : Fin D → ℝ) d) 1 < 2 ^ 64 := by
      have := u1
      rw [List.any_eq_true] at this
      push Not at this
      have := this d (List.mem_finRange d)
      rw [ne_eq, Bool.or_eq_true, decide_eq_true_eq, decide_eq_true_eq, not_or, not_le] at this
      exact this
    rw [nlo_lift, nhi_lift]
    exact gridSize_lift F _ _ h h1 ((bounds_lo_le M pts p hp d).trans (bounds_le_hi M pts p hp d)) (h2 d) (h3 d) hu1.1 hu1.2
  unfold Format.gridBuild
  rw [if_pos h1, gridSizes_lift F _ _ h _ hs]
  dsimp only
  rw [if_pos (by simpa using u2), if_neg]
  rw [List.any_eq_true]
  rintro ⟨d, -, hd⟩
  rw [nlo_lift, imprecise_lift F _ h prec h1 (fun hc => h4 ⟨d, hc⟩)] at hd
  cases hd

/-! ## Property theorems -/

/-- **C106.** The cells of the points are computed only if all coordinates of all points are finite numbers. -/
theorem dense_cells_finite (F : Format) (M h prec : ℝ) (pts : List (Fin D → Num)) (cs : List ℤ) (e : F.denseCells M h prec pts = .ok cs) :
    cs.length = pts.length ∧ ∀ p ∈ pts, FinitePoint p := by
  unfold Format.denseCells at e
  cases h1 : F.gridBuild (nlo M pts) (nhi M pts) h prec with
  | rejected => rw [h1] at e; cases e
  | undefined => rw [h1] at e; cases e
  | ok n =>
    rw [h1] at e
    dsimp only at e
    cases h2 : F.cellsOf (nlo M pts) h n pts with
    | none => rw [h2] at e; cases e
    | some cs' =>
      rw [h2] at e
      cases e
      obtain ⟨hh, hl, hb⟩ := gridBuild_ok F _ _ h prec n h1
      obtain ⟨hlen, hc⟩ := cellsOf_some F _ h n pts _ h2
      refine ⟨hlen, fun p hp d => ?_⟩
      obtain ⟨c, hc⟩ := hc p hp
      obtain ⟨x, hx⟩ := Option.ne_none_iff_exists'.mp (cellLoop_some F _ h p _ n (by simpa using hl) c hc d (List.mem_finRange d))
      obtain ⟨a, b, ha, hb⟩ := hb d
      have h3 := nlo_le M pts p hp d x hx
      have h4 := le_nhi M pts p hp d x hx
      rw [ha] at h3
      rw [hb] at h4
      refine ⟨x.toReal, by rw [hx, EReal.coe_toReal (ne_top_of_le_ne_top (EReal.coe_ne_top b) h4) (ne_bot_of_le_ne_bot (EReal.coe_ne_bot a) h3)]⟩

/-- **C106 (defect).** If a coordinate is NaN and the grid is accepted, the behaviour is undefined. -/
theorem dense_cells_nan (F : Format) (M h prec : ℝ) (pts : List (Fin D → Num)) (p : Fin D → Num) (hp : p ∈ pts) (d : Fin D) (hd : p d = none) (n : List ℕ)
    (hn : F.gridBuild (nlo M pts) (nhi M pts) h prec = .ok n) : F.denseCells M h prec pts = .undefined := by
  cases e : F.denseCells M h prec pts with
  | undefined => rfl
  | ok cs =>
    obtain ⟨x, hx⟩ := (dense_cells_finite F M h prec pts cs e).2 p hp d
    rw [hd] at hx
    cases hx
  | rejected =>
    unfold Format.denseCells at e
    rw [hn] at e
    dsimp only at e
    split at e <;> cases e

/-- **C106 (defect).** If the first coordinate of a point is infinite, the behaviour is undefined: the number of cells is the conversion of an infinite number or a NaN. -/
theorem dense_cells_infinite (F : Format) (M h prec : ℝ) (hh : 0 < h) (pts : List (Fin (D + 1) → Num)) (p : Fin (D + 1) → Num) (hp : p ∈ pts)
    (hd : p 0 = some ⊤ ∨ p 0 = some ⊥) : F.denseCells M h prec pts = .undefined := by
  have hno : F.gridSize (nlo M pts 0) (nhi M pts 0) h = .undefined := by
    have hbad : ¬∃ a b : ℝ, nlo M pts 0 = a ∧ nhi M pts 0 = b := by
      rintro ⟨a, b, ha, hb⟩
      rcases hd with hd | hd
      · have := le_nhi M pts p hp 0 _ hd
        rw [hb] at this
        exact absurd this (not_le.mpr (EReal.coe_lt_top b))
      · have := nlo_le M pts p hp 0 _ hd
        rw [ha] at this
        exact absurd this (not_le.mpr (EReal.bot_lt_coe a))
    cases e : F.gridSize (nlo M pts 0) (nhi M pts 0) h with
    | undefined => rfl
    | ok n => exact absurd (gridSize_ok F _ _ h hh n e) hbad
    | rejected =>
      exfalso
      unfold Format.gridSize at e
      dsimp only at e
      split_ifs at e with hne
      split at e
      · cases e
      · rename_i m hm
        obtain ⟨q, hq, hf⟩ := ceilSize_some hm
        obtain ⟨z, hz⟩ := quotient_finite F _ h hh q hf hq
        obtain ⟨b, a, h1, h2, -⟩ := nsub_finite F _ _ z hz
        exact hbad ⟨a, b, Option.some.inj h2, Option.some.inj h1⟩
  have hs : F.gridSizes (nlo M pts) (nhi M pts) h (List.finRange (D + 1)) = .undefined := by
    rw [List.finRange_succ]
    unfold Format.gridSizes
    rw [hno]
  unfold Format.denseCells Format.gridBuild
  rw [if_pos hh, hs]

/-- **C106.** On finite points the cells are those of the model of `FDBSCAN_DenseBox` for which C77 is proved, if there they are defined. -/
theorem dense_cells_agree (F : Format) (M h prec : ℝ) (pts : List (Pt ℝ D)) (hne : pts ≠ []) (g : FGrid D) (hg : FGrid.build F (boundsOf M pts) h prec = some g)
    (c : Pt ℝ D → ℕ) (hc : ∀ p ∈ pts, g.cellIndex F p = some (c p)) : F.denseCells M h prec (pts.map lift) = .ok (pts.map fun p => (c p : ℤ)) := by
  obtain ⟨hh, hlo, hgh, hu, hb⟩ := gridBuild_lift F M h prec pts hne g hg
  unfold Format.denseCells
  rw [hb]
  dsimp only
  have e : nlo M (pts.map lift) = fun a => (g.lo a : EReal) := by
    funext a
    rw [nlo_lift, hlo]
  rw [e, ← hgh, cellsOf_lift F _ g.h _ pts (fun p => (c p : ℤ)) fun p hp => ?_]
  have := hc p hp
  unfold FGrid.cellIndex at this
  split_ifs at this with hq
  push Not at hq
  exact cellLoop_lift F g hu (hgh ▸ hh) p (fun a => by rw [hlo]; exact bounds_lo_le M pts p hp a) hq _ _ this

/-! ## The hypotheses are satisfiable -/

lemma clear_build (fma : Bool) : FGrid.build (Ieee.float fma) (boundsOf clearCloud.M clearCloud.pts) 2 (5 * 2 ^ (-23 : ℤ)) = some (lineGrid 0 2 (7 / 2) 4) :=
  lineGrid_build _ clear_bounds (by norm_num) (clear_quot fma).2.2 (by norm_num) (by rw [Int.ceil_eq_iff]; norm_num) (by norm_num) (fun h => absurd rfl h)

/-- The points 0, 1 and 7 with cells of length 2 are in cells 0, 0 and 3. -/
lemma clear_cells (fma : Bool) : (Ieee.float fma).denseCells clearCloud.M 2 (5 * 2 ^ (-23 : ℤ)) (clearCloud.pts.map lift) = .ok [0, 0, 3] := by
  have := dense_cells_agree (Ieee.float fma) clearCloud.M 2 (5 * 2 ^ (-23 : ℤ)) clearCloud.pts (by simp [clearCloud, lineCloud]) _ (clear_build fma)
    (fun p => ((lineGrid 0 2 (7 / 2) 4).cellIndex (Ieee.float fma) p).getD 0) ?_
  · rw [this]
    have e : clearCloud.pts = [clearCloud.pt 0, clearCloud.pt 1, clearCloud.pt 2] := by simp [clearCloud, lineCloud, Cloud.pt]
    rw [e]
    simp only [List.map_cons, List.map_nil]
    rw [clear_cell fma 0 (by norm_num), clear_cell fma 1 (by norm_num), clear_cell fma 2 (by norm_num)]
    simp
  · obtain ⟨q0, q1, q2⟩ := clear_quot fma
    intro p hp
    have e : clearCloud.pts = [![0], ![1], ![7]] := by simp [clearCloud, lineCloud]
    rw [e] at hp
    simp only [List.mem_cons, List.not_mem_nil, or_false] at hp
    rcases hp with rfl | rfl | rfl
    · rw [lineGrid_cell _ _ q0 (i := 0) (by norm_num) (by norm_num)]; rfl
    · rw [lineGrid_cell _ _ q1 (i := 0) (by rw [Int.floor_eq_iff]; norm_num) (by norm_num)]; rfl
    · rw [lineGrid_cell _ _ q2 (i := 3) (by rw [Int.floor_eq_iff]; norm_num) (by norm_num)]; rfl

/-- With the point NaN added in front, the grid is the same and the cell of that point is undefined. -/
example (fma : Bool) : (Ieee.float fma).denseCells clearCloud.M 2 (5 * 2 ^ (-23 : ℤ)) ((fun _ => none) :: clearCloud.pts.map lift) = .undefined := by
  refine dense_cells_nan _ _ _ _ _ (fun _ => none) List.mem_cons_self 0 rfl ((List.finRange 1).map (lineGrid 0 2 (7 / 2) 4).unit.n) ?_
  exact (gridBuild_lift (Ieee.float fma) clearCloud.M 2 (5 * 2 ^ (-23 : ℤ)) clearCloud.pts (by simp [clearCloud, lineCloud]) _ (clear_build fma)).2.2.2.2

/-- With the point `+∞` added in front, the size of the grid is undefined. -/
example (fma : Bool) : (Ieee.float fma).denseCells clearCloud.M 2 (5 * 2 ^ (-23 : ℤ)) ((fun _ => some ⊤) :: clearCloud.pts.map lift) = .undefined :=
  dense_cells_infinite _ _ _ _ (by norm_num) _ (fun _ => some ⊤) List.mem_cons_self (.inl rfl)

/-- The cells of 0, 1 and 7 are computed, and these points are finite. -/
example (fma : Bool) : ∀ p ∈ clearCloud.pts.map lift, FinitePoint p := (dense_cells_finite _ _ _ _ _ _ (clear_cells fma)).2

end ArborX.Fp
