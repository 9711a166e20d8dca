import Verif.Fp.NanLimits
import Verif.Fp.Curve

/-!
# Property theorems: boxes with nothing in them (C110)

A default-constructed `Box` has its corners the wrong way round, and nothing prevents a user from storing such a box or another one with `min > max` in a tree, or from
asking for the values which intersect one. What is proved here is about the model of `Fp.NanModel`, where nothing is assumed of the corners.
-/

namespace ArborX.Fp

open BVH Nearest

variable {D : ℕ}

/-! ## Specification -/

/-- The default-constructed box (`src/geometry/ArborX_Box.hpp` 33-43), of a type whose largest number is `M`. -/
noncomputable def emptyBox (D : ℕ) (M : ℝ) : NGeo D := .box (fun _ => some (M : EReal)) (fun _ => some (-(M : EReal)))

/-- A value without NaN; the corners of a box may be in any order. -/
def NGeo.NoNan : NGeo D → Prop
  | .point p => ∀ d, ∃ x, p d = some x
  | .box lo hi => ∀ d, ∃ x y, lo d = some x ∧ hi d = some y

/-- The query does not reach the ends of the range of the type: a box with one of its sides before `M` or after `-M`, a point with a coordinate which is not NaN, a ball with a
radius which is not infinite. -/
def NQuery.Inner (M : ℝ) : NQuery D → Prop
  | .box lo hi => ∃ d, (∃ x, hi d = some x ∧ x < (M : EReal)) ∨ ∃ x, lo d = some x ∧ (-M : EReal) < x
  | .point p => ∃ d x, p d = some x
  | .sphere _ r => r ≠ some ⊤

/-- The coordinates are numbers of the type, infinities or NaN. -/
def Format.Numbers (F : Format) (p : Fin D → Option EReal) : Prop := ∀ d, ∀ x : ℝ, p d = some (x : EReal) → F.rnd x = (x : EReal)

/-- The center of a ball has coordinates of the type. -/
def NQuery.Typed (F : Format) : NQuery D → Prop
  | .sphere c _ => F.Numbers c
  | _ => True

/-- `M` is the largest number of the type, its double overflows, and so does the square of its distance `g` to the second largest number. -/
structure Format.SquareOverflows (F : Format) (M : ℝ) : Prop where
  pos : 0 < M
  double : F.rnd (M + M) = ⊤
  gap : ∃ g : ℝ, 0 < g ∧ F.rnd g = (g : EReal) ∧ F.rnd (g * g) = ⊤ ∧ ∀ x : ℝ, F.rnd x = (x : EReal) → x < M → x + g ≤ M

/-! ## Lemmas -/

lemma NGeo.corners_point {M : ℝ} {p : Fin D → Num} {v : NBound D M} (hv : (NGeo.point p).bound M ≤ v) (d : Fin D) {x : EReal} (hx : p d = some x) :
    OrderDual.ofDual v.1.1 d ≤ x ∧ x ≤ v.1.2 d := by
  have h1 : OrderDual.ofDual v.1.1 d ≤ OrderDual.ofDual ((NGeo.point p).bound M).1.1 d := hv.1 d
  have h2 : ((NGeo.point p).bound M).1.2 d ≤ v.1.2 d := hv.2 d
  have e1 : OrderDual.ofDual ((NGeo.point p).bound M).1.1 d = min (M : EReal) x := by rw [← minWith_some, ← hx]; rfl
  have e2 : ((NGeo.point p).bound M).1.2 d = max (-(M : EReal)) x := by rw [← maxWith_some, ← hx]; rfl
  rw [e1] at h1; rw [e2] at h2
  exact ⟨h1.trans (min_le_right _ _), (le_max_right _ _).trans h2⟩

lemma NGeo.corners_box {M : ℝ} {lo hi : Fin D → Num} {v : NBound D M} (hv : (NGeo.box lo hi).bound M ≤ v) (d : Fin D) {x y : EReal}
    (hx : lo d = some x) (hy : hi d = some y) : OrderDual.ofDual v.1.1 d ≤ x ∧ y ≤ v.1.2 d := by
  have h1 : OrderDual.ofDual v.1.1 d ≤ OrderDual.ofDual ((NGeo.box lo hi).bound M).1.1 d := hv.1 d
  have h2 : ((NGeo.box lo hi).bound M).1.2 d ≤ v.1.2 d := hv.2 d
  have e1 : OrderDual.ofDual ((NGeo.box lo hi).bound M).1.1 d = min (M : EReal) x := by rw [← minWith_some, ← hx]; rfl
  have e2 : ((NGeo.box lo hi).bound M).1.2 d = max (-(M : EReal)) y := by rw [← maxWith_some, ← hy]; rfl
  rw [e1] at h1; rw [e2] at h2
  exact ⟨h1.trans (min_le_right _ _), (le_max_right _ _).trans h2⟩

/-- A query with a box or a point accepts the boxes around the values it accepts, whatever the order of the corners. -/
lemma nintersects_mono_any {F : Format} {M : ℝ} {Q : NQuery D} (hQ : ∀ c r, Q ≠ .sphere c r) {g : NGeo D} (hg : g.NoNan) {v : NBound D M}
    (hv : g.bound M ≤ v) (h : F.nintersects Q g = true) : F.nintersects Q (.box v.lo v.hi) = true := by
  cases Q with
  | box lo hi =>
    cases g with
    | point p =>
      simp only [Format.nintersects, ninBox, nboxes, List.all_eq_true, List.mem_finRange, true_implies, Bool.not_eq_true', Bool.or_eq_false_iff,
        nanLt_eq_false] at h ⊢
      intro d
      obtain ⟨x, hx⟩ := hg d
      have hk := NGeo.corners_point hv d hx
      refine ⟨fun a b ha hb => ?_, fun a b ha hb => ?_⟩
      · rw [NBound.hi, Option.some_inj] at ha
        exact ((h d).2 x b hx hb).trans (hk.2.trans_eq ha)
      · rw [NBound.lo, Option.some_inj] at hb
        exact (hb.symm.le.trans hk.1).trans ((h d).1 a x ha hx)
    | box lo' hi' =>
      simp only [Format.nintersects, nboxes, List.all_eq_true, List.mem_finRange, true_implies, Bool.not_eq_true', Bool.or_eq_false_iff,
        nanLt_eq_false] at h ⊢
      intro d
      obtain ⟨x, y, hx, hy⟩ := hg d
      have hk := NGeo.corners_box hv d hx hy
      refine ⟨fun a b ha hb => ?_, fun a b ha hb => ?_⟩
      · rw [NBound.hi, Option.some_inj] at ha
        exact ((h d).1 y b hy hb).trans (hk.2.trans_eq ha)
      · rw [NBound.lo, Option.some_inj] at hb
        exact (hb.symm.le.trans hk.1).trans ((h d).2 a x ha hx)
  | point p =>
    cases g with
    | point q => cases h
    | box lo' hi' =>
      simp only [Format.nintersects, ninBox, List.all_eq_true, List.mem_finRange, true_implies, Bool.not_eq_true', Bool.or_eq_false_iff,
        nanLt_eq_false] at h ⊢
      intro d
      obtain ⟨x, y, hx, hy⟩ := hg d
      have hk := NGeo.corners_box hv d hx hy
      refine ⟨fun a b ha hb => ?_, fun a b ha hb => ?_⟩
      · rw [NBound.hi, Option.some_inj] at ha
        exact ((h d).1 y b hy hb).trans (hk.2.trans_eq ha)
      · rw [NBound.lo, Option.some_inj] at hb
        exact (hb.symm.le.trans hk.1).trans ((h d).2 a x ha hx)
  | sphere c r => exact absurd rfl (hQ c r)

/-- The test of two boxes without NaN. -/
lemma nboxes_iff {lo hi lo' hi' : Fin D → EReal} :
    nboxes (fun d => some (lo d)) (fun d => some (hi d)) (fun d => some (lo' d)) (fun d => some (hi' d)) = true ↔ ∀ d, lo d ≤ hi' d ∧ lo' d ≤ hi d := by
  simp only [nboxes, List.all_eq_true, List.mem_finRange, true_implies, Bool.not_eq_true', Bool.or_eq_false_iff, nanLt_eq_false]
  exact forall_congr' fun d => ⟨fun h => ⟨h.1 _ _ rfl rfl, h.2 _ _ rfl rfl⟩, fun h => ⟨by rintro a b ⟨⟩ ⟨⟩; exact h.1, by rintro a b ⟨⟩ ⟨⟩; exact h.2⟩⟩

lemma madd_square_top {F : Format} {g : ℝ} (hM : 0 < g) (hF : F.rnd (g * g) = ⊤) (s : EReal) (hs : 0 ≤ s) {t : EReal} (ht : (g : EReal) ≤ t) : F.madd s t = ⊤ := by
  unfold Format.madd
  split
  · rfl
  · rename_i hn
    push Not at hn
    obtain ⟨h1, h2, h3⟩ := hn
    lift t to ℝ using ⟨h2, h3⟩
    lift s to ℝ using ⟨h1, fun e => by rw [e] at hs; simp at hs⟩
    have ht' : g ≤ t := EReal.coe_le_coe_iff.mp ht
    have hs' : 0 ≤ s := by exact_mod_cast hs
    have hsq : g * g ≤ t * t := by nlinarith
    have htop : F.rnd (t * t) = ⊤ := top_le_iff.mp (hF ▸ F.mono hsq)
    split
    · exact top_le_iff.mp (htop ▸ F.mono (by simp only [EReal.toReal_coe]; linarith))
    · split
      · rfl
      · rename_i hne
        exact absurd htop hne

/-- Accumulated squares are not negative. -/
lemma nstep_nonneg {F : Format} {s t : Num} (hs : ∀ x, s = some x → 0 ≤ x) : ∀ x, F.nstep s t = some x → 0 ≤ x := by
  intro x hx
  cases s with
  | none => rw [nstep_none_left] at hx; cases hx
  | some s =>
    cases t with
    | none => rw [nstep_none_right] at hx; cases hx
    | some t =>
      have h0 : (0 : EReal) ≤ s := hs s rfl
      have e : F.madd s t = x := by simpa [Format.nstep] using hx
      rw [← e]
      unfold Format.madd
      have hz : F.rnd 0 = 0 := F.rnd_zero
      split
      · exact le_top
      · rename_i hn
        push Not at hn
        obtain ⟨h1, h2, h3⟩ := hn
        lift t to ℝ using ⟨h2, h3⟩
        lift s to ℝ using ⟨h1, fun e => by rw [e] at h0; simp at h0⟩
        have h0' : 0 ≤ s := by exact_mod_cast h0
        split
        · rw [← hz]; exact F.mono (by simp only [EReal.toReal_coe]; nlinarith [mul_self_nonneg t])
        · split
          · exact le_top
          · rw [← hz]
            refine F.mono (add_nonneg h0' (EReal.toReal_nonneg ?_))
            rw [← hz]; exact F.mono (mul_self_nonneg _)

/-- A large term makes the sum infinite or NaN. -/
lemma nfold_large {F : Format} {b : ℝ} (hb : 0 < b) (hF : F.rnd (b * b) = ⊤) {ι : Type} (l : List ι) (g : ι → Num) {i : ι} (hi : i ∈ l) {t : EReal}
    (hg : g i = some t) (ht : (b : EReal) ≤ t) :
    ∀ s : Num, (∀ x, s = some x → 0 ≤ x) →
      l.foldl (fun s d => F.nstep s (g d)) s = none ∨ l.foldl (fun s d => F.nstep s (g d)) s = some ⊤ := by
  induction l with
  | nil => cases hi
  | cons a l ih =>
    intro s hs
    rw [List.foldl_cons]
    rcases List.mem_cons.mp hi with rfl | hi
    · cases s with
      | none => rw [nstep_none_left, nfold_none]; exact .inl rfl
      | some s =>
        have : F.nstep (some s) (g i) = some ⊤ := by
          rw [hg]
          show some (F.madd s t) = _
          rw [madd_square_top hb hF s (hs s rfl) ht]
        rw [this]; exact nfold_top l g
    · exact ih hi _ (nstep_nonneg hs)

/-- The distance of the empty box to any point overflows. -/
lemma ndistBox_empty (hD : 0 < D) {F : Format} {M : ℝ} (hF : F.SquareOverflows M) {c : Fin D → Num} (hc : F.Numbers c) :
    F.ndistance c (emptyBox D M) = none ∨ F.ndistance c (emptyBox D M) = some ⊤ := by
  obtain ⟨g, hg0, hg1, hg2, hg3⟩ := hF.gap
  have hM := hF.pos
  have key : F.ndistance c (emptyBox D M) =
      (List.foldl (fun s d => F.nstep s (F.nsub (nclosest c (fun _ => some (M : EReal)) (fun _ => some (-(M : EReal))) d) (c d))) (some 0) (List.finRange D)).map F.sqrt := rfl
  suffices h : List.foldl (fun s d => F.nstep s (F.nsub (nclosest c (fun _ => some (M : EReal)) (fun _ => some (-(M : EReal))) d) (c d))) (some 0) (List.finRange D) = none ∨
      List.foldl (fun s d => F.nstep s (F.nsub (nclosest c (fun _ => some (M : EReal)) (fun _ => some (-(M : EReal))) d) (c d))) (some 0) (List.finRange D) = some ⊤ by
    rw [key]
    rcases h with h | h
    · left; rw [h]; rfl
    · right; rw [h]; simp [Format.sqrt]
  have hbad := nfold_bad (F := F) (List.finRange D) (fun d => F.nsub (nclosest c (fun _ => some (M : EReal)) (fun _ => some (-(M : EReal))) d) (c d))
    (List.mem_finRange ⟨0, hD⟩)
  cases hx : c ⟨0, hD⟩ with
  | none => refine hbad (.inl ?_) (some 0); rw [hx]; cases nclosest c _ _ _ <;> rfl
  | some x =>
    by_cases hlt : x < (M : EReal)
    · have hcl : nclosest c (fun _ => some (M : EReal)) (fun _ => some (-(M : EReal))) ⟨0, hD⟩ = some (M : EReal) := by
        simp [nclosest, hx, nanLt, hlt]
      induction x using EReal.rec with
      | bot => exact hbad (.inr (.inl (by rw [hcl, hx]; simp [Format.nsub]))) (some 0)
      | top => exact absurd hlt not_top_lt
      | coe x =>
        refine nfold_large hg0 hg2 (List.finRange D) (fun d => F.nsub (nclosest c (fun _ => some (M : EReal)) (fun _ => some (-(M : EReal))) d) (c d))
          (List.mem_finRange ⟨0, hD⟩) (t := F.rnd (M - x)) (by rw [hcl, hx, nsub_coe]) ?_ (some 0) (fun x hx => by rw [Option.some_inj] at hx; exact hx.le)
        rw [← hg1]
        exact F.mono (by linarith [hg3 x (hc _ x hx) (EReal.coe_lt_coe_iff.mp hlt)])
    · have hlt' : -(M : EReal) < x := by
        refine lt_of_lt_of_le ?_ (not_lt.mp hlt)
        rw [← EReal.coe_neg]
        exact EReal.coe_lt_coe_iff.mpr (by linarith)
      have hcl : nclosest c (fun _ => some (M : EReal)) (fun _ => some (-(M : EReal))) ⟨0, hD⟩ = some (-(M : EReal)) := by
        simp [nclosest, hx, nanLt, hlt, hlt']
      induction x using EReal.rec with
      | bot => exact absurd (bot_lt_iff_ne_bot.mpr (EReal.coe_ne_bot M)) hlt
      | top => exact hbad (.inr (.inr (by rw [hcl, hx, ← EReal.coe_neg]; simp [Format.nsub]))) (some 0)
      | coe x =>
        refine hbad (.inr (.inr ?_)) (some 0)
        rw [hcl, hx, ← EReal.coe_neg, nsub_coe]
        have hMx : M ≤ x := EReal.coe_le_coe_iff.mp (not_lt.mp hlt)
        have h1 : F.rnd (M + x) = ⊤ := top_le_iff.mp (hF.double ▸ F.mono (by linarith))
        rw [show -M - x = -(M + x) by ring, F.neg, h1, EReal.neg_top]

/-- No inner query accepts the empty box. -/
lemma nintersects_empty (hD : 0 < D) {F : Format} {M : ℝ} (hF : F.SquareOverflows M) {Q : NQuery D} (hQ : Q.Inner M) (hT : Q.Typed F) : F.nintersects Q (emptyBox D M) = false := by
  have hM := hF.pos
  cases Q with
  | box lo hi =>
    obtain ⟨d, h⟩ := hQ
    show nboxes lo hi _ _ = false
    rw [← Bool.not_eq_true]
    simp only [nboxes, List.all_eq_true, List.mem_finRange, true_implies, Bool.not_eq_true', Bool.or_eq_false_iff, nanLt_eq_false]
    intro hall
    rcases h with ⟨x, hx, hlt⟩ | ⟨x, hx, hlt⟩
    · exact absurd ((hall d).2 x _ hx rfl) (not_le.mpr hlt)
    · exact absurd ((hall d).1 _ x rfl hx) (not_le.mpr hlt)
  | point p =>
    obtain ⟨d, x, hx⟩ := hQ
    show ninBox p _ _ = false
    rw [← Bool.not_eq_true]
    simp only [ninBox, List.all_eq_true, List.mem_finRange, true_implies, Bool.not_eq_true', Bool.or_eq_false_iff, nanLt_eq_false]
    intro hall
    have h1 := (hall d).1 _ x rfl hx
    have h2 := (hall d).2 x _ hx rfl
    have h3 : (M : EReal) ≤ -(M : EReal) := h2.trans h1
    have h4 : M ≤ -M := by rw [← EReal.coe_neg] at h3; exact EReal.coe_le_coe_iff.mp h3
    linarith
  | sphere c r =>
    have hr : r ≠ some ⊤ := hQ
    show nanLe (F.ndistance c (emptyBox D M)) r = false
    rcases ndistBox_empty hD hF hT with h | h
    · rw [h]; rfl
    · rw [h]
      cases r with
      | none => rfl
      | some r =>
        have : r ≠ ⊤ := fun e => hr (by rw [e])
        simpa [nanLe, lt_top_iff_ne_top] using this

/-! ## Property theorems -/

/-- **C110 (partial).** A query for the values that intersect a box, or contain a point, is exact also if boxes among the values, or the one of the query, have their corners the wrong
way round: it calls the callback exactly on the values the test accepts, each once. (Missing: balls, for which it is false, `inverted_box_missed`.) -/
theorem box_query_any_corners_partial (S : NScene D) (h : S.Valid) (hS : ∀ i < S.geo.length, (S.at i).NoNan) (F : Format) (Q : NQuery D) (hQ : ∀ c r, Q ≠ .sphere c r) :
    ∃ calls : List ℕ, (∀ sched, S.input.Finished sched → ∀ fuel, 2 * S.geo.length ≤ fuel →
        Traversal.spatialQuery (S.input.build sched) (S.leafTest F Q) (S.nodeTest F Q) (fun _ => false) fuel = .done calls) ∧
      calls.Nodup ∧ ∀ i, i ∈ calls ↔ i < S.geo.length ∧ F.nintersects Q (S.at i) = true := by
  classical
  obtain ⟨calls, h1, h2, h3⟩ := Traversal.spatial_query_any S.input h.input (S.leafTest F Q) (S.nodeTest F Q)
  rw [NScene.stored_eq] at h2 h3
  have hmem : ∀ i ∈ calls, i < S.geo.length ∧ F.nintersects Q (S.at i) = true := by
    intro i hi
    have := h2.subset hi
    rw [List.mem_filter, List.mem_range] at this
    exact this
  refine ⟨calls, h1, ?_, fun i => ⟨hmem i, fun ⟨hi, ht⟩ => ?_⟩⟩
  · obtain ⟨l, hl, hs⟩ := h2
    exact hl.nodup_iff.mp ((List.nodup_range.filter _).sublist hs)
  · have := h3 (fun i => decide (i < S.geo.length ∧ F.nintersects Q (S.at i) = true)) (by
      intro a ha
      obtain ⟨ha1, ha2⟩ := of_decide_eq_true ha
      exact ⟨ha2, fun v hv => nintersects_mono_any hQ (hS a ha1) hv ha2⟩)
    exact this.subset (List.mem_filter.mpr ⟨List.mem_range.mpr hi, decide_eq_true ⟨hi, ht⟩⟩)

/-- **C110.** What the test means: a box without NaN is reported for a box without NaN exactly if along each axis each begins before the other ends. If the corners of both are in
order they have a common point then; otherwise they never have one, but are reported nevertheless if the query reaches over the gap. -/
theorem box_query_meaning (F : Format) (lo hi lo' hi' : Fin D → EReal) :
    (F.nintersects (.box (fun d => some (lo d)) (fun d => some (hi d))) (.box (fun d => some (lo' d)) (fun d => some (hi' d))) = true ↔
      ∀ d, lo d ≤ hi' d ∧ lo' d ≤ hi d) ∧
    (lo ≤ hi → lo' ≤ hi' →
      (F.nintersects (.box (fun d => some (lo d)) (fun d => some (hi d))) (.box (fun d => some (lo' d)) (fun d => some (hi' d))) = true ↔
        (Set.Icc lo hi ∩ Set.Icc lo' hi').Nonempty)) ∧
    (¬ lo' ≤ hi' → ¬ (Set.Icc lo hi ∩ Set.Icc lo' hi').Nonempty) := by
  have hiff : F.nintersects (.box (fun d => some (lo d)) (fun d => some (hi d))) (.box (fun d => some (lo' d)) (fun d => some (hi' d))) = true ↔
      ∀ d, lo d ≤ hi' d ∧ lo' d ≤ hi d := nboxes_iff
  refine ⟨hiff, fun h h' => hiff.trans ⟨fun hall => ?_, ?_⟩, ?_⟩
  · exact ⟨lo ⊔ lo', ⟨le_sup_left, sup_le h fun d => (hall d).2⟩, ⟨le_sup_right, sup_le (fun d => (hall d).1) h'⟩⟩
  · rintro ⟨x, hx, hx'⟩ d
    exact ⟨(hx.1 d).trans (hx'.2 d), (hx'.1 d).trans (hx.2 d)⟩
  · rintro hn ⟨x, -, hx'⟩
    exact hn (hx'.1.trans hx'.2)

/-- **C110.** Default-constructed boxes among the values do not matter: a query with a box, a point or a ball that does not reach the ends of the range of the type never
reports them, and reports exactly the other values the test accepts. -/
theorem empty_boxes_not_reported (hD : 0 < D) (S : NScene D) (h : S.Valid) (F : Format) (hF : F.SquareOverflows S.M)
    (hS : ∀ i < S.geo.length, (S.at i).Clean ∨ S.at i = emptyBox D S.M) (Q : NQuery D) (hQ : Q.Inner S.M) (hT : Q.Typed F) :
    ∃ calls : List ℕ, (∀ sched, S.input.Finished sched → ∀ fuel, 2 * S.geo.length ≤ fuel →
        Traversal.spatialQuery (S.input.build sched) (S.leafTest F Q) (S.nodeTest F Q) (fun _ => false) fuel = .done calls) ∧
      calls.Nodup ∧ ∀ i, i ∈ calls ↔ i < S.geo.length ∧ S.at i ≠ emptyBox D S.M ∧ F.nintersects Q (S.at i) = true := by
  have hreg : Q.Regular := by
    cases Q with
    | sphere c r => exact .inl hQ
    | _ => trivial
  obtain ⟨calls, h1, h2, h3, h4⟩ := intersects_query_nan S h F Q hreg
  refine ⟨calls, h1, h2, fun i => ⟨fun hi => ⟨(h3 i hi).1, fun e => ?_, (h3 i hi).2⟩, fun ⟨hi, hne, ht⟩ => ?_⟩⟩
  · have := (h3 i hi).2
    rw [e, nintersects_empty hD hF hQ hT] at this
    cases this
  · exact (h4 i hi ((hS i hi).resolve_right hne)).mpr ht

/-- **C110 (partial).** Nor do they for the nearest values: a query `nearest(p, k)` returns the `k` nearest among the
other values, in order, if the tree has more than one value. (Missing: a single value, for which it is false, `lone_empty_box_near`.) -/
theorem empty_boxes_not_near_partial (hD : 0 < D) (S : NScene D) (h : S.Valid) (hn : S.geo.length ≠ 1) (F : Format) (hF : F.SquareOverflows S.M)
    (hS : ∀ i < S.geo.length, (S.at i).Clean ∨ S.at i = emptyBox D S.M) (p : Fin D → Num) (hp : F.Numbers p) (k : ℕ)
    (hcap : StackFits S.input 64) (sched : List ℕ) (hf : S.input.Finished sched) (fuel : ℕ) (hfuel : 2 * S.geo.length ≤ fuel)
    (others : List ℕ) (ho : others.Nodup) (hmem : ∀ i, i ∈ others ↔ i < S.geo.length ∧ S.at i ≠ emptyBox D S.M) :
    ∃ calls, nanNearestQuery (S.input.build sched) (S.nearest F p k) fuel = .done calls ∧
      IsKNearest (fun i => (F.ndistance p (S.at i)).getD ⊤) ⊤ k others calls := by
  classical
  have hfar : ∀ i, S.at i = emptyBox D S.M → ∀ r, F.ndistance p (S.at i) = some r → ¬ r < ⊤ := by
    intro i e r hr hlt
    rw [e] at hr
    rcases ndistBox_empty hD hF hp with h' | h' <;> rw [h'] at hr
    · cases hr
    · rw [Option.some_inj] at hr; exact hlt.ne hr.symm
  have hc : ∀ i, S.at i ≠ emptyBox D S.M → ∀ lo hi, S.at i = .box lo hi → (S.at i).Clean := by
    intro i hne lo hi e
    rcases Nat.lt_or_ge i S.geo.length with hi' | hi'
    · exact (hS i hi').resolve_right hne
    · unfold NScene.at at e
      rw [List.getD_eq_default _ _ hi'] at e
      cases e
  obtain ⟨calls, h1, h2, h3⟩ := nearest_query_nan S.input h.input hn (S.nearest F p k) (fun x => le_top)
    (fun i r e hr => by
      have hne : S.at i ≠ emptyBox D S.M := fun e' => hfar i e' r e hr
      exact ⟨(ndistance_mono (M := S.M) (hc i hne) e hr le_rfl).1, fun v hv => (ndistance_mono (hc i hne) e hr hv).2⟩) hcap sched hf fuel hfuel
  rw [NScene.stored_eq] at h2
  obtain ⟨om, g1, g2, g3, g4, g5, g6⟩ := h2
  refine ⟨calls, h1, om.filter (fun i => decide (S.at i ≠ emptyBox D S.M)), ?_, g2, g3, g4, fun a ha b hb => g5 a ha b (List.mem_filter.mp hb).1,
    fun hk b hb => g6 hk b (List.mem_filter.mp hb).1⟩
  have hcalls : calls.filter (fun i => decide (S.at i ≠ emptyBox D S.M)) = calls := by
    rw [List.filter_eq_self]
    intro i hi
    refine decide_eq_true fun e => ?_
    obtain ⟨r, hr⟩ := h3 i hi
    have := g3 i hi
    have hr' : F.ndistance p (S.at i) = some r := hr
    refine hfar i e r hr' ?_
    have e2 : (F.ndistance p (S.at i)).getD ⊤ < ⊤ := this
    rwa [hr'] at e2
  have hnd : (calls ++ om).Nodup := g1.nodup_iff.mpr List.nodup_range
  have e : calls ++ om.filter (fun i => decide (S.at i ≠ emptyBox D S.M)) = (calls ++ om).filter (fun i => decide (S.at i ≠ emptyBox D S.M)) := by
    rw [List.filter_append, hcalls]
  rw [e, List.perm_ext_iff_of_nodup (hnd.filter _) ho]
  intro i
  rw [List.mem_filter, g1.mem_iff, List.mem_range, hmem, decide_eq_true_iff]

/-- **C110.** The place of a default-constructed box on the space-filling curve is always defined, that of the origin: in a tree of empty boxes only, and in one with other values (whose
vertices are `geo`; empty boxes do not change the bounding box of the scene) that are not too far apart. -/
theorem empty_box_position {w : ℕ} (C : Curve w) (hC : C.Ok) (F : Format) (hF : F.Gradual) (M : ℝ) (hM : 0 < M) (hrep : F.rnd M = (M : EReal))
    (hov : F.rnd (M + M) = ⊤) (geo : List (Hull D)) (h : SceneOk F M geo) (hfit : SceneFits F geo) :
    (∀ d, F.centroid [fun _ : Fin D => M, fun _ => -M] d = some 0) ∧ (C.project F M geo (F.centroid [fun _ : Fin D => M, fun _ => -M])).isSome := by
  have hc : F.centroid [fun _ : Fin D => M, fun _ => -M] = fun _ => some (((0 : ℝ)) : EReal) := by
    funext d
    have h0 : F.rnd 0 = ((0 : ℝ) : EReal) := F.rnd_zero'
    simp only [Format.centroid, List.foldl_cons, List.foldl_nil, neg_neg, nsub_coe, sub_self, h0, List.length_cons, List.length_nil]
    have h2 : ((0 + 1 + 1 : ℕ) : ℝ) = 2 := by norm_num
    have hn : ((2 : ℝ) : EReal) ≠ 0 := by exact_mod_cast (two_ne_zero : (2 : ℝ) ≠ 0)
    rw [h2]
    simp only [Format.quotient, EReal.coe_ne_top, EReal.coe_ne_bot, or_self, if_false, hn, EReal.toReal_coe, Format.rayQuot, zero_div, h0]
  refine ⟨fun d => by rw [hc]; rfl, ?_⟩
  rw [hc]
  by_cases hne : geo = []
  · subst hne
    refine (empty_tree_position C hC F M hM hov (fun _ => 0) (fun _ => hM.le)).mpr fun d => ?_
    rw [zero_sub, F.neg, hrep, ← EReal.coe_neg]
    exact EReal.coe_ne_bot _
  · exact predicate_position_defined_partial C hC F hF M geo h hne hfit (fun _ => ((0 : ℝ) : EReal))

/-! ## Limits -/

/-- **C110 (limits).** If a default-constructed box is the only value, it is returned by every query for nearest values. -/
theorem lone_empty_box_near (M : ℝ) (code : ℕ → BitVec 64) (F : Format) (p : Fin D → Num) (k : ℕ) (hk : 0 < k) (sched : List ℕ) (fuel : ℕ) :
    nanNearestQuery ((⟨[emptyBox D M], M, code, fun i => i⟩ : NScene D).input.build sched) ((⟨[emptyBox D M], M, code, fun i => i⟩ : NScene D).nearest F p k) fuel =
      .done [0] := by
  have hb : (⟨[emptyBox D M], M, code, fun i => i⟩ : NScene D).input.build sched = ⟨1, fun i => if i = 0 then some ⟨none, 0⟩ else none, fun _ => none⟩ := by
    unfold Input.build
    rw [if_neg (by show ¬ 1 = 0; norm_num), if_pos (by rfl)]
    rfl
  rw [hb]
  simp only [nanNearestQuery, nanOneLeaf, one_ne_zero, if_false, if_true]
  rw [if_neg (by show ¬ k < 1; omega)]

/-- The boxes [4, 1] and [0, 1]. -/
noncomputable def invertedLine : NScene 1 :=
  ⟨[.box (fun _ => some ((4 : ℝ) : EReal)) (fun _ => some ((1 : ℝ) : EReal)), .box (fun _ => some ((0 : ℝ) : EReal)) (fun _ => some ((1 : ℝ) : EReal))], 100, fun _ => 0,
    fun i => i⟩

lemma invertedLine_valid : invertedLine.Valid where
  fits := by show 2 ≤ _; norm_num
  sorted := ⟨by show ((List.range _).map (fun i => i)).Perm (List.range _); rw [List.map_id'], fun _ _ => le_rfl⟩
  top := fun _ _ => by show (0 : BitVec 64).toNat < _; simp

/-- **C110 (limits).** For balls and nearest values the order of the corners matters: the box [4, 1] is at distance 1 from 3, so the test accepts it for the ball of radius 1 around 3
(and a search of all values finds it), but in a tree which also has the box [0, 1] it is not found. -/
theorem inverted_box_missed (F : Format) (h1 : F.rnd 1 = ((1 : ℝ) : EReal)) (h2 : F.rnd 2 = ((2 : ℝ) : EReal)) (h4 : F.rnd 4 = ((4 : ℝ) : EReal)) :
    invertedLine.leafTest F (.sphere (fun _ => some ((3 : ℝ) : EReal)) (some ((1 : ℝ) : EReal))) 0 = true ∧
    ∀ sched fuel, invertedLine.input.Finished sched → 4 ≤ fuel →
      Traversal.spatialQuery (invertedLine.input.build sched) (invertedLine.leafTest F (.sphere (fun _ => some ((3 : ℝ) : EReal)) (some ((1 : ℝ) : EReal))))
        (invertedLine.nodeTest F (.sphere (fun _ => some ((3 : ℝ) : EReal)) (some ((1 : ℝ) : EReal)))) (fun _ => false) fuel = .done [] := by
  have hl : List.finRange 1 = [0] := by decide
  have hz : F.rnd 0 = ((0 : ℝ) : EReal) := by rw [F.rnd_zero]; rfl
  have hm2 : F.rnd (-2) = ((-2 : ℝ) : EReal) := by rw [F.neg, h2, EReal.coe_neg]
  have hdist : ∀ x t : ℝ, F.rnd (x - 3) = (t : EReal) → F.rnd (t * t) = ((t * t : ℝ) : EReal) → F.rnd (Real.sqrt (t * t)) = ((Real.sqrt (t * t) : ℝ) : EReal) →
      F.ndist (fun _ : Fin 1 => some ((3 : ℝ) : EReal)) (fun _ => some (x : EReal)) = some ((Real.sqrt (t * t) : ℝ) : EReal) := by
    intro x t e1 e2 e3
    have hm : F.madd 0 (t : EReal) = ((t * t : ℝ) : EReal) := by
      unfold Format.madd
      rw [if_neg (by simp)]
      split
      · simpa using e2
      · rw [EReal.toReal_coe, e2, if_neg (EReal.coe_ne_top _), EReal.toReal_coe, EReal.toReal_zero, zero_add, e2]
    unfold Format.ndist
    rw [hl, List.foldl_cons, List.foldl_nil, nsub_coe, e1]
    show some (F.sqrt (F.madd 0 t)) = _
    rw [hm, Format.sqrt, if_neg (EReal.coe_ne_top _), EReal.toReal_coe, e3]
  constructor
  · have hc : nclosest (fun _ : Fin 1 => some ((3 : ℝ) : EReal)) (fun _ => some ((4 : ℝ) : EReal)) (fun _ => some ((1 : ℝ) : EReal)) = fun _ => some ((4 : ℝ) : EReal) := by
      funext d
      have : ((3 : ℝ) : EReal) < ((4 : ℝ) : EReal) := EReal.coe_lt_coe_iff.mpr (by norm_num)
      simp only [nclosest, nanLt, this, decide_true, if_true]
    show nanLe (F.ndist _ (nclosest (fun _ : Fin 1 => some ((3 : ℝ) : EReal)) (fun _ => some ((4 : ℝ) : EReal)) (fun _ => some ((1 : ℝ) : EReal)))) _ = true
    rw [hc, hdist 4 1 (by norm_num [h1]) (by norm_num [h1]) (by norm_num [h1])]
    simp [nanLe]
  · intro sched fuel hf hfuel
    refine Traversal.spatial_query_root_rejected _ invertedLine_valid.input (by show 2 ≤ 2; norm_num) _ _ (fun v hv => ?_) sched hf fuel (by exact hfuel)
    have hb : v = (NGeo.box (fun _ : Fin 1 => some ((0 : ℝ) : EReal)) (fun _ => some ((1 : ℝ) : EReal))).bound (100 : ℝ) := by
      refine le_antisymm (hv.2 ?_) (hv.1 ⟨1, by show 1 < 2; norm_num, rfl⟩)
      rintro u ⟨i, hi, rfl⟩
      have hi' : i < 2 := hi
      interval_cases i
      · show (NGeo.box (fun _ : Fin 1 => some ((4 : ℝ) : EReal)) (fun _ => some ((1 : ℝ) : EReal))).bound (100 : ℝ) ≤ _
        refine ⟨fun d => ?_, fun d => le_rfl⟩
        show minWith ((100 : ℝ) : EReal) (some ((0 : ℝ) : EReal)) ≤ minWith ((100 : ℝ) : EReal) (some ((4 : ℝ) : EReal))
        rw [minWith_some, minWith_some]
        exact min_le_min le_rfl (EReal.coe_le_coe_iff.mpr (by norm_num))
      · exact le_rfl
    have hlo : v.lo = fun _ => some ((0 : ℝ) : EReal) := by
      funext d
      rw [hb]
      show some (minWith ((100 : ℝ) : EReal) (some ((0 : ℝ) : EReal))) = _
      rw [minWith_some, min_eq_right (EReal.coe_le_coe_iff.mpr (by norm_num))]
    have hhi : v.hi = fun _ => some ((1 : ℝ) : EReal) := by
      funext d
      rw [hb]
      show some (maxWith (-((100 : ℝ) : EReal)) (some ((1 : ℝ) : EReal))) = _
      rw [maxWith_some, max_eq_right]
      rw [← EReal.coe_neg]
      exact EReal.coe_le_coe_iff.mpr (by norm_num)
    show nanLe (F.ndist _ (nclosest _ v.lo v.hi)) _ = false
    have hc : nclosest (fun _ : Fin 1 => some ((3 : ℝ) : EReal)) v.lo v.hi = fun _ => some ((1 : ℝ) : EReal) := by
      funext d
      have e1 : ¬ ((3 : ℝ) : EReal) < ((0 : ℝ) : EReal) := fun h => by have := EReal.coe_lt_coe_iff.mp h; norm_num at this
      have e2 : ((1 : ℝ) : EReal) < ((3 : ℝ) : EReal) := EReal.coe_lt_coe_iff.mpr (by norm_num)
      rw [hlo, hhi]
      simp only [nclosest, nanLt, e1, e2, decide_true, decide_false, if_true, Bool.false_eq_true, if_false]
    have hs : Real.sqrt (-2 * -2) = 2 := by rw [Real.sqrt_mul_self_eq_abs]; norm_num
    rw [hc, hdist 1 (-2) (by norm_num [hm2]) (by norm_num [h4]) (by rw [hs, h2]), hs]
    have : ¬ ((2 : ℝ) : EReal) ≤ ((1 : ℝ) : EReal) := fun h => by have := EReal.coe_le_coe_iff.mp h; norm_num at this
    exact decide_eq_false this

/-! ## `float` and `double` -/

/-- The largest number of a type. -/
noncomputable def Ieee.largest (p : ℕ) (emax : ℤ) : ℝ := (2 ^ p - 1) * 2 ^ (emax - p)

lemma Ieee.largest_rnd (p : ℕ) (hp : 1 ≤ p) (emin emax : ℤ) (he : emin ≤ emax - p) (fma : Bool) :
    (Ieee.format p hp emin emax fma).rnd (Ieee.largest p emax) = (Ieee.largest p emax : EReal) ∧
    (Ieee.format p hp emin emax fma).rnd (Ieee.largest p emax + Ieee.largest p emax) = ⊤ := by
  have hpw : (2 : ℝ) ^ 1 ≤ 2 ^ p := pow_le_pow_right₀ (by norm_num) hp
  have hu : (0 : ℝ) < 2 ^ (emax - p) := Ieee.ulp_pos _
  have e : (2 : ℝ) ^ emax = 2 ^ p * 2 ^ (emax - p) := by
    rw [← zpow_natCast, ← zpow_add₀ (by norm_num : (2 : ℝ) ≠ 0)]; congr 1; ring
  have e' : (2 : ℝ) ^ (emax - 1) = 2 ^ emax / 2 := by rw [zpow_sub_one₀ (by norm_num)]; rfl
  have hlt : Ieee.largest p emax < 2 ^ emax := by
    rw [e, Ieee.largest]; exact mul_lt_mul_of_pos_right (by linarith) hu
  have hge : (2 : ℝ) ^ (emax - 1) ≤ Ieee.largest p emax := by
    rw [e', e, Ieee.largest, mul_div_right_comm]
    exact mul_le_mul_of_nonneg_right (by linarith) hu.le
  have hpos : 0 < Ieee.largest p emax := lt_of_lt_of_le (Ieee.ulp_pos _) hge
  constructor
  · have hlog : Int.log 2 (Ieee.largest p emax) = emax - 1 := by
      have h1 : emax - 1 ≤ Int.log 2 (Ieee.largest p emax) := by
        rw [← Int.zpow_le_iff_le_log (b := 2) (by norm_num) hpos]
        exact_mod_cast hge
      have h2 : Int.log 2 (Ieee.largest p emax) < emax := by
        rw [← Int.lt_zpow_iff_log_lt (b := 2) (by norm_num) hpos]
        exact_mod_cast hlt
      omega
    have hulp : Ieee.ulpExp p emin (Ieee.largest p emax) = emax - p := by
      unfold Ieee.ulpExp
      rw [hlog]; omega
    have hn : Ieee.near p emin (Ieee.largest p emax) = Ieee.largest p emax := by
      refine Ieee.near_of_mul (2 ^ p - 1) ?_
      rw [hulp, Ieee.largest]; push_cast; rfl
    show Ieee.rnd p emin emax _ = _
    unfold Ieee.rnd Ieee.pos
    rw [if_pos hpos.le, hn, if_pos hlt]
  · have htop : (Ieee.format p hp emin emax fma).rnd (2 ^ emax) = ⊤ := by
      show Ieee.rnd p emin emax _ = _
      unfold Ieee.rnd Ieee.pos
      rw [if_pos (Ieee.ulp_pos emax).le, Ieee.near_pow hp (by omega), if_neg (lt_irrefl _)]
    refine top_le_iff.mp (htop ▸ (Ieee.format p hp emin emax fma).mono ?_)
    linarith

/-- A number below the largest one is smaller by at least a unit in the last place of the largest numbers. -/
lemma Ieee.largest_gap (p : ℕ) (hp : 1 ≤ p) (hp2 : 2 ≤ p) (emin emax : ℤ) (he : emin ≤ emax - p) (fma : Bool) (x : ℝ)
    (hx : (Ieee.format p hp emin emax fma).rnd x = (x : EReal)) (hlt : x < Ieee.largest p emax) : x + 2 ^ (emax - p) ≤ Ieee.largest p emax := by
  have hpw : (2 : ℝ) ^ 2 ≤ 2 ^ p := pow_le_pow_right₀ (by norm_num) hp2
  have hu : (0 : ℝ) < 2 ^ (emax - p) := Ieee.ulp_pos _
  have e : (2 : ℝ) ^ emax = 2 ^ p * 2 ^ (emax - p) := by
    rw [← zpow_natCast, ← zpow_add₀ (by norm_num : (2 : ℝ) ≠ 0)]; congr 1; ring
  have e' : (2 : ℝ) ^ (emax - 1) = 2 ^ p / 2 * 2 ^ (emax - p) := by rw [zpow_sub_one₀ (by norm_num), e]; ring
  have hlt' : x < 2 ^ emax := by
    refine hlt.trans ?_
    rw [e, Ieee.largest]; exact mul_lt_mul_of_pos_right (by linarith) hu
  rcases lt_or_ge x (2 ^ (emax - 1)) with h | h
  · rw [e'] at h
    unfold Ieee.largest
    nlinarith
  · have hpos : 0 < x := lt_of_lt_of_le (Ieee.ulp_pos _) h
    have hlog : Int.log 2 x = emax - 1 := by
      have h1 : emax - 1 ≤ Int.log 2 x := by
        rw [← Int.zpow_le_iff_le_log (b := 2) (by norm_num) hpos]
        exact_mod_cast h
      have h2 : Int.log 2 x < emax := by
        rw [← Int.lt_zpow_iff_log_lt (b := 2) (by norm_num) hpos]
        exact_mod_cast hlt'
      omega
    have hulp : Ieee.ulpExp p emin x = emax - p := by
      unfold Ieee.ulpExp
      rw [hlog]; omega
    have hn : Ieee.near p emin x = x := by
      have hx' : Ieee.rnd p emin emax x = (x : EReal) := hx
      unfold Ieee.rnd Ieee.pos at hx'
      rw [if_pos hpos.le] at hx'
      split at hx'
      · exact EReal.coe_eq_coe_iff.mp hx'
      · exact absurd hx'.symm (EReal.coe_ne_top x)
    unfold Ieee.near at hn
    rw [hulp] at hn
    generalize Ieee.roundEven (x / 2 ^ (emax - p)) = z at hn
    rw [← hn, Ieee.largest] at hlt ⊢
    have h1 : (z : ℝ) < 2 ^ p - 1 := lt_of_mul_lt_mul_right hlt hu.le
    have h2 : z + 1 ≤ 2 ^ p - 1 := by
      have : (z : ℝ) < ((2 ^ p - 1 : ℤ) : ℝ) := by push_cast; exact h1
      have := Int.cast_lt.mp this
      omega
    have h3 : (z : ℝ) + 1 ≤ 2 ^ p - 1 := by exact_mod_cast h2
    nlinarith

lemma Ieee.format_square (p : ℕ) (hp : 1 ≤ p) (hp2 : 2 ≤ p) (emin emax : ℤ) (he : emin ≤ emax - p) (h4 : emax ≤ (emax - p) + (emax - p)) (fma : Bool) :
    (Ieee.format p hp emin emax fma).SquareOverflows (Ieee.largest p emax) := by
  have hu : (0 : ℝ) < 2 ^ (emax - p) := Ieee.ulp_pos _
  have hpw : (2 : ℝ) ^ 2 ≤ 2 ^ p := pow_le_pow_right₀ (by norm_num) hp2
  have hpow : ∀ a : ℤ, emin ≤ a → (Ieee.format p hp emin emax fma).rnd (2 ^ a) = if a < emax then ((2 ^ a : ℝ) : EReal) else ⊤ := by
    intro a ha
    show Ieee.rnd p emin emax _ = _
    unfold Ieee.rnd Ieee.pos
    rw [if_pos (Ieee.ulp_pos a).le, Ieee.near_pow hp ha]
    exact if_congr (zpow_lt_zpow_iff_right₀ (by norm_num)) rfl rfl
  refine ⟨mul_pos (by linarith) hu, (Ieee.largest_rnd p hp emin emax he fma).2, 2 ^ (emax - p), hu, ?_, ?_, fun x hx hlt => Ieee.largest_gap p hp hp2 emin emax he fma x hx hlt⟩
  · rw [hpow _ he, if_pos (by omega)]
  · rw [← zpow_add₀ (by norm_num : (2 : ℝ) ≠ 0), hpow _ (by omega), if_neg (by omega)]

/-- **C110.** The assumption on the type holds for `float` and `double`, whose largest numbers are `(2 ^ 24 - 1) * 2 ^ 104` and `(2 ^ 53 - 1) * 2 ^ 971`. -/
theorem float_double_wide (fma : Bool) :
    (Ieee.float fma).SquareOverflows ((2 ^ 24 - 1) * 2 ^ (104 : ℤ)) ∧ (Ieee.double fma).SquareOverflows ((2 ^ 53 - 1) * 2 ^ (971 : ℤ)) := by
  constructor
  · have := Ieee.format_square 24 (by norm_num) (by norm_num) (-149) 128 (by norm_num) (by norm_num) fma
    rwa [Ieee.largest, show (128 : ℤ) - (24 : ℕ) = 104 by norm_num] at this
  · have := Ieee.format_square 53 (by norm_num) (by norm_num) (-1074) 1024 (by norm_num) (by norm_num) fma
    rwa [Ieee.largest, show (1024 : ℤ) - (53 : ℕ) = 971 by norm_num] at this

/-! ## Non-vacuity -/

/-- A default-constructed box, the point 1/2 and the interval from 2 to 3, of type `float`. -/
noncomputable def withEmpty : NScene 1 :=
  ⟨[emptyBox 1 ((2 ^ 24 - 1) * 2 ^ (104 : ℤ)), at1 (some ((1 / 2 : ℝ) : EReal)), .box (fun _ => some ((2 : ℝ) : EReal)) (fun _ => some ((3 : ℝ) : EReal))],
    (2 ^ 24 - 1) * 2 ^ (104 : ℤ), fun _ => 0, fun i => i⟩

lemma withEmpty_valid : withEmpty.Valid where
  fits := by show 3 ≤ _; norm_num
  sorted := ⟨by show ((List.range _).map (fun i => i)).Perm (List.range _); rw [List.map_id'], fun _ _ => le_rfl⟩
  top := fun _ _ => by show (0 : BitVec 64).toNat < _; simp

lemma withEmpty_values : ∀ i < withEmpty.geo.length, (withEmpty.at i).Clean ∨ withEmpty.at i = emptyBox 1 withEmpty.M := by
  intro i hi
  have hi' : i < 3 := hi
  interval_cases i
  · exact .inr rfl
  · exact .inl fun d => ⟨_, rfl⟩
  · exact .inl fun d => ⟨_, _, rfl, rfl, EReal.coe_le_coe_iff.mpr (by norm_num)⟩

lemma withEmpty_others (i : ℕ) : i ∈ [1, 2] ↔ i < withEmpty.geo.length ∧ withEmpty.at i ≠ emptyBox 1 withEmpty.M := by
  have h2 : withEmpty.at 2 ≠ emptyBox 1 withEmpty.M := by
    intro e
    have e1 := congrArg (fun g : NGeo 1 => match g with | .box lo _ => lo 0 | .point _ => none) e
    have e2 : (some ((2 : ℝ) : EReal) : Num) = some (((2 ^ 24 - 1) * 2 ^ (104 : ℤ) : ℝ) : EReal) := e1
    rw [Option.some_inj, EReal.coe_eq_coe_iff] at e2
    norm_num at e2
  constructor
  · intro hi
    rcases List.mem_pair.mp hi with rfl | rfl
    · exact ⟨by show 1 < 3; norm_num, fun e => by cases e⟩
    · exact ⟨by show 2 < 3; norm_num, h2⟩
  · rintro ⟨hi, hne⟩
    have hi' : i < 3 := hi
    interval_cases i
    · exact absurd rfl hne
    · simp
    · simp

/-- The interval from 0 to 1 is an inner query, and so the query reports the point and nothing else. -/
example (fma : Bool) : ∃ sched, Traversal.spatialQuery (withEmpty.input.build sched) (withEmpty.leafTest (Ieee.float fma) unitInterval)
    (withEmpty.nodeTest (Ieee.float fma) unitInterval) (fun _ => false) 6 = .done [1] := by
  obtain ⟨sched, hs⟩ := Construction.exists_complete withEmpty.input.params (withEmpty_valid.input.keys (by show 2 ≤ 3; norm_num))
  have hM : ((1 : ℝ) : EReal) < (withEmpty.M : EReal) := EReal.coe_lt_coe_iff.mpr (by show (1 : ℝ) < (2 ^ 24 - 1) * 2 ^ (104 : ℤ); norm_num)
  obtain ⟨calls, h1, h2, h3⟩ := empty_boxes_not_reported (by norm_num) withEmpty withEmpty_valid (Ieee.float fma) (float_double_wide fma).1 withEmpty_values unitInterval
    ⟨0, .inl ⟨1, rfl, by exact_mod_cast hM⟩⟩ trivial
  refine ⟨sched, ?_⟩
  rw [h1 sched (fun _ => hs) 6 (by show 6 ≤ 6; norm_num)]
  have ht1 : (Ieee.float fma).nintersects unitInterval (withEmpty.at 1) = true := by
    have e1 : ¬ ((1 : EReal) < ((1 / 2 : ℝ) : EReal)) := by rw [not_lt]; norm_cast; norm_num
    have e2 : ¬ (((1 / 2 : ℝ) : EReal) < 0) := by rw [not_lt]; norm_cast; norm_num
    simp only [NScene.at, withEmpty, at1, unitInterval, Format.nintersects, ninBox, List.getD_cons_succ, List.getD_cons_zero, nanLt, e1, e2,
      decide_false, Bool.or_false, Bool.not_false, List.all_eq_true, implies_true]
  have ht2 : (Ieee.float fma).nintersects unitInterval (withEmpty.at 2) = false := by
    have e1 : (1 : EReal) < ((2 : ℝ) : EReal) := by norm_cast
    simp [NScene.at, withEmpty, unitInterval, Format.nintersects, nboxes, nanLt, e1]
  have hperm : calls.Perm [1] := by
    rw [List.perm_ext_iff_of_nodup h2 (List.nodup_singleton 1)]
    intro i
    rw [h3, ← and_assoc, ← withEmpty_others, List.mem_pair, List.mem_singleton]
    constructor
    · rintro ⟨rfl | rfl, h⟩
      · rfl
      · rw [ht2] at h; cases h
    · rintro rfl; exact ⟨.inl rfl, ht1⟩
  rw [List.perm_singleton.mp hperm]

/-- The hypotheses of the theorem on the nearest values hold for the two values nearest to 0. -/
example (fma : Bool) : ∃ sched calls, nanNearestQuery (withEmpty.input.build sched) (withEmpty.nearest (Ieee.float fma) (fun _ => some ((0 : ℝ) : EReal)) 2) 6 = .done calls ∧
    IsKNearest (fun i => ((Ieee.float fma).ndistance (fun _ => some ((0 : ℝ) : EReal)) (withEmpty.at i)).getD ⊤) ⊤ 2 [1, 2] calls := by
  obtain ⟨sched, hs⟩ := Construction.exists_complete withEmpty.input.params (withEmpty_valid.input.keys (by show 2 ≤ 3; norm_num))
  obtain ⟨calls, h1, h2⟩ := empty_boxes_not_near_partial (by norm_num) withEmpty withEmpty_valid (by show 3 ≠ 1; norm_num) (Ieee.float fma) (float_double_wide fma).1 withEmpty_values
    (fun _ => some ((0 : ℝ) : EReal)) (fun d x hx => by rw [Option.some_inj, EReal.coe_eq_coe_iff] at hx; rw [← hx]; exact Format.rnd_zero _) 2
    (Nearest.stack_suffices_small _ (by norm_num) (by show 3 ≤ _; norm_num)) sched (fun _ => hs) 6 (by show 6 ≤ 6; norm_num) [1, 2] (by decide) withEmpty_others
  exact ⟨sched, calls, h1, h2⟩

/-- A box with its corners the wrong way round is reported although no point is in it: [4, 1] for the interval from 0 to 5. -/
example (F : Format) : ∃ sched calls, Traversal.spatialQuery (invertedLine.input.build sched)
      (invertedLine.leafTest F (.box (fun _ => some ((0 : ℝ) : EReal)) (fun _ => some ((5 : ℝ) : EReal))))
      (invertedLine.nodeTest F (.box (fun _ => some ((0 : ℝ) : EReal)) (fun _ => some ((5 : ℝ) : EReal)))) (fun _ => false) 4 = .done calls ∧ 0 ∈ calls := by
  obtain ⟨sched, hs⟩ := Construction.exists_complete invertedLine.input.params (invertedLine_valid.input.keys (by show 2 ≤ 2; norm_num))
  obtain ⟨calls, h1, -, h3⟩ := box_query_any_corners_partial invertedLine invertedLine_valid
    (by
      intro i hi
      have hi' : i < 2 := hi
      interval_cases i
      · exact fun d => ⟨_, _, rfl, rfl⟩
      · exact fun d => ⟨_, _, rfl, rfl⟩) F (.box (fun _ => some ((0 : ℝ) : EReal)) (fun _ => some ((5 : ℝ) : EReal))) (fun _ _ h => by cases h)
  refine ⟨sched, calls, h1 sched (fun _ => hs) 4 (by show 4 ≤ 4; norm_num), (h3 0).mpr ⟨by show 0 < 2; norm_num, ?_⟩⟩
  exact (box_query_meaning F (fun _ => ((0 : ℝ) : EReal)) (fun _ => ((5 : ℝ) : EReal)) (fun _ => ((4 : ℝ) : EReal)) (fun _ => ((1 : ℝ) : EReal))).1.mpr fun _ =>
    ⟨EReal.coe_le_coe_iff.mpr (by norm_num), EReal.coe_le_coe_iff.mpr (by norm_num)⟩

/-- An empty box of three dimensions has its place on the curve, in a tree which has in addition the point 0, or nothing else. -/
example (b b' b'' : Bool) (geo : List (Hull 3)) (hg : geo = [] ∨ geo = [[0]]) :
    ((curve64 (Ieee.float b) (Ieee.float b') (Ieee.double b'') 3).project (Ieee.float b) (Ieee.largest 24 128) geo
      ((Ieee.float b).centroid [fun _ => Ieee.largest 24 128, fun _ => -Ieee.largest 24 128])).isSome := by
  have hr := Ieee.largest_rnd 24 (by norm_num) (-149) 128 (by norm_num) b
  have hM := (Ieee.format_square 24 (by norm_num) (by norm_num) (-149) 128 (by norm_num) (by norm_num) b).pos
  have hC := (morton_curves_fine 3 (by norm_num) (by norm_num) b b' b'' (Ieee.float b) (.inl rfl)).2.1.toOk
  have h0 : (Ieee.float b).rnd 0 = 0 := Format.rnd_zero _
  refine (empty_box_position _ hC (Ieee.float b) (Ieee.gradual_float b) _ hM hr.1 hr.2 geo ⟨?_, ?_, ?_⟩ ?_).2
  · rintro g hg' v hv d
    rcases hg with rfl | rfl
    · cases hg'
    · rw [List.mem_singleton] at hg'; subst hg'; rw [List.mem_singleton] at hv; subst hv
      simpa using h0
  · rintro g hg' v hv d
    rcases hg with rfl | rfl
    · cases hg'
    · rw [List.mem_singleton] at hg'; subst hg'; rw [List.mem_singleton] at hv; subst hv
      simpa using hM.le
  · rintro g hg'
    rcases hg with rfl | rfl
    · cases hg'
    · rw [List.mem_singleton] at hg'; subst hg'; simp
  · rintro g hg' v hv g' hg'' v' hv' d
    rcases hg with rfl | rfl
    · cases hg'
    · rw [List.mem_singleton] at hg' hg''; subst hg'; subst hg''; rw [List.mem_singleton] at hv hv'; subst hv; subst hv'
      simp [h0]

end ArborX.Fp
