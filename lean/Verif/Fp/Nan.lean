import Verif.Fp.NanModel
import Verif.Fp.Theorems
import Verif.Nearest.Nan
import Verif.Traversal.AnyPredicate

/-!
# Property theorems: queries on points and boxes with NaN and infinite coordinates (C92)
-/

namespace ArborX.Traversal

open BVH Construction

variable {α V : Type} {w : ℕ} [SemilatticeSup V] [OrderBot V]

/-- A query whose predicate rejects the volume around all values finds nothing. -/
lemma spatial_query_root_rejected (I : Input α V w) (h : I.Valid) (hn : 2 ≤ I.n) (pl : α → Bool) (pv : V → Bool)
    (hv : ∀ v, IsLUB {u | ∃ i < I.n, u = I.vol (I.values i)} v → pv v = false) (sched : List ℕ) (hf : I.Finished sched) (fuel : ℕ) (hfuel : 2 * I.n ≤ fuel) :
    spatialQuery (I.build sched) pl pv (fun _ => false) fuel = .done [] := by
  obtain ⟨T, hT⟩ := build_wellFormed I h hn
  obtain ⟨hl, hlay⟩ := hT sched hf
  rw [build_size] at hl hlay
  have hsz := size_eq T
  rw [hl, List.length_range] at hsz
  have hlub : IsLUB {u | ∃ i < I.n, u = I.vol (I.values i)} (T.vol (fun i => I.vol (I.values (I.perm i)))) := by
    constructor
    · rintro u ⟨i, hi, rfl⟩
      obtain ⟨j, hj, rfl⟩ : ∃ j < I.n, I.perm j = i := by
        have : i ∈ (List.range I.n).map I.perm := h.sorted.1.mem_iff.mpr (List.mem_range.mpr hi)
        obtain ⟨j, hj, e⟩ := List.mem_map.mp this
        exact ⟨j, List.mem_range.mp hj, e⟩
      exact BTree.le_vol (fun i => I.vol (I.values (I.perm i))) T j (by rw [hl]; exact List.mem_range.mpr hj)
    · intro b hb
      have : ∀ T : BTree, (∀ i ∈ T.leaves, i < I.n) → T.vol (fun i => I.vol (I.values (I.perm i))) ≤ b := by
        intro T
        induction T with
        | leaf i =>
          intro hi
          refine hb ⟨I.perm i, ?_, rfl⟩
          have : I.perm i ∈ (List.range I.n).map I.perm := List.mem_map.mpr ⟨i, List.mem_range.mpr (hi i (by simp [BTree.leaves])), rfl⟩
          exact List.mem_range.mp (h.sorted.1.mem_iff.mp this)
        | node x y hx hy =>
          intro hi
          exact sup_le (hx fun i h => hi i (by simp [BTree.leaves, h])) (hy fun i h => hi i (by simp [BTree.leaves, h]))
      exact this T (fun i hi => by rw [hl] at hi; exact List.mem_range.mp hi)
  have hr := hv _ hlub
  obtain ⟨c, hc, hloop⟩ := found_tree (pl := pl) (pv := pv) (stop := fun _ => false) T _ _ [] hlay
  have hnil : found (fun i => I.values (I.perm i)) I.vol pl pv T = [] := by
    cases T with
    | leaf i => simp [BTree.size] at hsz; omega
    | node a b => rw [found, if_neg (by rw [hr]; simp)]
  unfold spatialQuery
  rw [build_size, if_neg (by omega), if_neg (by omega)]
  have := hloop (fuel - c)
  rw [Nat.sub_add_cancel (by omega)] at this
  rw [this, hnil]
  simp only [scan, cont, Bool.false_eq_true, if_false]
  cases fuel - c <;> rfl

end ArborX.Traversal

namespace ArborX.Fp

open BVH Nearest Geometry

variable {D : ℕ}

/-! ## Specification -/

/-- A value without NaN; the corners of a box are in order. -/
def NGeo.Clean : NGeo D → Prop
  | .point p => ∀ d, ∃ x, p d = some x
  | .box lo hi => ∀ d, ∃ x y, lo d = some x ∧ hi d = some y ∧ x ≤ y

/-- What the constructor needs (see `Scene.Valid`); nothing is required of the coordinates. -/
structure NScene.Valid (S : NScene D) : Prop where
  fits : S.geo.length ≤ 2 ^ 63
  sorted : S.input.Sorted
  top : ∀ i < S.geo.length, (S.code i).toNat < 2 ^ 63

/-- The radius of a ball is not infinite, or its center is finite. -/
def NQuery.Regular : NQuery D → Prop
  | .sphere c r => r ≠ some ⊤ ∨ ∀ d, ∃ x : ℝ, c d = some (x : EReal)
  | _ => True

/-! ## Lemmas -/

lemma NScene.Valid.input {S : NScene D} (h : S.Valid) : S.input.Valid := ⟨by norm_num, h.fits, h.sorted, h.top⟩

lemma minWith_some (b x : EReal) : minWith b (some x) = min b x := by
  unfold minWith
  by_cases h : x < b
  · simp [nanLt, h, le_of_lt]
  · simp [nanLt, h, not_lt.mp h]

lemma maxWith_some (b x : EReal) : maxWith b (some x) = max b x := by
  unfold maxWith
  by_cases h : b < x
  · simp [nanLt, h, le_of_lt]
  · simp [nanLt, h, not_lt.mp h]

/-- Expanding a box in the tree by a value is the join with the box of the value (`src/spatial/detail/ArborX_TreeConstruction.hpp` 205-206, 266-268). -/
lemma minWith_assoc {M b : EReal} (h : b ≤ M) (x : Num) : minWith b x = min b (minWith M x) := by
  cases x with
  | none => simp [minWith, nanLt, h]
  | some x => rw [minWith_some, minWith_some, ← min_assoc, min_eq_left h]

lemma maxWith_assoc {M b : EReal} (h : M ≤ b) (x : Num) : maxWith b x = max b (maxWith M x) := by
  cases x with
  | none => simp [maxWith, nanLt, h]
  | some x => rw [maxWith_some, maxWith_some, ← max_assoc, max_eq_left h]

/-- The corners of a box around a value without NaN. -/
lemma NGeo.Clean.corners {M : ℝ} {g : NGeo D} (hg : g.Clean) {v : NBound D M} (hv : g.bound M ≤ v) (d : Fin D) :
    (∀ p, g = .point p → ∀ x, p d = some x → OrderDual.ofDual v.1.1 d ≤ x ∧ x ≤ v.1.2 d) ∧
    ∀ lo hi, g = .box lo hi → ∀ x y, lo d = some x → hi d = some y → OrderDual.ofDual v.1.1 d ≤ x ∧ y ≤ v.1.2 d := by
  have h1 : OrderDual.ofDual v.1.1 d ≤ OrderDual.ofDual (g.bound M).1.1 d := hv.1 d
  have h2 : (g.bound M).1.2 d ≤ v.1.2 d := hv.2 d
  constructor
  · rintro p rfl x hx
    have e1 : OrderDual.ofDual ((NGeo.point p).bound M).1.1 d = min (M : EReal) x := by rw [← minWith_some, ← hx]; rfl
    have e2 : ((NGeo.point p).bound M).1.2 d = max (-(M : EReal)) x := by rw [← maxWith_some, ← hx]; rfl
    rw [e1] at h1; rw [e2] at h2
    exact ⟨h1.trans (min_le_right _ _), (le_max_right _ _).trans h2⟩
  · rintro lo hi rfl x y hx hy
    have e1 : OrderDual.ofDual ((NGeo.box lo hi).bound M).1.1 d = min (M : EReal) x := by rw [← minWith_some, ← hx]; rfl
    have e2 : ((NGeo.box lo hi).bound M).1.2 d = max (-(M : EReal)) y := by rw [← maxWith_some, ← hy]; rfl
    rw [e1] at h1; rw [e2] at h2
    exact ⟨h1.trans (min_le_right _ _), (le_max_right _ _).trans h2⟩

section distances

variable {F : Format}

lemma nsub_coe (x y : ℝ) : F.nsub (some (x : EReal)) (some (y : EReal)) = some (F.rnd (x - y)) := by
  simp [Format.nsub]

lemma nstep_none_left (t : Num) : F.nstep none t = none := by cases t <;> rfl

lemma nstep_none_right (s : Num) : F.nstep s none = none := by cases s <;> rfl

lemma nfold_none {ι : Type} (l : List ι) (g : ι → Num) : l.foldl (fun s d => F.nstep s (g d)) none = none := by
  induction l with
  | nil => rfl
  | cons a l ih => rw [List.foldl_cons, nstep_none_left, ih]

/-- An accumulated sum is infinite or NaN if it was so at the beginning. -/
lemma nfold_top {ι : Type} (l : List ι) (g : ι → Num) :
    l.foldl (fun s d => F.nstep s (g d)) (some ⊤) = none ∨ l.foldl (fun s d => F.nstep s (g d)) (some ⊤) = some ⊤ := by
  induction l with
  | nil => exact .inr rfl
  | cons a l ih =>
    rw [List.foldl_cons]
    cases g a with
    | none => rw [nstep_none_right, nfold_none]; exact .inl rfl
    | some t =>
      have : F.nstep (some ⊤) (some t) = some ⊤ := by simp [Format.nstep, Format.madd]
      rw [this]
      exact ih

/-- A term which is NaN or infinite makes the sum NaN or infinite. -/
lemma nfold_bad {ι : Type} (l : List ι) (g : ι → Num) {i : ι} (hi : i ∈ l) (hg : g i = none ∨ g i = some ⊤ ∨ g i = some ⊥) :
    ∀ s : Num, l.foldl (fun s d => F.nstep s (g d)) s = none ∨ l.foldl (fun s d => F.nstep s (g d)) s = some ⊤ := by
  induction l with
  | nil => cases hi
  | cons a l ih =>
    intro s
    rw [List.foldl_cons]
    rcases List.mem_cons.mp hi with rfl | hi
    · cases s with
      | none => rw [nstep_none_left, nfold_none]; exact .inl rfl
      | some s =>
        rcases hg with h | h | h
        · rw [h, nstep_none_right, nfold_none]; exact .inl rfl
        · have : F.nstep (some s) (some ⊤) = some ⊤ := by simp [Format.nstep, Format.madd]
          rw [h, this]; exact nfold_top l g
        · have : F.nstep (some s) (some ⊥) = some ⊤ := by simp [Format.nstep, Format.madd]
          rw [h, this]; exact nfold_top l g
    · exact ih hi _

lemma ndist_coe (p x : Fin D → ℝ) : F.ndist (fun d => some (p d : EReal)) (fun d => some (x d : EReal)) = some (F.distPoint p x) := by
  unfold Format.ndist Format.distPoint Format.norm
  have : ∀ (l : List (Fin D)) (s : EReal), l.foldl (fun s d => F.nstep s (F.nsub (some (x d : EReal)) (some (p d : EReal)))) (some s) =
      some (l.foldl (fun s d => F.step s (some (x d - p d))) s) := by
    intro l
    induction l with
    | nil => intro s; rfl
    | cons a l ih =>
      intro s
      rw [List.foldl_cons, List.foldl_cons, nsub_coe]
      exact ih _
  rw [this]
  rfl

/-- Only points with finite coordinates are at a finite distance. -/
lemma ndist_finite {p x : Fin D → Num} {r : EReal} (h : F.ndist p x = some r) (hr : r < ⊤) :
    ∃ p' x' : Fin D → ℝ, p = (fun d => some (p' d : EReal)) ∧ x = fun d => some (x' d : EReal) := by
  have key : ∀ d, ∃ a b : ℝ, p d = some (a : EReal) ∧ x d = some (b : EReal) := by
    intro d
    by_contra hcon
    have hbad : F.nsub (x d) (p d) = none ∨ F.nsub (x d) (p d) = some ⊤ ∨ F.nsub (x d) (p d) = some ⊥ := by
      cases hx : x d with
      | none => exact .inl (by simp [Format.nsub])
      | some b =>
        cases hp : p d with
        | none => exact .inl (by simp [Format.nsub])
        | some a =>
          induction a using EReal.rec with
          | bot => induction b using EReal.rec <;> simp [Format.nsub]
          | top => induction b using EReal.rec <;> simp [Format.nsub]
          | coe a =>
            induction b using EReal.rec with
            | bot => simp [Format.nsub]
            | top => simp [Format.nsub]
            | coe b => exact absurd ⟨a, b, hp, hx⟩ hcon
    unfold Format.ndist at h
    rcases nfold_bad (F := F) (List.finRange D) (fun d => F.nsub (x d) (p d)) (List.mem_finRange d) hbad (some 0) with e | e
    · rw [e] at h; cases h
    · rw [e] at h
      have : r = ⊤ := by
        simp only [Option.map_some, Option.some.injEq] at h
        rw [← h]; simp [Format.sqrt]
      exact absurd this hr.ne
  choose a b h1 h2 using key
  exact ⟨a, b, funext h1, funext h2⟩

/-- The closest point in a box of the tree to a finite point is finite, and no finite point of the box is closer. -/
lemma nclosest_bound {M : ℝ} (v : NBound D M) (p : Fin D → ℝ) :
    ∃ z : Fin D → ℝ, nclosest (fun d => some (p d : EReal)) v.lo v.hi = (fun d => some (z d : EReal)) ∧
      ∀ x : Fin D → ℝ, (∀ d, OrderDual.ofDual v.1.1 d ≤ x d ∧ (x d : EReal) ≤ v.1.2 d) → F.distPoint p z ≤ F.distPoint p x := by
  have key : ∀ d, ∃ z : ℝ, nclosest (fun d => some (p d : EReal)) v.lo v.hi d = some (z : EReal) ∧
      ∀ x : ℝ, OrderDual.ofDual v.1.1 d ≤ x → (x : EReal) ≤ v.1.2 d → |z - p d| ≤ |x - p d| := by
    intro d
    have hlo : OrderDual.ofDual v.1.1 d ≤ M := v.2.1 d
    have hhi : -(M : EReal) ≤ v.1.2 d := v.2.2 d
    unfold nclosest NBound.lo NBound.hi
    generalize hl : OrderDual.ofDual v.1.1 d = l at *
    generalize hh : v.1.2 d = h at *
    by_cases h1 : (p d : EReal) < l
    · have e : l = ((l.toReal : ℝ) : EReal) :=
        (EReal.coe_toReal (ne_top_of_le_ne_top (EReal.coe_ne_top M) hlo) (ne_bot_of_gt h1)).symm
      refine ⟨l.toReal, by rw [← e]; simp [nanLt, h1], fun x hx1 hx2 => ?_⟩
      rw [e, EReal.coe_lt_coe_iff] at h1
      rw [e, EReal.coe_le_coe_iff] at hx1
      rw [abs_of_pos (by linarith), abs_of_pos (by linarith)]; linarith
    · by_cases h2 : h < (p d : EReal)
      · have e : h = ((h.toReal : ℝ) : EReal) := by
          refine (EReal.coe_toReal (ne_top_of_lt h2) (fun e => ?_)).symm
          rw [e, le_bot_iff, ← EReal.coe_neg] at hhi
          exact EReal.coe_ne_bot _ hhi
        refine ⟨h.toReal, by rw [← e]; simp [nanLt, h1, h2], fun x hx1 hx2 => ?_⟩
        rw [e, EReal.coe_lt_coe_iff] at h2
        rw [e, EReal.coe_le_coe_iff] at hx2
        rw [abs_of_neg (by linarith), abs_of_neg (by linarith)]; linarith
      · refine ⟨p d, by simp [nanLt, h1, h2], fun x _ _ => by rw [sub_self, abs_zero]; exact abs_nonneg _⟩
  choose z h1 h2 using key
  refine ⟨z, funext h1, fun x hx => F.norm_mono (fun d a ha => ⟨_, rfl, ?_⟩)⟩
  rw [Option.some_inj] at ha
  rw [← ha]
  exact h2 d (x d) (hx d).1 (hx d).2

/-- A value at finite distance is at no smaller distance than the boxes around it. -/
lemma ndistance_mono {M : ℝ} {g : NGeo D} (hg : (∀ lo hi, g = .box lo hi → g.Clean)) {p : Fin D → Num} {r : EReal} (h : F.ndistance p g = some r) (hr : r < ⊤)
    {v : NBound D M} (hv : g.bound M ≤ v) : 0 ≤ r ∧ ∃ r', F.ndistBox p v.lo v.hi = some r' ∧ r' ≤ r := by
  cases g with
  | point x =>
    obtain ⟨p', x', rfl, rfl⟩ := ndist_finite h hr
    have hc : (NGeo.point (fun d => some (x' d : EReal)) : NGeo D).Clean := fun d => ⟨_, rfl⟩
    have e : F.ndistance (fun d => some (p' d : EReal)) (.point fun d => some (x' d : EReal)) = some (F.distPoint p' x') := ndist_coe p' x'
    rw [e, Option.some_inj] at h
    subst h
    obtain ⟨z, hz1, hz2⟩ := nclosest_bound (F := F) v p'
    refine ⟨F.distPoint_nonneg _ _, F.distPoint p' z, ?_, hz2 x' (fun d => (hc.corners hv d).1 _ rfl _ rfl)⟩
    unfold Format.ndistBox
    rw [hz1]
    exact ndist_coe p' z
  | box lo hi =>
    obtain ⟨p', x', rfl, hx⟩ := ndist_finite (F := F) h hr
    have hc := hg lo hi rfl
    have e : F.ndistance (fun d => some (p' d : EReal)) (.box lo hi) = some (F.distPoint p' x') := by
      show F.ndist _ (nclosest _ lo hi) = _
      rw [hx]; exact ndist_coe p' x'
    rw [e, Option.some_inj] at h
    subst h
    obtain ⟨z, hz1, hz2⟩ := nclosest_bound (F := F) v p'
    refine ⟨F.distPoint_nonneg _ _, F.distPoint p' z, ?_, hz2 x' (fun d => ?_)⟩
    · unfold Format.ndistBox
      rw [hz1]
      exact ndist_coe p' z
    · obtain ⟨a, b, ha, hb, hab⟩ := hc d
      have hk := (hc.corners hv d).2 lo hi rfl a b ha hb
      have hxd := congrFun hx d
      unfold nclosest at hxd
      rw [ha, hb] at hxd
      have : a ≤ x' d ∧ (x' d : EReal) ≤ b := by
        by_cases h1 : (p' d : EReal) < a
        · simp only [nanLt, h1, decide_true, if_true, Option.some.injEq] at hxd
          rw [← hxd]; exact ⟨le_rfl, hab⟩
        · by_cases h2 : b < (p' d : EReal)
          · simp only [nanLt, h1, h2, decide_true, decide_false, if_true, Bool.false_eq_true, if_false, Option.some.injEq] at hxd
            rw [← hxd]; exact ⟨hab, le_rfl⟩
          · simp only [nanLt, h1, h2, decide_false, Bool.false_eq_true, if_false, Option.some.injEq] at hxd
            rw [← hxd]; exact ⟨not_lt.mp h1, not_lt.mp h2⟩
      exact ⟨hk.1.trans this.1, this.2.trans hk.2⟩

end distances

lemma nanLt_eq_false {x y : Num} : nanLt x y = false ↔ ∀ a b, x = some a → y = some b → b ≤ a := by
  cases x with
  | none => simp [nanLt]
  | some a => cases y with
    | none => simp [nanLt]
    | some b => simp [nanLt]

/-- The predicate accepts the boxes around a value without NaN that it accepts. -/
lemma nintersects_mono {F : Format} {M : ℝ} {Q : NQuery D} (hQ : Q.Regular) {g : NGeo D} (hg : g.Clean) {v : NBound D M} (hv : g.bound M ≤ v)
    (h : F.nintersects Q g = true) : F.nintersects Q (.box v.lo v.hi) = true := by
  cases Q with
  | box lo hi =>
    cases g with
    | point p =>
      simp only [Format.nintersects, ninBox, nboxes, List.all_eq_true, List.mem_finRange, true_implies, Bool.not_eq_true', Bool.or_eq_false_iff,
        nanLt_eq_false] at h ⊢
      intro d
      obtain ⟨x, hx⟩ := hg d
      have hk := (hg.corners hv d).1 p rfl x hx
      refine ⟨fun a b ha hb => ?_, fun a b ha hb => ?_⟩
      · rw [NBound.hi, Option.some_inj] at ha
        exact ((h d).2 x b hx hb).trans (hk.2.trans_eq ha)
      · rw [NBound.lo, Option.some_inj] at hb
        exact (hb.symm.le.trans hk.1).trans ((h d).1 a x ha hx)
    | box lo' hi' =>
      simp only [Format.nintersects, nboxes, List.all_eq_true, List.mem_finRange, true_implies, Bool.not_eq_true', Bool.or_eq_false_iff,
        nanLt_eq_false] at h ⊢
      intro d
      obtain ⟨x, y, hx, hy, hxy⟩ := hg d
      have hk := (hg.corners hv d).2 lo' hi' rfl x y hx hy
      refine ⟨fun a b ha hb => ?_, fun a b ha hb => ?_⟩
      · rw [NBound.hi, Option.some_inj] at ha
        exact ((h d).1 y b hy hb).trans (hk.2.trans_eq ha)
      · rw [NBound.lo, Option.some_inj] at hb
        exact (hb.symm.le.trans hk.1).trans ((h d).2 a x ha hx)
  | point p =>
    cases g with
    | point q => cases h
    | box lo' hi' =>
      simp only [Format.nintersects, ninBox, List.all_eq_true, List.mem_finRange, true_implies, Bool.not_eq_true', Bool.or_eq_false_iff,
        nanLt_eq_false] at h ⊢
      intro d
      obtain ⟨x, y, hx, hy, hxy⟩ := hg d
      have hk := (hg.corners hv d).2 lo' hi' rfl x y hx hy
      refine ⟨fun a b ha hb => ?_, fun a b ha hb => ?_⟩
      · rw [NBound.hi, Option.some_inj] at ha
        exact ((h d).1 y b hy hb).trans (hk.2.trans_eq ha)
      · rw [NBound.lo, Option.some_inj] at hb
        exact (hb.symm.le.trans hk.1).trans ((h d).2 a x ha hx)
  | sphere c r =>
    have h' : nanLe (F.ndistance c g) r = true := by cases g <;> exact h
    show nanLe (F.ndistBox c v.lo v.hi) r = true
    cases hd : F.ndistance c g with
    | none => rw [hd] at h'; simp [nanLe] at h'
    | some t =>
      cases r with
      | none => rw [hd] at h'; simp [nanLe] at h'
      | some r =>
        rw [hd] at h'
        simp only [nanLe, decide_eq_true_eq] at h'
        by_cases ht : t < ⊤
        · obtain ⟨-, t', e, ht'⟩ := ndistance_mono (fun _ _ _ => hg) hd ht hv
          rw [e]
          simpa [nanLe] using ht'.trans h'
        · have hr : r = ⊤ := top_le_iff.mp ((not_lt_top_iff.mp ht) ▸ h')
          rcases hQ with hQ | hQ
          · exact absurd (by rw [hr]) hQ
          · choose c' hc' using hQ
            have e : c = fun d => some (c' d : EReal) := funext hc'
            obtain ⟨z, hz1, -⟩ := nclosest_bound (F := F) v c'
            unfold Format.ndistBox
            rw [e, hz1, ndist_coe]
            simp [nanLe, hr]

lemma NScene.stored_eq (S : NScene D) : S.input.stored = List.range S.geo.length := by
  unfold Input.stored
  exact List.map_id _

/-! ## Property theorems -/

/-- **C92.** Whatever the coordinates of values and predicate, a query `intersects(Q)` terminates and calls the callback only on values the test accepts, on each
at most once, and on all of them that have no NaN: values with NaN coordinates do not hide others. -/
theorem intersects_query_nan (S : NScene D) (h : S.Valid) (F : Format) (Q : NQuery D) (hQ : Q.Regular) :
    ∃ calls : List ℕ, (∀ sched, S.input.Finished sched → ∀ fuel, 2 * S.geo.length ≤ fuel →
        Traversal.spatialQuery (S.input.build sched) (S.leafTest F Q) (S.nodeTest F Q) (fun _ => false) fuel = .done calls) ∧
      calls.Nodup ∧ (∀ i ∈ calls, i < S.geo.length ∧ F.nintersects Q (S.at i) = true) ∧
      ∀ i < S.geo.length, (S.at i).Clean → (i ∈ calls ↔ F.nintersects Q (S.at i) = true) := by
  classical
  obtain ⟨calls, h1, h2, h3⟩ := Traversal.spatial_query_any S.input h.input (S.leafTest F Q) (S.nodeTest F Q)
  rw [NScene.stored_eq] at h2 h3
  have hmem : ∀ i ∈ calls, i < S.geo.length ∧ F.nintersects Q (S.at i) = true := by
    intro i hi
    have := h2.subset hi
    rw [List.mem_filter, List.mem_range] at this
    exact this
  refine ⟨calls, h1, ?_, hmem, fun i hi hc => ⟨fun hm => (hmem i hm).2, fun ht => ?_⟩⟩
  · obtain ⟨l, hl, hs⟩ := h2
    exact hl.nodup_iff.mp ((List.nodup_range.filter _).sublist hs)
  · have := h3 (fun i => decide ((S.at i).Clean ∧ F.nintersects Q (S.at i) = true)) (by
      intro a ha
      obtain ⟨ha1, ha2⟩ := of_decide_eq_true ha
      exact ⟨ha2, fun v hv => nintersects_mono hQ ha1 hv ha2⟩)
    exact this.subset (List.mem_filter.mpr ⟨List.mem_range.mpr hi, decide_eq_true ⟨hc, ht⟩⟩)

/-- **C92.** A query for the points in a ball never returns a point with a NaN coordinate, and so is exact on any points whatsoever. -/
theorem ball_query_nan (S : NScene D) (h : S.Valid) (hp : ∀ i < S.geo.length, ∃ p, S.at i = .point p) (F : Format) (c : Fin D → Num) (r : Num)
    (hQ : r ≠ some ⊤ ∨ ∀ d, ∃ x : ℝ, c d = some (x : EReal)) (sched : List ℕ) (hf : S.input.Finished sched) (fuel : ℕ) (hfuel : 2 * S.geo.length ≤ fuel) :
    ∃ calls : List ℕ, Traversal.spatialQuery (S.input.build sched) (S.leafTest F (.sphere c r)) (S.nodeTest F (.sphere c r)) (fun _ => false) fuel = .done calls ∧
      calls.Nodup ∧ ∀ i, i ∈ calls ↔ i < S.geo.length ∧ ∃ p t s, S.at i = .point p ∧ F.ndist c p = some t ∧ r = some s ∧ t ≤ s := by
  obtain ⟨calls, h1, h2, h3, h4⟩ := intersects_query_nan S h F (.sphere c r) hQ
  have key : ∀ i p, S.at i = .point p → (F.nintersects (.sphere c r) (S.at i) = true ↔ ∃ t s, F.ndist c p = some t ∧ r = some s ∧ t ≤ s) := by
    intro i p e
    rw [e]
    show nanLe (F.ndist c p) r = true ↔ _
    cases F.ndist c p with
    | none => simp [nanLe]
    | some t => cases r with
      | none => simp [nanLe]
      | some s => simp [nanLe]
  have hnan : ∀ (a b : Fin D → Num) t, F.ndist a b = some t → ∀ d, ∃ x, b d = some x := by
    intro a b t ht d
    by_contra hcon
    have hb : b d = none := by
      cases hb : b d with
      | none => rfl
      | some x => exact absurd ⟨x, hb⟩ hcon
    unfold Format.ndist at ht
    have : ∀ (l : List (Fin D)), d ∈ l → ∀ s, l.foldl (fun s d => F.nstep s (F.nsub (b d) (a d))) s = none := by
      intro l
      induction l with
      | nil => intro hd; cases hd
      | cons e l ih =>
        intro hd s
        rw [List.foldl_cons]
        rcases List.mem_cons.mp hd with rfl | hd
        · have : F.nsub (b d) (a d) = none := by rw [hb]; rfl
          rw [this, nstep_none_right, nfold_none]
        · exact ih hd _
    rw [this _ (List.mem_finRange d)] at ht
    cases ht
  refine ⟨calls, h1 sched hf fuel hfuel, h2, fun i => ⟨fun hi => ?_, ?_⟩⟩
  · obtain ⟨p, e⟩ := hp i (h3 i hi).1
    obtain ⟨t, s, h5⟩ := (key i p e).mp (h3 i hi).2
    exact ⟨(h3 i hi).1, p, t, s, e, h5⟩
  · rintro ⟨hi, p, t, s, e, h5, h6, h7⟩
    refine (h4 i hi ?_).mpr ((key i p e).mpr ⟨t, s, h5, h6, h7⟩)
    rw [e]
    exact hnan c p t h5

/-- **C92.** A query `nearest(p, k)` on two or more points (or none), whatever the coordinates, never returns a point at NaN distance, and returns the `k` nearest of the
points at finite distance, in order; boxes among the values must have no NaN, and the stack must be large enough for the tree. -/
theorem nearest_query_nan_points (S : NScene D) (h : S.Valid) (hn : S.geo.length ≠ 1) (hb : ∀ i < S.geo.length, ∀ lo hi, S.at i = .box lo hi → (S.at i).Clean)
    (F : Format) (p : Fin D → Num) (k : ℕ) (hcap : StackFits S.input 64) (sched : List ℕ) (hf : S.input.Finished sched) (fuel : ℕ)
    (hfuel : 2 * S.geo.length ≤ fuel) :
    ∃ calls, nanNearestQuery (S.input.build sched) (S.nearest F p k) fuel = .done calls ∧
      IsKNearest (fun i => (F.ndistance p (S.at i)).getD ⊤) ⊤ k (List.range S.geo.length) calls ∧
      ∀ i ∈ calls, ∃ r : EReal, F.ndistance p (S.at i) = some r := by
  have hc : ∀ i, ∀ lo hi, S.at i = .box lo hi → (S.at i).Clean := by
    intro i lo hi e
    rcases Nat.lt_or_ge i S.geo.length with hi' | hi'
    · exact hb i hi' lo hi e
    · unfold NScene.at at e
      rw [List.getD_eq_default _ _ hi'] at e
      cases e
  obtain ⟨calls, h1, h2, h3⟩ := nearest_query_nan S.input h.input hn (S.nearest F p k) (fun x => le_top)
    (fun i r e hr => ⟨(ndistance_mono (M := S.M) (hc i) e hr le_rfl).1, fun v hv => (ndistance_mono (hc i) e hr hv).2⟩) hcap sched hf fuel hfuel
  rw [NScene.stored_eq] at h2
  exact ⟨calls, h1, h2, h3⟩

end ArborX.Fp
