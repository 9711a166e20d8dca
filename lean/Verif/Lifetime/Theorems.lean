import Verif.Lifetime.Lemmas

/-! # C102: a distributed tree frees its communicator once, with its last copy -/

namespace ArborX.Lifetime

variable {γ : Type} {m : ℕ}

/-- Variables as the user sees them, and as they are. -/
def Match (s : State γ m) (t : Option (Tree γ)) : Option (Obj γ) → Prop
  | none => t = none
  | some .empty => ∃ b < s.nb, t = some ⟨some b, none⟩ ∧ (s.blocks b).custom = false
  | some (.built k v) => ∃ b < s.nb, t = some ⟨some b, some v⟩ ∧ (s.blocks b).custom = true ∧ (s.blocks b).comm = some k
  | some .moved => ∃ u, t = some ⟨none, u⟩

structure Rel (s : State γ m) (w : View γ m) : Prop where
  inv : Inv s (fun _ => 0)
  vars : ∀ x, Match s (s.vars x) (w.obj x)
  nc : s.nc = w.made
  asked : uses s.trace = w.asked

lemma Match.same {s s' : State γ m} (h : Same s s') {t : Option (Tree γ)} {o : Option (Obj γ)} (ht : Match s t o) : Match s' t o := by
  rcases o with _ | (_ | ⟨k, v⟩ | _)
  · exact ht
  · obtain ⟨b, hb, rfl, hc⟩ := ht
    exact ⟨b, lt_of_lt_of_le hb h.nb, rfl, (h.blk b hb).2.trans hc⟩
  · obtain ⟨b, hb, rfl, hc, hk⟩ := ht
    exact ⟨b, lt_of_lt_of_le hb h.nb, rfl, (h.blk b hb).2.trans hc, (h.blk b hb).1.trans hk⟩
  · exact ht

lemma match_set {s : State γ m} {t : Option (Tree γ)} {o : Option (Obj γ)} (x : Fin m) (t' : Option (Tree γ)) (ht : Match s t o) : Match (s.set x t') t o := by
  rcases o with _ | (_ | ⟨k, v⟩ | _) <;> exact ht

lemma match_update {s : State γ m} {obj : Fin m → Option (Obj γ)} (h : ∀ x, Match s (s.vars x) (obj x)) (x : Fin m) {t : Option (Tree γ)} {o : Option (Obj γ)}
    (ht : Match s t o) : ∀ y, Match (s.set x t) ((s.set x t).vars y) (Function.update obj x o y) := by
  intro y
  apply match_set
  by_cases hy : y = x
  · subst hy
    simpa [State.set] using ht
  · rw [show (s.set x t).vars y = s.vars y from Function.update_of_ne hy _ _, Function.update_of_ne hy]
    exact h y

lemma make_spec [DecidableEq γ] {s : State γ m} {e : ℕ → ℕ} (h : Inv s e) :
    ∃ s', s.make = some s' ∧ Inv s' (fun b => e b + single (some (s.nb + 1)) b) ∧ Same s s' ∧ s'.nc = s.nc + 1 ∧ s'.nb = s.nb + 2 ∧
      (s'.blocks (s.nb + 1)).custom = true ∧ (s'.blocks (s.nb + 1)).comm = some s.nc := by
  obtain ⟨h1, s1⟩ := h.alloc_null
  obtain ⟨h2, s2⟩ := h1.alloc_dup
  have e0 : (s.alloc none false).nb = s.nb + 1 := rfl
  rw [e0] at h2
  have e1 : (s.alloc none false).nc = s.nc := rfl
  rw [e1] at h2 s2
  have h3 : Inv ((s.alloc none false).dup.alloc (some s.nc) true) (fun b => (e b + single (some (s.nb + 1)) b) + single (some s.nb) b) := by
    refine cast (congrArg _ (funext fun b => ?_)) h2
    omega
  obtain ⟨s', g1, g2, g3, g4, g5⟩ := h3.release
  refine ⟨s', ?_, g2, (s1.trans s2).trans g3, g5, g4, ?_, ?_⟩
  · exact g1
  · rw [(g3.blk (s.nb + 1) (Nat.lt_succ_self _)).2]
    simp [State.alloc, State.dup]
  · rw [(g3.blk (s.nb + 1) (Nat.lt_succ_self _)).1]
    simp [State.alloc, State.dup]

lemma count_ne_zero {s : State γ m} {e : ℕ → ℕ} (h : Inv s e) (x : Fin m) {b : ℕ} (hb : tptr (s.vars x) = some b) : (s.blocks b).count ≠ 0 := by
  have h1 := h.cnt b
  have h2 := refs_pos hb
  omega

lemma rel_copy {s : State γ m} {w : View γ m} (h : Rel s w) (y : Fin m) {t : Tree γ} (hy : s.vars y = some t) (x : Fin m) :
    Inv ((s.retain t.ptr).set x (some t)) (fun b => 0 + single (tptr (s.vars x)) b) ∧
      (∀ z, Match ((s.retain t.ptr).set x (some t)) (((s.retain t.ptr).set x (some t)).vars z) (Function.update w.obj x (w.obj y) z)) ∧
      (s.retain t.ptr).nc = s.nc ∧ uses (s.retain t.ptr).trace = uses s.trace := by
  obtain ⟨h1, s1⟩ := h.inv.retain t.ptr (fun b hb => count_ne_zero h.inv y (by rw [hy]; exact hb))
  have hv : (s.retain t.ptr).vars = s.vars := s1.vars
  refine ⟨?_, ?_, ?_, s1.uses⟩
  · have := Inv.set x (some t) (e := fun _ => 0) h1
    rwa [hv] at this
  · refine match_update (s := s.retain t.ptr) (fun z => ?_) x ?_
    · rw [hv]; exact (h.vars z).same s1
    · rw [← hy]; exact (h.vars y).same s1
  · cases t.ptr <;> rfl

lemma rel_move {s : State γ m} {w : View γ m} (h : Rel s w) {x y : Fin m} (hxy : x ≠ y) {t : Tree γ} (hy : s.vars y = some t) :
    Inv ((s.set y (some ⟨none, t.val⟩)).set x (some t)) (fun b => 0 + single (tptr (s.vars x)) b) ∧
      ∀ z, Match ((s.set y (some ⟨none, t.val⟩)).set x (some t)) (((s.set y (some ⟨none, t.val⟩)).set x (some t)).vars z)
        (Function.update (Function.update w.obj y (some .moved)) x (w.obj y) z) := by
  have h1 : Inv (s.set y (some ⟨none, t.val⟩)) (fun b => 0 + single (tptr (s.vars y)) b) := by
    refine Inv.set y _ (e := fun _ => 0) ?_
    refine cast (congrArg _ (funext fun b => ?_)) h.inv
    simp [tptr]
  rw [hy] at h1
  refine ⟨?_, ?_⟩
  · have := Inv.set x (some t) (e := fun _ => 0) h1
    rwa [show (s.set y (some ⟨none, t.val⟩)).vars x = s.vars x from Function.update_of_ne hxy _ _] at this
  · refine match_update (match_update h.vars y (t := some ⟨none, t.val⟩) (o := some .moved) ⟨_, rfl⟩) x (match_set y _ ?_)
    rw [← hy]
    exact h.vars y

/-- One operation keeps the user's view. -/
lemma step_rel [DecidableEq γ] {s : State γ m} {w w' : View γ m} (h : Rel s w) (o : Op γ m) (hw : w.step o = some w') : ∃ s', step s o = some s' ∧ Rel s' w' := by
  cases o with
  | default x =>
    simp only [View.step, Option.ite_none_right_eq_some, Option.some.injEq] at hw
    obtain ⟨hx, rfl⟩ := hw
    have hx' : s.vars x = none := by have := h.vars x; rwa [hx] at this
    obtain ⟨h1, s1⟩ := h.inv.alloc_null
    refine ⟨_, rfl, ⟨?_, ?_, h.nc, h.asked⟩⟩
    · have := Inv.set x (some ⟨some s.nb, none⟩) (e := fun _ => 0) h1
      rw [s1.vars, hx'] at this
      simpa [tptr] using this
    · exact match_update (s := s.alloc none false) (fun z => by rw [s1.vars]; exact (h.vars z).same s1) x
        ⟨s.nb, Nat.lt_succ_self _, rfl, by simp [State.alloc]⟩
  | create x v =>
    simp only [View.step, Option.ite_none_right_eq_some, Option.some.injEq] at hw
    obtain ⟨hx, rfl⟩ := hw
    have hx' : s.vars x = none := by have := h.vars x; rwa [hx] at this
    obtain ⟨s', g1, g2, g3, g4, g5, g6, g7⟩ := make_spec h.inv
    refine ⟨s'.set x (some ⟨some (s.nb + 1), some v⟩), by simp [step, g1], ⟨?_, ?_, ?_, g3.uses.trans h.asked⟩⟩
    · have := Inv.set x (some ⟨some (s.nb + 1), some v⟩) (e := fun _ => 0) g2
      rw [g3.vars, hx'] at this
      simpa [tptr] using this
    · refine match_update (s := s') (fun z => by rw [g3.vars]; exact (h.vars z).same g3) x ⟨s.nb + 1, by omega, rfl, g6, ?_⟩
      rw [g7, h.nc]
    · change s'.nc = _
      rw [g4, h.nc]
  | createFails x =>
    simp only [View.step, Option.ite_none_right_eq_some, Option.some.injEq] at hw
    obtain ⟨hx, rfl⟩ := hw
    obtain ⟨s', g1, g2, g3, g4, g5, g6, g7⟩ := make_spec h.inv
    obtain ⟨s'', k1, k2, k3, k4, k5⟩ := Inv.release (some (s.nb + 1)) g2
    refine ⟨s'', by simp [step, g1, k1], ⟨k2, fun z => ?_, ?_, (g3.trans k3).uses.trans h.asked⟩⟩
    · rw [(g3.trans k3).vars]
      exact (h.vars z).same (g3.trans k3)
    · rw [k5, g4, h.nc]
  | copy x y =>
    have hcase : ∃ o, w.obj y = some o ∧ o ≠ .moved ∧ w.obj x = none ∧ w' = { w with obj := Function.update w.obj x (w.obj y) } := by
      rcases hy : w.obj y with _ | (_ | ⟨k, v⟩ | _) <;> simp only [View.step, hy, Option.ite_none_right_eq_some, Option.some.injEq, reduceCtorEq] at hw
      · exact ⟨_, rfl, by simp, hw.1, hw.2.symm⟩
      · exact ⟨_, rfl, by simp, hw.1, hw.2.symm⟩
    obtain ⟨o, hy, -, hx, rfl⟩ := hcase
    have hx' : s.vars x = none := by have := h.vars x; rwa [hx] at this
    obtain ⟨t, ht⟩ : ∃ t, s.vars y = some t := by
      have := h.vars y
      rw [hy] at this
      rcases o with _ | ⟨k, v⟩ | _ <;> obtain ⟨b, hb⟩ := this
      · exact ⟨_, hb.2.1⟩
      · exact ⟨_, hb.2.1⟩
      · exact ⟨_, hb⟩
    obtain ⟨r1, r2, r3, r4⟩ := rel_copy h y ht x
    refine ⟨_, by simp only [step, ht]; rfl, ⟨?_, r2, r3.trans h.nc, r4.trans h.asked⟩⟩
    rw [hx'] at r1
    simpa [tptr] using r1
  | move x y =>
    have hcase : ∃ o, w.obj y = some o ∧ o ≠ .moved ∧ w.obj x = none ∧
        w' = { w with obj := Function.update (Function.update w.obj y (some .moved)) x (w.obj y) } := by
      rcases hy : w.obj y with _ | (_ | ⟨k, v⟩ | _) <;> simp only [View.step, hy, Option.ite_none_right_eq_some, Option.some.injEq, reduceCtorEq] at hw
      · exact ⟨_, rfl, by simp, hw.1, hw.2.symm⟩
      · exact ⟨_, rfl, by simp, hw.1, hw.2.symm⟩
    obtain ⟨o, hy, -, hx, rfl⟩ := hcase
    have hx' : s.vars x = none := by have := h.vars x; rwa [hx] at this
    have hxy : x ≠ y := by rintro rfl; rw [hx] at hy; simp at hy
    obtain ⟨t, ht⟩ : ∃ t, s.vars y = some t := by
      have := h.vars y
      rw [hy] at this
      rcases o with _ | ⟨k, v⟩ | _ <;> obtain ⟨b, hb⟩ := this
      · exact ⟨_, hb.2.1⟩
      · exact ⟨_, hb.2.1⟩
      · exact ⟨_, hb⟩
    obtain ⟨r1, r2⟩ := rel_move h hxy ht
    refine ⟨_, by simp only [step, ht]; rfl, ⟨?_, r2, h.nc, h.asked⟩⟩
    rw [hx'] at r1
    simpa [tptr] using r1
  | assign x y =>
    have hcase : ∃ o, w.obj y = some o ∧ o ≠ .moved ∧ w.obj x ≠ none ∧ w' = { w with obj := Function.update w.obj x (w.obj y) } := by
      rcases hy : w.obj y with _ | (_ | ⟨k, v⟩ | _) <;> simp only [View.step, hy, Option.ite_none_left_eq_some, Option.some.injEq, reduceCtorEq] at hw
      · exact ⟨_, rfl, by simp, hw.1, hw.2.symm⟩
      · exact ⟨_, rfl, by simp, hw.1, hw.2.symm⟩
    obtain ⟨o, hy, -, hx, rfl⟩ := hcase
    have hsome : ∀ z, w.obj z ≠ none → ∃ t, s.vars z = some t := by
      intro z hz
      have := h.vars z
      rcases hz' : w.obj z with _ | (_ | ⟨k, v⟩ | _) <;> rw [hz'] at this
      · exact absurd hz' hz
      · obtain ⟨b, hb⟩ := this; exact ⟨_, hb.2.1⟩
      · obtain ⟨b, hb⟩ := this; exact ⟨_, hb.2.1⟩
      · obtain ⟨b, hb⟩ := this; exact ⟨_, hb⟩
    obtain ⟨t, ht⟩ := hsome y (by simp [hy])
    obtain ⟨q, hq⟩ := hsome x hx
    obtain ⟨r1, r2, r3, r4⟩ := rel_copy h y ht x
    rw [hq] at r1
    obtain ⟨s', k1, k2, k3, k4, k5⟩ := Inv.release (e := fun _ => 0) q.ptr r1
    refine ⟨s', by simp only [step, ht, hq]; exact k1, ⟨k2, fun z => ?_, ?_, k3.uses.trans (r4.trans h.asked)⟩⟩
    · rw [k3.vars]; exact (r2 z).same k3
    · exact k5.trans (r3.trans h.nc)
  | moveAssign x y =>
    have hcase : ∃ o, w.obj y = some o ∧ o ≠ .moved ∧ w.obj x ≠ none ∧ x ≠ y ∧
        w' = { w with obj := Function.update (Function.update w.obj y (some .moved)) x (w.obj y) } := by
      rcases hy : w.obj y with _ | (_ | ⟨k, v⟩ | _) <;> simp only [View.step, hy, Option.ite_none_left_eq_some, Option.some.injEq, reduceCtorEq, not_or] at hw
      · exact ⟨_, rfl, by simp, hw.1.1, hw.1.2, hw.2.symm⟩
      · exact ⟨_, rfl, by simp, hw.1.1, hw.1.2, hw.2.symm⟩
    obtain ⟨o, hy, -, hx, hxy, rfl⟩ := hcase
    have hsome : ∀ z, w.obj z ≠ none → ∃ t, s.vars z = some t := by
      intro z hz
      have := h.vars z
      rcases hz' : w.obj z with _ | (_ | ⟨k, v⟩ | _) <;> rw [hz'] at this
      · exact absurd hz' hz
      · obtain ⟨b, hb⟩ := this; exact ⟨_, hb.2.1⟩
      · obtain ⟨b, hb⟩ := this; exact ⟨_, hb.2.1⟩
      · obtain ⟨b, hb⟩ := this; exact ⟨_, hb⟩
    obtain ⟨t, ht⟩ := hsome y (by simp [hy])
    obtain ⟨q, hq⟩ := hsome x hx
    obtain ⟨r1, r2⟩ := rel_move h hxy ht
    rw [hq] at r1
    obtain ⟨s', k1, k2, k3, k4, k5⟩ := Inv.release (e := fun _ => 0) q.ptr r1
    refine ⟨s', by simp only [step, ht, hq]; exact k1, ⟨k2, fun z => ?_, k5.trans h.nc, k3.uses.trans h.asked⟩⟩
    rw [k3.vars]; exact (r2 z).same k3
  | destroy x =>
    simp only [View.step, Option.ite_none_left_eq_some, Option.some.injEq] at hw
    obtain ⟨hx, rfl⟩ := hw
    obtain ⟨q, hq⟩ : ∃ t, s.vars x = some t := by
      have := h.vars x
      rcases hz' : w.obj x with _ | (_ | ⟨k, v⟩ | _) <;> rw [hz'] at this
      · exact absurd hz' hx
      · obtain ⟨b, hb⟩ := this; exact ⟨_, hb.2.1⟩
      · obtain ⟨b, hb⟩ := this; exact ⟨_, hb.2.1⟩
      · obtain ⟨b, hb⟩ := this; exact ⟨_, hb⟩
    have r1 : Inv (s.set x none) (fun b => 0 + single (tptr (s.vars x)) b) := by
      refine Inv.set x _ (e := fun _ => 0) ?_
      refine cast (congrArg _ (funext fun b => ?_)) h.inv
      simp [tptr]
    rw [hq] at r1
    obtain ⟨s', k1, k2, k3, k4, k5⟩ := Inv.release (e := fun _ => 0) q.ptr r1
    refine ⟨s', by simp only [step, hq]; exact k1, ⟨k2, fun z => ?_, k5.trans h.nc, k3.uses.trans h.asked⟩⟩
    rw [k3.vars]
    exact (match_update h.vars x (t := none) (o := none) rfl z).same k3
  | query x =>
    have hv := h.vars x
    rcases hz : w.obj x with _ | (_ | ⟨k, v⟩ | _) <;> simp only [View.step, hz, Option.some.injEq, reduceCtorEq] at hw <;> rw [hz] at hv
    · subst hw
      obtain ⟨b, -, hb, -⟩ := hv
      exact ⟨s, by simp only [step, hb]; rfl, h⟩
    · subst hw
      obtain ⟨b, hlt, hb, hc, hk⟩ := hv
      obtain ⟨c, g1, g2, g3⟩ := h.inv.cust b hlt hc
      rw [hk, Option.some.injEq] at g2
      subst g2
      have hcnt := count_ne_zero h.inv x (b := b) (by rw [hb]; rfl)
      have hd := (h.inv.dups k).2 g1
      have hf : Event.free k ∉ s.trace := fun hf => hcnt (g3.1 hf)
      refine ⟨{ s with trace := s.trace ++ [.use k v] }, ?_, ⟨⟨h.inv.cnt, h.inv.fresh, fun b hb hc => ?_, h.inv.inj, h.inv.all, fun c => ?_, fun c hc => ?_, ?_⟩, ?_, h.nc, ?_⟩⟩
      · simp only [step, hb, Option.bind_eq_bind, Option.bind_some, hk]
        rw [if_pos ⟨hd, hf⟩]
      · obtain ⟨d, k1, k2, k3⟩ := h.inv.cust b hb hc
        exact ⟨d, k1, k2, by simpa using k3⟩
      · simpa using h.inv.dups c
      · exact h.inv.frees c (by simpa using hc)
      · exact proper_snoc h.inv.proper _ ⟨hd, hf⟩
      · intro z
        have := h.vars z
        rcases hz' : w.obj z with _ | (_ | ⟨k, v⟩ | _) <;> rw [hz'] at this <;> exact this
      · have := h.asked
        unfold uses at this ⊢
        rw [List.filterMap_append, this]
        rfl

lemma runFrom_rel [DecidableEq γ] (os : List (Op γ m)) : ∀ {s : State γ m} {w w' : View γ m}, Rel s w → w.runFrom os = some w' → ∃ s', runFrom s os = some s' ∧ Rel s' w' := by
  induction os with
  | nil =>
    intro s w w' h hw
    simp only [View.runFrom, Option.some.injEq] at hw
    subst hw
    exact ⟨s, rfl, h⟩
  | cons o os ih =>
    intro s w w' h hw
    rw [View.runFrom, Option.bind_eq_some_iff] at hw
    obtain ⟨w1, h1, h2⟩ := hw
    obtain ⟨s1, g1, g2⟩ := step_rel h o h1
    obtain ⟨s', g3, g4⟩ := ih g2 h2
    exact ⟨s', by simp only [runFrom, g1]; exact g3, g4⟩

/-- **C102.** Trees may be constructed (successfully or not), copied, moved, assigned, destroyed and queried in any order: whenever the program only uses objects that exist (`View.run h = some w`,
the user's view), no operation is undefined; every construction makes one communicator, which is used and freed only between its creation and its end, and freed once (`Proper`); a query uses
the communicator and the contents of the tree that was constructed, whatever copies and moves led to the object; and at every time, and so at the end, a communicator has been freed exactly
if no object is left that comes from its construction. -/
theorem communicator_lifetime [DecidableEq γ] (h : List (Op γ m)) (w : View γ m) (hw : View.run h = some w) :
    ∃ s, run h = some s ∧ Proper s.trace ∧ uses s.trace = w.asked ∧ (∀ c, .dup c ∈ s.trace ↔ c < w.made) ∧
      ∀ c < w.made, (.free c ∈ s.trace ↔ ∀ x v, w.obj x ≠ some (.built c v)) := by
  obtain ⟨s, h1, h2⟩ := runFrom_rel h (s := .init) (w := .init) ⟨Inv.init, fun x => rfl, rfl, rfl⟩ hw
  refine ⟨s, h1, h2.inv.proper, h2.asked, fun c => by rw [h2.inv.dups, h2.nc], fun c hc => ?_⟩
  rw [← h2.nc] at hc
  obtain ⟨b, g1, g2, g3⟩ := h2.inv.all c hc
  obtain ⟨c', -, k2, k3⟩ := h2.inv.cust b g1 g2
  rw [g3, Option.some.injEq] at k2
  subst k2
  rw [k3]
  constructor
  · intro h0 x v hx
    have := h2.vars x
    rw [hx] at this
    obtain ⟨b', e1, e2, e3, e4⟩ := this
    have hbb := h2.inv.inj b' e1 b g1 e3 g2 (e4.trans g3.symm)
    subst hbb
    exact count_ne_zero h2.inv x (by rw [e2]; rfl) h0
  · intro hno
    by_contra h0
    have hcnt := h2.inv.cnt b
    have hpos : 0 < s.refs b := by simp only [Nat.add_zero] at hcnt; omega
    obtain ⟨x, hx⟩ := Finset.card_pos.1 hpos
    simp only [Finset.mem_filter, Finset.mem_univ, true_and] at hx
    have := h2.vars x
    rcases hz : w.obj x with _ | (_ | ⟨k, v⟩ | _) <;> rw [hz] at this
    · rw [this] at hx; simp [tptr] at hx
    · obtain ⟨b', -, e2, e3⟩ := this
      rw [e2] at hx
      simp only [tptr, Option.bind_some, Option.some.injEq] at hx
      subst hx
      rw [e3] at g2
      simp at g2
    · obtain ⟨b', -, e2, e3, e4⟩ := this
      rw [e2] at hx
      simp only [tptr, Option.bind_some, Option.some.injEq] at hx
      subst hx
      rw [e4, Option.some.injEq] at g3
      subst g3
      exact hno x v hz
    · obtain ⟨u, e2⟩ := this
      rw [e2] at hx
      simp [tptr] at hx

/-- **C102.** When all objects are gone, everything that was made has been freed. -/
theorem no_communicator_leaks [DecidableEq γ] (h : List (Op γ m)) (w : View γ m) (hw : View.run h = some w) (hend : ∀ x, w.obj x = none) :
    ∃ s, run h = some s ∧ ∀ c, Event.dup c ∈ s.trace → Event.free c ∈ s.trace := by
  obtain ⟨s, h1, -, -, h4, h5⟩ := communicator_lifetime h w hw
  exact ⟨s, h1, fun c hc => (h5 c ((h4 c).1 hc)).2 (by simp [hend])⟩

/-! ## All processes make the same calls

The contents of a tree differ between processes; what is left of operations, events and states without them: -/

def Op.shape : Op γ m → Op Unit m
  | .default x => .default x
  | .create x _ => .create x ()
  | .createFails x => .createFails x
  | .copy x y => .copy x y
  | .move x y => .move x y
  | .assign x y => .assign x y
  | .moveAssign x y => .moveAssign x y
  | .destroy x => .destroy x
  | .query x => .query x

def Event.shape : Event γ → Event Unit
  | .dup c => .dup c
  | .free c => .free c
  | .use c _ => .use c ()

def Tree.shape (t : Tree γ) : Tree Unit := ⟨t.ptr, t.val.map fun _ => ()⟩

def State.shape (s : State γ m) : State Unit m := ⟨s.blocks, s.nb, s.nc, fun x => (s.vars x).map Tree.shape, s.trace.map Event.shape⟩

lemma dup_mem_shape (l : List (Event γ)) (c : ℕ) : Event.dup c ∈ l.map Event.shape ↔ Event.dup c ∈ l := by
  simp only [List.mem_map]
  constructor
  · rintro ⟨e, he, h⟩
    cases e <;> simp only [Event.shape, reduceCtorEq, Event.dup.injEq] at h
    subst h; exact he
  · intro h; exact ⟨_, h, rfl⟩

lemma free_mem_shape (l : List (Event γ)) (c : ℕ) : Event.free c ∈ l.map Event.shape ↔ Event.free c ∈ l := by
  simp only [List.mem_map]
  constructor
  · rintro ⟨e, he, h⟩
    cases e <;> simp only [Event.shape, reduceCtorEq, Event.free.injEq] at h
    subst h; exact he
  · intro h; exact ⟨_, h, rfl⟩

lemma shape_set (s : State γ m) (x : Fin m) (t : Option (Tree γ)) : (s.set x t).shape = s.shape.set x (t.map Tree.shape) := by
  simp only [State.shape, State.set, State.mk.injEq, true_and, and_true]
  funext y
  by_cases hy : y = x
  · subst hy; simp
  · simp [hy]

lemma shape_retain (s : State γ m) (p : Option ℕ) : (s.retain p).shape = s.shape.retain p := by cases p <;> rfl

lemma shape_release [DecidableEq γ] (s : State γ m) (p : Option ℕ) : s.shape.release p = (s.release p).map State.shape := by
  cases p with
  | none => rfl
  | some b =>
    have hb : s.shape.blocks = s.blocks := rfl
    simp only [State.release, hb]
    by_cases h0 : (s.blocks b).count = 0
    · rw [if_pos h0, if_pos h0]; rfl
    · rw [if_neg h0, if_neg h0]
      by_cases h1 : (s.blocks b).count = 1 ∧ (s.blocks b).custom = true
      · rw [if_pos h1, if_pos h1]
        cases (s.blocks b).comm with
        | none => rfl
        | some c =>
          simp only [State.freeComm, State.shape, dup_mem_shape, free_mem_shape]
          split_ifs with h2
          · simp [State.shape, Event.shape]
          · rfl
      · rw [if_neg h1, if_neg h1]; rfl

lemma shape_make [DecidableEq γ] (s : State γ m) : s.shape.make = s.make.map State.shape := by
  have h := shape_release ((s.alloc none false).dup.alloc (some ((s.alloc none false).dup.nc - 1)) true) (some (s.nb + 2 - 2))
  refine Eq.trans ?_ h
  unfold State.make
  dsimp only
  congr 1
  simp [State.shape, State.alloc, State.dup, Event.shape]

lemma shape_step [DecidableEq γ] (s : State γ m) (o : Op γ m) : step s.shape o.shape = (step s o).map State.shape := by
  have hv : ∀ y, s.shape.vars y = (s.vars y).map Tree.shape := fun y => rfl
  cases o with
  | default x => simp only [step, Op.shape, Option.map_some, shape_set]; rfl
  | create x v =>
    simp only [step, Op.shape, shape_make, Option.bind_eq_bind, Option.bind_map, Option.map_bind]
    congr 1; funext s'
    simp only [Function.comp, Option.map_some, shape_set]; rfl
  | createFails x =>
    simp only [step, Op.shape, shape_make, Option.bind_eq_bind, Option.bind_map, Option.map_bind]
    congr 1; funext s'
    exact shape_release s' (some (s.nb + 1))
  | copy x y =>
    simp only [step, Op.shape, hv, Option.bind_eq_bind, Option.bind_map, Option.map_bind]
    congr 1; funext t
    simp only [Function.comp, Option.map_some, shape_set, shape_retain]; rfl
  | move x y =>
    simp only [step, Op.shape, hv, Option.bind_eq_bind, Option.bind_map, Option.map_bind]
    congr 1; funext t
    simp only [Function.comp, Option.map_some, shape_set]; rfl
  | assign x y =>
    simp only [step, Op.shape, hv, Option.bind_eq_bind, Option.bind_map, Option.map_bind]
    congr 1; funext t
    simp only [Function.comp, Option.map_bind]
    congr 1; funext q
    simp only [← shape_release, shape_set, shape_retain]; rfl
  | moveAssign x y =>
    simp only [step, Op.shape, hv, Option.bind_eq_bind, Option.bind_map, Option.map_bind]
    congr 1; funext t
    simp only [Function.comp, Option.map_bind]
    congr 1; funext q
    simp only [← shape_release, shape_set]; rfl
  | destroy x =>
    simp only [step, Op.shape, hv, Option.bind_eq_bind, Option.bind_map, Option.map_bind]
    congr 1; funext q
    simp only [Function.comp, ← shape_release, shape_set]; rfl
  | query x =>
    simp only [step, Op.shape, hv, Option.bind_eq_bind, Option.bind_map, Option.map_bind]
    congr 1; funext t
    rcases t with ⟨p, _ | v⟩
    · rfl
    · simp only [Function.comp, Tree.shape, Option.map_some]
      cases p with
      | none => rfl
      | some b =>
        simp only [Option.bind_some]
        change ((s.blocks b).comm).bind _ = _
        cases (s.blocks b).comm with
        | none => rfl
        | some c =>
          simp only [Option.bind_some, State.shape, dup_mem_shape, free_mem_shape]
          split_ifs with h2
          · simp [State.shape, Event.shape]
          · rfl

lemma shape_runFrom [DecidableEq γ] (os : List (Op γ m)) : ∀ s : State γ m, runFrom s.shape (os.map Op.shape) = (runFrom s os).map State.shape := by
  induction os with
  | nil => intro s; rfl
  | cons o os ih =>
    intro s
    simp only [runFrom, List.map_cons, shape_step, Option.bind_eq_bind, Option.bind_map, Option.map_bind]
    congr 1; funext s'
    exact ih s'

/-- **C102.** Processes that do the same with their trees, whose contents may differ, duplicate, use and free communicators in the same order (these are collective operations). -/
theorem same_calls {γ' : Type} [DecidableEq γ] [DecidableEq γ'] (h : List (Op γ m)) (h' : List (Op γ' m)) (hs : h.map Op.shape = h'.map Op.shape)
    {s : State γ m} {s' : State γ' m} (hr : run h = some s) (hr' : run h' = some s') : s.trace.map Event.shape = s'.trace.map Event.shape := by
  have e1 := shape_runFrom h (State.init (γ := γ) (m := m))
  have e2 := shape_runFrom h' (State.init (γ := γ') (m := m))
  have e3 : (State.init (γ := γ) (m := m)).shape = (State.init (γ := γ') (m := m)).shape := rfl
  rw [hs, e3, e2] at e1
  rw [show runFrom State.init h = some s from hr, show runFrom State.init h' = some s' from hr', Option.map_some, Option.map_some, Option.some.injEq] at e1
  exact (congrArg State.trace e1).symm

/-- A history with copies, moves, an exception and a self-assignment: the copy outlives the original, and the communicators are freed with the last copies. -/
example : ((View.run (γ := ℕ) (m := 3) [.create 0 7, .copy 1 0, .destroy 0, .query 1, .createFails 2, .default 2, .query 2, .moveAssign 2 1, .assign 2 2, .query 2, .create 0 8,
    .assign 1 0, .assign 2 0, .destroy 0, .query 2, .destroy 1, .destroy 2]).isSome = true) ∧
    (run (γ := ℕ) (m := 3) [.create 0 7, .copy 1 0, .destroy 0, .query 1, .createFails 2, .default 2, .query 2, .moveAssign 2 1, .assign 2 2, .query 2, .create 0 8,
      .assign 1 0, .assign 2 0, .destroy 0, .query 2, .destroy 1, .destroy 2]).map (·.trace)
      = some [.dup 0, .use 0 7, .dup 1, .free 1, .use 0 7, .dup 2, .free 0, .use 2 8, .free 2] := by
  decide

end ArborX.Lifetime
