import Verif.Lifetime.Spec

/-! # Invariant of the owners of communicators -/

namespace ArborX.Lifetime

variable {γ : Type} {m : ℕ}

/-- One reference to `p`. -/
def single (p : Option ℕ) (b : ℕ) : ℕ := if p = some b then 1 else 0

@[simp] lemma single_none (b : ℕ) : single none b = 0 := by simp [single]

def tptr (t : Option (Tree γ)) : Option ℕ := t.bind (·.ptr)

/-- The number of variables that own block `b`. -/
def State.refs (s : State γ m) (b : ℕ) : ℕ := (Finset.univ.filter fun x => tptr (s.vars x) = some b).card

/-- `e b` owners of block `b` are not variables. -/
structure Inv (s : State γ m) (e : ℕ → ℕ) : Prop where
  cnt : ∀ b, (s.blocks b).count = s.refs b + e b
  fresh : ∀ b, s.nb ≤ b → (s.blocks b).count = 0
  cust : ∀ b < s.nb, (s.blocks b).custom = true → ∃ c < s.nc, (s.blocks b).comm = some c ∧ (Event.free c ∈ s.trace ↔ (s.blocks b).count = 0)
  inj : ∀ b < s.nb, ∀ b' < s.nb, (s.blocks b).custom = true → (s.blocks b').custom = true → (s.blocks b).comm = (s.blocks b').comm → b = b'
  all : ∀ c < s.nc, ∃ b < s.nb, (s.blocks b).custom = true ∧ (s.blocks b).comm = some c
  dups : ∀ c, Event.dup c ∈ s.trace ↔ c < s.nc
  frees : ∀ c, Event.free c ∈ s.trace → c < s.nc
  proper : Proper s.trace

/-- What the operations on pointers do not change. -/
structure Same (s s' : State γ m) : Prop where
  vars : s'.vars = s.vars
  nb : s.nb ≤ s'.nb
  blk : ∀ b < s.nb, (s'.blocks b).comm = (s.blocks b).comm ∧ (s'.blocks b).custom = (s.blocks b).custom
  uses : uses s'.trace = uses s.trace

lemma Same.trans {s s' s'' : State γ m} (h : Same s s') (h' : Same s' s'') : Same s s'' :=
  ⟨h'.vars.trans h.vars, h.nb.trans h'.nb, fun b hb => by
    obtain ⟨a1, a2⟩ := h.blk b hb
    obtain ⟨b1, b2⟩ := h'.blk b (lt_of_lt_of_le hb h.nb)
    exact ⟨b1.trans a1, b2.trans a2⟩, h'.uses.trans h.uses⟩

lemma proper_snoc {l : List (Event γ)} (h : Proper l) (e : Event γ)
    (he : match e with
      | .dup c => Event.dup c ∉ l ∧ .free c ∉ l
      | .free c => .dup c ∈ l ∧ .free c ∉ l
      | .use c _ => .dup c ∈ l ∧ .free c ∉ l) : Proper (l ++ [e]) := by
  intro a f r hr
  rcases List.eq_nil_or_concat r with rfl | ⟨r', z, rfl⟩
  · obtain ⟨rfl, h2⟩ := List.append_inj' hr rfl
    simp only [List.cons.injEq, and_true] at h2
    subst h2
    exact he
  · rw [List.concat_eq_append, ← List.cons_append, ← List.append_assoc] at hr
    obtain ⟨h1, -⟩ := List.append_inj' hr rfl
    exact h a f r' h1

lemma Inv.init : Inv (State.init : State γ m) (fun _ => 0) := by
  refine ⟨fun b => ?_, fun b _ => rfl, fun b hb => absurd hb (by simp [State.init]), fun b hb => absurd hb (by simp [State.init]),
    fun c hc => absurd hc (by simp [State.init]), fun c => by simp [State.init], fun c hc => by simp [State.init] at hc, ?_⟩
  · simp [State.init, State.refs, tptr]
  · intro l e r h
    simp [State.init] at h

lemma Inv.lt {s : State γ m} {e : ℕ → ℕ} (h : Inv s e) {b : ℕ} (hb : (s.blocks b).count ≠ 0) : b < s.nb := by
  by_contra hc
  exact hb (h.fresh b (by omega))

lemma refs_pos {s : State γ m} {b : ℕ} {x : Fin m} (hx : tptr (s.vars x) = some b) : 0 < s.refs b :=
  Finset.card_pos.2 ⟨x, by simp [hx]⟩

lemma Inv.alloc_null {s : State γ m} {e : ℕ → ℕ} (h : Inv s e) :
    Inv (s.alloc none false) (fun b => e b + single (some s.nb) b) ∧ Same s (s.alloc none false) := by
  have h0 := h.fresh s.nb le_rfl
  have h1 := h.cnt s.nb
  refine ⟨⟨fun b => ?_, fun b hb => ?_, fun b hb hc => ?_, fun b hb b' hb' hc hc' => ?_, fun c hc => ?_, h.dups, h.frees, h.proper⟩,
    ⟨rfl, Nat.le_succ _, fun b hb => ?_, rfl⟩⟩
  · have hr : (s.alloc none false).refs b = s.refs b := rfl
    rw [hr]
    by_cases hb : b = s.nb
    · subst hb
      simp only [State.alloc, Function.update_self, single, if_pos]
      omega
    · have := h.cnt b
      simp only [State.alloc, Function.update_of_ne hb, single, Option.some.injEq, Ne.symm hb, if_false, this, Nat.add_zero]
  · simp only [State.alloc] at hb ⊢
    rw [Function.update_of_ne (by omega)]
    exact h.fresh b (by omega)
  · by_cases hb' : b = s.nb
    · subst hb'; simp [State.alloc] at hc
    · simp only [State.alloc, Function.update_of_ne hb'] at hb hc ⊢
      exact h.cust b (by omega) hc
  · have e1 : b ≠ s.nb := by rintro rfl; simp [State.alloc] at hc
    have e2 : b' ≠ s.nb := by rintro rfl; simp [State.alloc] at hc'
    simp only [State.alloc, Function.update_of_ne e1, Function.update_of_ne e2] at hb hb' hc hc' ⊢
    exact h.inj b (by omega) b' (by omega) hc hc'
  · obtain ⟨b, hb, h2, h3⟩ := h.all c hc
    refine ⟨b, by simp only [State.alloc]; omega, ?_⟩
    simp only [State.alloc, Function.update_of_ne (Nat.ne_of_lt hb)]
    exact ⟨h2, h3⟩
  · simp only [State.alloc, Function.update_of_ne (Nat.ne_of_lt hb), and_self]

lemma Inv.alloc_dup {s : State γ m} {e : ℕ → ℕ} (h : Inv s e) :
    Inv (s.dup.alloc (some s.nc) true) (fun b => e b + single (some s.nb) b) ∧ Same s (s.dup.alloc (some s.nc) true) := by
  have h0 := h.fresh s.nb le_rfl
  have h1 := h.cnt s.nb
  have hfree : Event.free s.nc ∉ s.trace := fun hc => absurd (h.frees _ hc) (by omega)
  have hdup : Event.dup s.nc ∉ s.trace := fun hc => absurd ((h.dups _).1 hc) (by omega)
  refine ⟨⟨fun b => ?_, fun b hb => ?_, fun b hb hc => ?_, fun b hb b' hb' hc hc' hcc => ?_, fun c hc => ?_, fun c => ?_, fun c hc => ?_, ?_⟩,
    ⟨rfl, Nat.le_succ _, fun b hb => ?_, ?_⟩⟩
  · have hr : (s.dup.alloc (some s.nc) true).refs b = s.refs b := rfl
    rw [hr]
    by_cases hb : b = s.nb
    · subst hb
      simp only [State.alloc, State.dup, Function.update_self, single, if_pos]
      omega
    · have := h.cnt b
      simp only [State.alloc, State.dup, Function.update_of_ne hb, single, Option.some.injEq, Ne.symm hb, if_false, this, Nat.add_zero]
  · simp only [State.alloc, State.dup] at hb ⊢
    rw [Function.update_of_ne (by omega)]
    exact h.fresh b (by omega)
  · by_cases hb' : b = s.nb
    · subst hb'
      refine ⟨s.nc, by simp [State.alloc, State.dup], by simp [State.alloc, State.dup], ?_⟩
      simp [State.alloc, State.dup, hfree]
    · simp only [State.alloc, State.dup, Function.update_of_ne hb'] at hb hc ⊢
      obtain ⟨c, g1, g2, g3⟩ := h.cust b (by omega) hc
      exact ⟨c, by omega, g2, by simpa using g3⟩
  · have key : ∀ d < s.nb, (s.blocks d).custom = true → (s.blocks d).comm ≠ some s.nc := by
      intro d hd hcd hcm
      obtain ⟨c, g1, g2, -⟩ := h.cust d hd hcd
      rw [hcm] at g2
      simp only [Option.some.injEq] at g2
      omega
    by_cases e1 : b = s.nb <;> by_cases e2 : b' = s.nb
    · rw [e1, e2]
    · subst e1
      simp only [State.alloc, State.dup, Function.update_of_ne e2, Function.update_self] at hb' hc' hcc
      exact absurd hcc.symm (key b' (by omega) hc')
    · subst e2
      simp only [State.alloc, State.dup, Function.update_of_ne e1, Function.update_self] at hb hc hcc
      exact absurd hcc (key b (by omega) hc)
    · simp only [State.alloc, State.dup, Function.update_of_ne e1, Function.update_of_ne e2] at hb hb' hc hc' hcc
      exact h.inj b (by omega) b' (by omega) hc hc' hcc
  · simp only [State.alloc, State.dup] at hc ⊢
    by_cases e1 : c = s.nc
    · subst e1
      exact ⟨s.nb, by omega, by simp⟩
    · obtain ⟨b, hb, h2, h3⟩ := h.all c (by omega)
      exact ⟨b, by omega, by simp only [Function.update_of_ne (Nat.ne_of_lt hb)]; exact ⟨h2, h3⟩⟩
  · have := h.dups c
    simp only [State.alloc, State.dup, List.mem_append, List.mem_singleton, Event.dup.injEq, this]
    omega
  · simp only [State.alloc, State.dup, List.mem_append, List.mem_singleton, reduceCtorEq, or_false] at hc ⊢
    have := h.frees c hc
    omega
  · exact proper_snoc h.proper _ ⟨hdup, hfree⟩
  · simp only [State.alloc, State.dup, Function.update_of_ne (Nat.ne_of_lt hb), and_self]
  · simp [State.alloc, State.dup, Lifetime.uses]

lemma Inv.retain {s : State γ m} {e : ℕ → ℕ} (h : Inv s e) (p : Option ℕ) (hp : ∀ b, p = some b → (s.blocks b).count ≠ 0) :
    Inv (s.retain p) (fun b => e b + single p b) ∧ Same s (s.retain p) := by
  cases p with
  | none => exact ⟨by simpa [State.retain] using h, ⟨rfl, le_rfl, fun _ _ => ⟨rfl, rfl⟩, rfl⟩⟩
  | some a =>
    have ha := hp a rfl
    have hblk : ∀ b, ((s.retain (some a)).blocks b).comm = (s.blocks b).comm ∧ ((s.retain (some a)).blocks b).custom = (s.blocks b).custom := by
      intro b
      by_cases hb : b = a
      · subst hb; simp [State.retain]
      · simp [State.retain, Function.update_of_ne hb]
    have hcount : ∀ b, ((s.retain (some a)).blocks b).count = (s.blocks b).count + single (some a) b := by
      intro b
      by_cases hb : b = a
      · subst hb; simp [State.retain, single]
      · simp [State.retain, Function.update_of_ne hb, single, Ne.symm hb]
    have hz : ∀ b, ((s.retain (some a)).blocks b).count = 0 ↔ (s.blocks b).count = 0 := by
      intro b
      rw [hcount]
      by_cases hb : b = a
      · subst hb; simp [single, ha]
      · simp [single, Ne.symm hb]
    refine ⟨⟨fun b => ?_, fun b hb => (hz b).2 (h.fresh b hb), fun b hb hc => ?_, fun b hb b' hb' hc hc' hcc => ?_, fun c hc => ?_, h.dups, h.frees, h.proper⟩,
      ⟨rfl, le_rfl, fun b _ => hblk b, rfl⟩⟩
    · rw [hcount, h.cnt b]
      have : (s.retain (some a)).refs b = s.refs b := rfl
      omega
    · rw [(hblk b).2] at hc
      obtain ⟨c, g1, g2, g3⟩ := h.cust b hb hc
      exact ⟨c, g1, (hblk b).1.trans g2, g3.trans (hz b).symm⟩
    · rw [(hblk b).2] at hc
      rw [(hblk b').2] at hc'
      rw [(hblk b).1, (hblk b').1] at hcc
      exact h.inj b hb b' hb' hc hc' hcc
    · obtain ⟨b, g1, g2, g3⟩ := h.all c hc
      exact ⟨b, g1, (hblk b).2.trans g2, (hblk b).1.trans g3⟩

lemma Inv.release [DecidableEq γ] {s : State γ m} {e : ℕ → ℕ} (p : Option ℕ) (h : Inv s (fun b => e b + single p b)) :
    ∃ s', s.release p = some s' ∧ Inv s' e ∧ Same s s' ∧ s'.nb = s.nb ∧ s'.nc = s.nc := by
  cases p with
  | none => exact ⟨s, rfl, by simpa using h, ⟨rfl, le_rfl, fun _ _ => ⟨rfl, rfl⟩, rfl⟩, rfl, rfl⟩
  | some a =>
    have hca := h.cnt a
    simp only [single, if_true] at hca
    have ha : (s.blocks a).count ≠ 0 := by omega
    have hlt := h.lt ha
    obtain ⟨bl, hbl⟩ : ∃ bl, bl = Function.update s.blocks a { s.blocks a with count := (s.blocks a).count - 1 } := ⟨_, rfl⟩
    have hblk : ∀ b, (bl b).comm = (s.blocks b).comm ∧ (bl b).custom = (s.blocks b).custom := by
      intro b
      rw [hbl]
      by_cases hb : b = a
      · subst hb; simp
      · simp [Function.update_of_ne hb]
    have hcount : ∀ b, (bl b).count = s.refs b + e b := by
      intro b
      rw [hbl]
      by_cases hb : b = a
      · subst hb; simp; omega
      · have := h.cnt b
        simp [single, Ne.symm hb] at this
        simp [Function.update_of_ne hb, this]
    have hne : ∀ b, b ≠ a → (bl b).count = (s.blocks b).count := by
      intro b hb; rw [hbl, Function.update_of_ne hb]
    have haa : (bl a).count = (s.blocks a).count - 1 := by rw [hbl]; simp
    rw [State.release, if_neg ha]
    dsimp only
    rw [← hbl]
    by_cases hlast : (s.blocks a).count = 1 ∧ (s.blocks a).custom = true
    · rw [if_pos hlast]
      obtain ⟨c, hc1, hc2, hc3⟩ := h.cust a hlt hlast.2
      have hnf : Event.free c ∉ s.trace := fun hf => ha (hc3.1 hf)
      have hd := (h.dups c).2 hc1
      rw [hc2]
      refine ⟨{ s with blocks := bl, trace := s.trace ++ [.free c] }, by simp only [State.freeComm]; rw [if_pos ⟨hd, hnf⟩],
        ⟨hcount, fun b hb => ?_, fun b hb hcb => ?_, fun b hb b' hb' hcb hcb' hcc => ?_, fun d hd => ?_, fun d => ?_, fun d hd => ?_, ?_⟩,
        ⟨rfl, le_rfl, fun b _ => hblk b, by simp [Lifetime.uses]⟩, rfl, rfl⟩
      · have hb' : b ≠ a := by rintro rfl; dsimp only at hb; omega
        dsimp only
        rw [hne b hb']
        exact h.fresh b hb
      · dsimp only at hb hcb ⊢
        rw [(hblk b).2] at hcb
        obtain ⟨d, g1, g2, g3⟩ := h.cust b hb hcb
        refine ⟨d, g1, (hblk b).1.trans g2, ?_⟩
        by_cases hba : b = a
        · subst hba
          rw [hc2, Option.some.injEq] at g2
          subst g2
          simp [haa, hlast.1]
        · rw [hne b hba]
          have : c ≠ d := by
            rintro rfl
            exact hba (h.inj b hb a hlt hcb hlast.2 (g2.trans hc2.symm))
          simp [g3, Ne.symm this]
      · dsimp only at hcb hcb' hcc
        rw [(hblk b).2] at hcb
        rw [(hblk b').2] at hcb'
        rw [(hblk b).1, (hblk b').1] at hcc
        exact h.inj b hb b' hb' hcb hcb' hcc
      · obtain ⟨b, g1, g2, g3⟩ := h.all d hd
        exact ⟨b, g1, (hblk b).2.trans g2, (hblk b).1.trans g3⟩
      · simp [h.dups d]
      · simp only [List.mem_append, List.mem_singleton, Event.free.injEq] at hd
        rcases hd with hd | rfl
        · exact h.frees d hd
        · exact hc1
      · exact proper_snoc h.proper _ ⟨hd, hnf⟩
    · rw [if_neg hlast]
      refine ⟨{ s with blocks := bl }, rfl, ⟨hcount, fun b hb => ?_, fun b hb hcb => ?_, fun b hb b' hb' hcb hcb' hcc => ?_, fun d hd => ?_, h.dups, h.frees, h.proper⟩,
        ⟨rfl, le_rfl, fun b _ => hblk b, rfl⟩, rfl, rfl⟩
      · have hb' : b ≠ a := by rintro rfl; dsimp only at hb; omega
        dsimp only
        rw [hne b hb']
        exact h.fresh b hb
      · dsimp only at hb hcb ⊢
        rw [(hblk b).2] at hcb
        obtain ⟨d, g1, g2, g3⟩ := h.cust b hb hcb
        refine ⟨d, g1, (hblk b).1.trans g2, ?_⟩
        by_cases hba : b = a
        · subst hba
          rw [haa, g3]
          have : (s.blocks b).count ≠ 1 := fun h1 => hlast ⟨h1, hcb⟩
          omega
        · rw [hne b hba]
          exact g3
      · dsimp only at hcb hcb' hcc
        rw [(hblk b).2] at hcb
        rw [(hblk b').2] at hcb'
        rw [(hblk b).1, (hblk b').1] at hcc
        exact h.inj b hb b' hb' hcb hcb' hcc
      · obtain ⟨b, g1, g2, g3⟩ := h.all d hd
        exact ⟨b, g1, (hblk b).2.trans g2, (hblk b).1.trans g3⟩

lemma refs_set (s : State γ m) (x : Fin m) (t : Option (Tree γ)) (b : ℕ) :
    (s.set x t).refs b + single (tptr (s.vars x)) b = s.refs b + single (tptr t) b := by
  classical
  have key : ∀ u : State γ m, u.refs b = (Finset.univ.filter fun y => y ≠ x ∧ tptr (u.vars y) = some b).card + single (tptr (u.vars x)) b := by
    intro u
    unfold State.refs single
    split_ifs with hx
    · rw [show (Finset.univ.filter fun y => tptr (u.vars y) = some b) = insert x (Finset.univ.filter fun y => y ≠ x ∧ tptr (u.vars y) = some b) by
        ext y; by_cases hy : y = x <;> simp [hy, hx]]
      rw [Finset.card_insert_of_notMem (by simp)]
    · rw [show (Finset.univ.filter fun y => tptr (u.vars y) = some b) = (Finset.univ.filter fun y => y ≠ x ∧ tptr (u.vars y) = some b) by
        ext y; by_cases hy : y = x <;> simp [hy, hx]]
      rfl
  rw [key (s.set x t), key s]
  have e1 : (Finset.univ.filter fun y => y ≠ x ∧ tptr ((s.set x t).vars y) = some b) = (Finset.univ.filter fun y => y ≠ x ∧ tptr (s.vars y) = some b) := by
    refine Finset.filter_congr fun y _ => and_congr_right fun hy => ?_
    rw [show (s.set x t).vars y = s.vars y from Function.update_of_ne hy _ _]
  have e2 : (s.set x t).vars x = t := by simp [State.set]
  rw [e1, e2]
  omega

lemma Inv.set {s : State γ m} {e : ℕ → ℕ} (x : Fin m) (t : Option (Tree γ)) (h : Inv s (fun b => e b + single (tptr t) b)) :
    Inv (s.set x t) (fun b => e b + single (tptr (s.vars x)) b) := by
  refine ⟨fun b => ?_, h.fresh, h.cust, h.inj, h.all, h.dups, h.frees, h.proper⟩
  have h1 := h.cnt b
  have h2 := refs_set s x t b
  have : ((s.set x t).blocks b).count = (s.blocks b).count := rfl
  rw [this, h1]
  omega

end ArborX.Lifetime
