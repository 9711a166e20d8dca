import Verif.UnionFind.Lemmas

/-!
# The invariant is kept by every step
-/

namespace ArborX.UF

open Function (update)

variable {n : ℕ} {C : ℕ → Prop} {R B : ℕ → ℕ → Prop}

/-- Assumptions on the specification: `R` is an equivalence, vertices are below `n`. -/
structure Spec (n : ℕ) (C : ℕ → Prop) (R : ℕ → ℕ → Prop) : Prop where
  equiv : Equivalence R
  lt : ∀ x, C x → x < n

lemma Grow.halve {L : ℕ → ℕ} (h : LInv C R B L) {p q : ℕ} (hp : C p) (hq : C q) (hqp : q < p)
    (hroot : root L q = root L p) (hnr : L p ≠ p) : Grow C L (update L p q) := by
  have hr := root_halve h.dec hp hq hqp hroot hnr
  refine ⟨?_, ?_, ?_⟩
  · intro x y hx hy e
    rw [hr.2 x hx, hr.2 y hy, e]
  · intro x hx hne
    by_cases e : x = p
    · subst e; rw [Function.update_self]; omega
    · rwa [Function.update_of_ne e]
  · intro b hb
    by_cases e : b = p
    · subst e; rwa [Function.update_self]
    · rwa [Function.update_of_ne e]

lemma LInv.halve (S : Spec n C R) {L : ℕ → ℕ} (h : LInv C R B L) {p q : ℕ} (hp : C p) (hq : C q)
    (hqp : q < p) (hroot : root L q = root L p) (hnr : L p ≠ p) : LInv C R B (update L p q) := by
  have hr := root_halve h.dec hp hq hqp hroot hnr
  refine ⟨hr.1, ?_, ?_⟩
  · intro x hx
    by_cases e : x = p
    · subst e
      rw [Function.update_self]
      have h1 := root_rel h.dec S.equiv h.rel hx
      have h2 := root_rel h.dec S.equiv h.rel hq
      rw [hroot] at h2
      exact S.equiv.trans h1 (S.equiv.symm h2)
    · rw [Function.update_of_ne e]; exact h.rel x hx
  · intro b hb
    have e : b ≠ p := fun e => hb (e ▸ hp)
    rw [Function.update_of_ne e]; exact h.out b hb

lemma Grow.link {L : ℕ → ℕ} (h : LInv C R B L) {o v : ℕ} (ho : C o) (hv : C v)
    (hvo : v < o) (hroot : L o = o) : Grow C L (update L o v) := by
  have hr := root_link h.dec ho hv hvo hroot
  refine ⟨?_, ?_, ?_⟩
  · intro x y hx hy e
    rw [hr.2 x hx, hr.2 y hy, e]
  · intro x hx hne
    by_cases e : x = o
    · subst e; rw [Function.update_self]; omega
    · rwa [Function.update_of_ne e]
  · intro b hb
    by_cases e : b = o
    · subst e; rwa [Function.update_self]
    · rwa [Function.update_of_ne e]

lemma LInv.link {L : ℕ → ℕ} (h : LInv C R B L) {o v : ℕ} (ho : C o) (hv : C v)
    (hvo : v < o) (hroot : L o = o) (hR : R o v) : LInv C R B (update L o v) := by
  have hr := root_link h.dec ho hv hvo hroot
  refine ⟨hr.1, ?_, ?_⟩
  · intro x hx
    by_cases e : x = o
    · subst e; rwa [Function.update_self]
    · rw [Function.update_of_ne e]; exact h.rel x hx
  · intro b hb
    have e : b ≠ o := fun e => hb (e ▸ ho)
    rw [Function.update_of_ne e]; exact h.out b hb

lemma Grow.store {L : ℕ → ℕ} (h : LInv C R B L) {b r : ℕ} (hb : ¬ C b) (hr : C r) :
    Grow C L (update L b r) := by
  have ho := root_outside h.dec (r := r) hb
  refine ⟨?_, ?_, ?_⟩
  · intro x y hx hy e
    rw [ho.2 x hx, ho.2 y hy, e]
  · intro x hx hne
    have e : x ≠ b := fun e => hb (e ▸ hx)
    rwa [Function.update_of_ne e]
  · intro x hx
    by_cases e : x = b
    · subst e; rwa [Function.update_self]
    · rwa [Function.update_of_ne e]

lemma LInv.store {L : ℕ → ℕ} (h : LInv C R B L) {b r j : ℕ} (hb : ¬ C b) (hr : C r) (hj : C j)
    (hB : B b j) (hR : R j r) : LInv C R B (update L b r) := by
  have ho := root_outside h.dec (r := r) hb
  refine ⟨ho.1, ?_, ?_⟩
  · intro x hx
    have e : x ≠ b := fun e => hb (e ▸ hx)
    rw [Function.update_of_ne e]; exact h.rel x hx
  · intro x hx
    by_cases e : x = b
    · subst e; rw [Function.update_self]; exact Or.inr ⟨hr, j, hj, hB, hR⟩
    · rw [Function.update_of_ne e]; exact h.out x hx

/-- Vertices in the same tree are related. -/
lemma Eqr.rel (S : Spec n C R) {L : ℕ → ℕ} (h : LInv C R B L) {x y : ℕ} (e : Eqr C L x y) : R x y := by
  have h1 := root_rel h.dec S.equiv h.rel e.1
  have h2 := root_rel h.dec S.equiv h.rel e.2.1
  rw [e.2.2] at h1
  exact S.equiv.trans h1 (S.equiv.symm h2)

lemma Eqr.trans {L : ℕ → ℕ} {x y z : ℕ} (h1 : Eqr C L x y) (h2 : Eqr C L y z) : Eqr C L x z :=
  ⟨h1.1, h2.2.1, h1.2.2.trans h2.2.2⟩

lemma Eqr.label {L : ℕ → ℕ} (h : LInv C R B L) {x : ℕ} (hx : C x) : Eqr C L x (L x) :=
  ⟨hx, (h.dec x hx).1, (root_label h.dec hx).symm⟩

/-- Changing only the place inside `representative`. -/
lemma TInv.move {L : ℕ → ℕ} {p : Prog} {l : List Ev} {sr : Bool} {f f' : Find} {c : Cont}
    (h : TInv n C R B sr L p l (.find f c)) (hf : ∀ x, FindInv C L x f → FindInv C L x f') :
    TInv n C R B sr L p l (.find f' c) := by
  cases c with
  | mergeI j k => obtain ⟨i, h1, h2, h3⟩ := h; exact ⟨i, h1, hf i h2, h3⟩
  | mergeJ v k => obtain ⟨i, j, h1, h2, h3, h4⟩ := h; exact ⟨i, j, h1, h2, hf j h3, h4⟩
  | into b k => obtain ⟨j, h1, h2, h3⟩ := h; exact ⟨j, h1, hf j h2, h3⟩
  | sameI j k => obtain ⟨i, h1, h2, h3⟩ := h; exact ⟨i, h1, hf i h2, h3⟩
  | sameJ r k => obtain ⟨i, j, h1, h2, h3, h4⟩ := h; exact ⟨i, j, h1, h2, hf j h3, h4⟩

/-- Some argument of `representative` satisfies its invariant. -/
lemma TInv.arg {L : ℕ → ℕ} {p : Prog} {l : List Ev} {sr : Bool} {f : Find} {c : Cont}
    (h : TInv n C R B sr L p l (.find f c)) : ∃ x, FindInv C L x f := by
  cases c with
  | mergeI j k => obtain ⟨i, h1, h2, h3⟩ := h; exact ⟨i, h2⟩
  | mergeJ v k => obtain ⟨i, j, h1, h2, h3, h4⟩ := h; exact ⟨j, h3⟩
  | into b k => obtain ⟨j, h1, h2, h3⟩ := h; exact ⟨j, h2⟩
  | sameI j k => obtain ⟨i, h1, h2, h3⟩ := h; exact ⟨i, h2⟩
  | sameJ r k => obtain ⟨i, j, h1, h2, h3, h4⟩ := h; exact ⟨j, h3⟩

/-- A thread that makes progress without changing the roots of other vertices in the serial
case: growth of its own invariant. -/
lemma TInv.growFind {L L' : ℕ → ℕ} (g : Grow C L L') {p : Prog} {l : List Ev} {sr : Bool} {f : Find}
    {c : Cont} (h : TInv n C R B sr L p l (.find f c)) (hs : ∀ v, L v = v → L' v = v) :
    TInv n C R B sr L' p l (.find f c) := by
  cases c with
  | mergeI j k => obtain ⟨i, h1, h2, h3⟩ := h; exact ⟨i, h1, h2.grow g, h3⟩
  | mergeJ v k =>
    obtain ⟨i, j, h1, h2, h3, h4, h5, h6⟩ := h
    exact ⟨i, j, h1, h2.grow g, h3.grow g, h4, h5, fun e => hs v (h6 e)⟩
  | into b k => obtain ⟨j, h1, h2, h3⟩ := h; exact ⟨j, h1, h2.grow g, h3⟩
  | sameI j k => obtain ⟨i, h1, h2, h3⟩ := h; exact ⟨i, h1, h2.grow g, h3⟩
  | sameJ r k => obtain ⟨i, j, h1, h2, h3, h4⟩ := h; exact ⟨i, j, h1, h2.grow g, h3.grow g, h4⟩

/-- Everything known about one thread. -/
def Full (n : ℕ) (C : ℕ → Prop) (R B : ℕ → ℕ → Prop) (sr : Bool) (L : ℕ → ℕ) (p : Prog) (x : TS) :
    Prop :=
  ∃ l, TInv n C R B sr L p l x ∧ (∀ e ∈ l, EvC C e) ∧ (∀ e ∈ l, Fact C L e)

lemma Full.grow {L L' : ℕ → ℕ} (g : Grow C L L') {p : Prog} {x : TS} {sr : Bool}
    (h : Full n C R B sr L p x) (hs : sr = true → L' = L) : Full n C R B sr L' p x := by
  obtain ⟨l, h1, h2, h3⟩ := h
  exact ⟨l, h1.grow g hs, h2, fun e he => (h3 e he).grow g (h2 e he)⟩

/-- A step of a thread keeps the invariants and lets the labels grow. -/
lemma act_inv (S : Spec n C R) {sr : Bool} {L : ℕ → ℕ} (h : LInv C R B L) {p : Prog} {x : TS}
    (hx : Full n C R B sr L p x) :
    LInv C R B (act sr L x).1 ∧ Grow C L (act sr L x).1 ∧
      Full n C R B sr (act sr L x).1 p (act sr L x).2 := by
  obtain ⟨l, hT, hE, hF⟩ := hx
  cases x with
  | fault => exact hT.elim
  | idle q =>
    refine ⟨h, Grow.refl _ _, l, ?_, hE, hF⟩
    obtain ⟨h1, h2⟩ := hT
    cases q with
    | ret => exact ⟨h1, h2⟩
    | merge i j k => exact ⟨i, h1, ⟨h2.1, rfl⟩, h2.2.1, h2.2.2.1, h2.2.2.2⟩
    | into b j k => exact ⟨j, h1, ⟨h2.2.2.1, rfl⟩, h2.1, h2.2.1, h2.2.2.2.1, h2.2.2.2.2⟩
    | same i j k => exact ⟨i, h1, ⟨h2.1, rfl⟩, h2.2.1, h2.2.2.1, h2.2.2.2⟩
  | find f c =>
    cases f with
    | start y =>
      unfold act
      dsimp only
      by_cases hy : L y = y
      · rw [if_pos hy]
        refine ⟨h, Grow.refl _ _, ?_⟩
        refine hT.ret ?_ (Or.inl (by rw [hy]; exact hy)) hE hF
        rintro z ⟨hz, rfl⟩
        exact Eqr.label h hz
      · rw [if_neg hy]
        refine ⟨h, Grow.refl _ _, l, hT.move ?_, hE, hF⟩
        rintro z ⟨hz, rfl⟩
        exact ⟨⟨hz, hz, rfl⟩, Eqr.label h hz, hy, lt_of_le_of_ne (h.dec y hz).2 hy⟩
    | read prev curr =>
      unfold act
      dsimp only
      by_cases hc : curr > L curr
      · rw [if_pos hc]
        refine ⟨h, Grow.refl _ _, l, hT.move ?_, hE, hF⟩
        rintro z ⟨h1, h2, h3, h4⟩
        exact ⟨h1, h2, h2.trans (Eqr.label h h2.2.1), h3, by omega, hc, h4⟩
      · rw [if_neg hc]
        refine ⟨h, Grow.refl _ _, ?_⟩
        refine hT.ret ?_ ?_ hE hF
        · rintro z ⟨h1, h2, h3, h4⟩
          exact h2
        · obtain ⟨z, h1, h2, h3, h4⟩ := hT.arg
          have := (h.dec curr h2.2.1).2
          exact Or.inl (by omega)
    | write prev curr nxt =>
      obtain ⟨z, h1, h2, h3, h4, h5, h6, h7⟩ := hT.arg
      have hroot : root L nxt = root L prev := by rw [← h3.2.2, h1.2.2]
      have g : Grow C L (update L prev nxt) :=
        Grow.halve h h1.2.1 h3.2.1 (by omega) hroot h4
      refine ⟨LInv.halve S h h1.2.1 h3.2.1 (by omega) hroot h4, g, l, ?_, hE,
        fun e he => (hF e he).grow g (hE e he)⟩
      have hT' := hT.growFind g (fun v hv => by
        by_cases e : v = prev
        · subst e; exact absurd hv h4
        · rwa [Function.update_of_ne e])
      refine hT'.move ?_
      rintro w ⟨k1, k2, k3, k4, k5, k6, k7⟩
      exact ⟨k2, k3, k5, k6⟩
  | store b r k =>
    obtain ⟨j, h1, h2, h3, h4, h5, h6⟩ := hT
    have g : Grow C L (update L b r) := Grow.store h h4 h2.2.1
    refine ⟨LInv.store h h4 h2.2.1 h2.1 h5 (h2.rel S h), g, l ++ [.into b j], ⟨Path.into h1, h6⟩, ?_, ?_⟩
    · intro e he
      rcases List.mem_append.mp he with he | he
      · exact hE e he
      · rw [List.mem_singleton] at he
        subst he
        rintro a c (e | ⟨q, e⟩) <;> cases e
    · intro e he
      rcases List.mem_append.mp he with he | he
      · exact (hF e he).grow g (hE e he)
      · rw [List.mem_singleton] at he
        subst he
        change C (update L b r b)
        rw [Function.update_self]
        exact h2.2.1
  | cas v o k =>
    obtain ⟨i, j, h1, h2, h3, h4, h5, h6⟩ := hT
    -- completion of the operation
    have hfin : ∀ L', Grow C L L' → root L' i = root L' j → Full n C R B sr L' p (.idle k) := by
      intro L' g e
      refine ⟨l ++ [.merge i j], ⟨Path.merge h1, h5⟩, ?_, ?_⟩
      · intro e he
        rcases List.mem_append.mp he with he | he
        · exact hE e he
        · rw [List.mem_singleton] at he
          subst he
          rintro a c (e | ⟨q, e⟩)
          · cases e; exact ⟨h2.1, h3.1⟩
          · cases e
      · intro e' he
        rcases List.mem_append.mp he with he | he
        · exact (hF e' he).grow g (hE e' he)
        · rw [List.mem_singleton] at he
          subst he
          exact e
    have hRvo : R v o := S.equiv.trans (S.equiv.symm (h2.rel S h)) (S.equiv.trans h4 (h3.rel S h))
    unfold act
    dsimp only
    by_cases hs : sr = true
    · rw [if_pos hs]
      obtain ⟨hv, ho⟩ := h6 hs
      by_cases hvo : v < o
      · rw [if_pos hvo]
        have g := Grow.link h h3.2.1 h2.2.1 hvo ho
        refine ⟨LInv.link h h3.2.1 h2.2.1 hvo ho (S.equiv.symm hRvo), g, hfin _ g ?_⟩
        have hr := (root_link h.dec h3.2.1 h2.2.1 hvo ho).2
        rw [hr i h2.1, hr j h3.1, h2.2.2, h3.2.2, root_of_fix ho, root_of_fix hv]
        simp
      · rw [if_neg hvo]
        by_cases he : v = o
        · have hL : update L v o = L := by rw [← he]; exact Function.update_eq_self_iff.mpr hv.symm
          rw [hL]
          refine ⟨h, Grow.refl _ _, hfin _ (Grow.refl _ _) ?_⟩
          rw [h2.2.2, h3.2.2, he]
        · have hov : o < v := by omega
          have g := Grow.link h h2.2.1 h3.2.1 hov hv
          refine ⟨LInv.link h h2.2.1 h3.2.1 hov hv hRvo, g, hfin _ g ?_⟩
          have hr := (root_link h.dec h2.2.1 h3.2.1 hov hv).2
          rw [hr i h2.1, hr j h3.1, h2.2.2, h3.2.2, root_of_fix ho, root_of_fix hv]
          simp
    · rw [if_neg hs]
      by_cases he : v = o
      · rw [if_pos he]
        refine ⟨h, Grow.refl _ _, hfin _ (Grow.refl _ _) ?_⟩
        rw [h2.2.2, h3.2.2, he]
      · rw [if_neg he]
        by_cases hvo : v < o
        · rw [if_pos hvo]
          dsimp only
          by_cases ho : L o = o
          · rw [if_pos ho]
            have g := Grow.link h h3.2.1 h2.2.1 hvo ho
            refine ⟨LInv.link h h3.2.1 h2.2.1 hvo ho (S.equiv.symm hRvo), g, l, ?_, hE,
              fun e he => (hF e he).grow g (hE e he)⟩
            refine ⟨i, j, h1, h2.grow g, ?_, h4, h5, fun e => absurd e hs⟩
            rw [ho]; exact h3.grow g
          · rw [if_neg ho]
            exact ⟨h, Grow.refl _ _, l, ⟨i, j, h1, h2, h3.trans (Eqr.label h h3.2.1), h4, h5,
              fun e => absurd e hs⟩, hE, hF⟩
        · rw [if_neg hvo]
          dsimp only
          have hov : o < v := by omega
          by_cases hv : L v = v
          · rw [if_pos hv]
            have g := Grow.link h h2.2.1 h3.2.1 hov hv
            refine ⟨LInv.link h h2.2.1 h3.2.1 hov hv hRvo, g, l, ?_, hE,
              fun e he => (hF e he).grow g (hE e he)⟩
            refine ⟨i, j, h1, ?_, h3.grow g, h4, h5, fun e => absurd e hs⟩
            rw [hv]; exact h2.grow g
          · rw [if_neg hv]
            exact ⟨h, Grow.refl _ _, l, ⟨i, j, h1, h2.trans (Eqr.label h h2.2.1), h3, h4, h5,
              fun e => absurd e hs⟩, hE, hF⟩

/-- All accesses are in bounds. -/
lemma accessed_lt (S : Spec n C R) {sr : Bool} {L : ℕ → ℕ} {p : Prog} {x : TS}
    (hx : Full n C R B sr L p x) : ∀ y ∈ accessed x, y < n := by
  obtain ⟨l, hT, -, -⟩ := hx
  intro y hy
  cases x with
  | fault => exact hT.elim
  | idle q => simp [accessed] at hy
  | find f c =>
    obtain ⟨z, hz⟩ := hT.arg
    cases f with
    | start w =>
      simp only [accessed, List.mem_singleton] at hy
      obtain ⟨h1, h2⟩ := hz
      rw [hy, h2]; exact S.lt _ h1
    | read a b =>
      simp only [accessed, List.mem_singleton] at hy
      rw [hy]; exact S.lt _ hz.2.1.2.1
    | write a b c =>
      simp only [accessed, List.mem_singleton] at hy
      rw [hy]; exact S.lt _ hz.1.2.1
  | cas v o k =>
    obtain ⟨i, j, h1, h2, h3, -⟩ := hT
    simp only [accessed, List.mem_singleton] at hy
    have := S.lt _ h2.2.1
    have := S.lt _ h3.2.1
    omega
  | store b r k =>
    obtain ⟨j, h1, h2, h3, -⟩ := hT
    simp only [accessed, List.mem_singleton] at hy
    omega

/-- Invariant of the whole system. -/
structure Inv (P : Params) (C : ℕ → Prop) (R B : ℕ → ℕ → Prop) (prog : ℕ → Prog) (s : State) : Prop where
  labels : LInv C R B s.L
  threads : ∀ t < P.nt, Full P.n C R B P.serial s.L (prog t) (s.thr t)

lemma step_eq {P : Params} {s : State} {t : ℕ} (ht : t < P.nt)
    (ha : ∀ y ∈ accessed (s.thr t), y < P.n) :
    step P s t = ⟨(act P.serial s.L (s.thr t)).1, update s.thr t (act P.serial s.L (s.thr t)).2⟩ := by
  unfold step
  rw [if_neg (by omega), if_neg]
  intro h
  rw [List.any_eq_true] at h
  obtain ⟨y, hy, hy'⟩ := h
  have := ha y hy
  simp only [decide_eq_true_eq] at hy'
  omega

lemma Inv.step {P : Params} {prog : ℕ → Prog} (S : Spec P.n C R) (hser : P.serial = true → P.nt ≤ 1)
    {s : State} (h : Inv P C R B prog s) (t : ℕ) :
    Inv P C R B prog (step P s t) ∧ Grow C s.L (step P s t).L := by
  by_cases ht : t < P.nt
  · rw [step_eq ht (accessed_lt S (h.threads t ht))]
    obtain ⟨h1, h2, h3⟩ := act_inv S h.labels (h.threads t ht)
    refine ⟨⟨h1, ?_⟩, h2⟩
    intro u hu
    dsimp only
    by_cases e : u = t
    · subst e; rw [Function.update_self]; exact h3
    · rw [Function.update_of_ne e]
      exact (h.threads u hu).grow h2 (fun hs => by have := hser hs; omega)
  · have : UF.step P s t = s := by unfold UF.step; rw [if_pos (by omega)]
    rw [this]
    exact ⟨h, Grow.refl _ _⟩

lemma Inv.run {P : Params} {prog : ℕ → Prog} (S : Spec P.n C R) (hser : P.serial = true → P.nt ≤ 1)
    {L0 : ℕ → ℕ} (hL : LInv C R B L0) (hsafe : ∀ t < P.nt, Safe P.n C R B (prog t)) (sched : List ℕ) :
    Inv P C R B prog (run P prog L0 sched) := by
  unfold UF.run
  have h0 : Inv P C R B prog ⟨L0, fun t => .idle (prog t)⟩ :=
    ⟨hL, fun t ht => ⟨[], ⟨Path.nil, hsafe t ht⟩, by simp, by simp⟩⟩
  generalize (⟨L0, fun t => .idle (prog t)⟩ : State) = s at h0
  induction sched generalizing s with
  | nil => exact h0
  | cons t ts ih => exact ih _ (h0.step S hser t).1

end ArborX.UF
