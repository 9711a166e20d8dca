import Verif.UnionFind.WeakModel
import Verif.UnionFind.Theorems

/-!
# Invariant of union-find on a machine with weak memory
-/

namespace ArborX.UF

open Function (update)

variable {n : ℕ} {C : ℕ → Prop} {R B : ℕ → ℕ → Prop}

/-- What is known of a value that `x` has held. -/
def Seen (C : ℕ → Prop) (L : ℕ → ℕ) (x h : ℕ) : Prop := Eqr C L x h ∧ h ≤ x ∧ (h ≠ x → L x ≠ x)

lemma Seen.grow {L L' : ℕ → ℕ} (g : Grow C L L') {x h : ℕ} (s : Seen C L x h) : Seen C L' x h :=
  ⟨s.1.grow g, s.2.1, fun e => g.nonroot x s.1.1 (s.2.2 e)⟩

/-- Invariant of the labels and their histories. -/
structure MInv (C : ℕ → Prop) (R B : ℕ → ℕ → Prop) (m : Labels) : Prop where
  labels : LInv C R B m.L
  seen : ∀ x, C x → ∀ h ∈ m.hist x, Seen C m.L x h
  out : ∀ b, ¬ C b → 1 < (m.hist b).length → C (m.L b)

lemma MInv.load {m : Labels} (h : MInv C R B m) {x : ℕ} (hx : C x) (c : Option ℕ) :
    Seen C m.L x (m.load x c) := by
  have h0 : Seen C m.L x (m.L x) := ⟨Eqr.label h.labels hx, (h.labels.dec x hx).2, fun e => e⟩
  unfold Labels.load
  cases c with
  | none => exact h0
  | some k =>
    dsimp only [Option.bind]
    cases e : (m.hist x)[k]? with
    | none => exact h0
    | some v => exact h.seen x hx v (List.mem_of_getElem? e)

lemma seen_update {m : Labels} {L' : ℕ → ℕ} (h : MInv C R B m) (g : Grow C m.L L') {p q : ℕ}
    (hq : C p → Seen C L' p q) :
    ∀ x, C x → ∀ a ∈ update m.hist p (q :: m.hist p) x, Seen C L' x a := by
  intro x hx a ha
  by_cases e : x = p
  · subst e
    rw [Function.update_self] at ha
    rcases List.mem_cons.mp ha with rfl | ha
    · exact hq hx
    · exact (h.seen x hx a ha).grow g
  · rw [Function.update_of_ne e] at ha
    exact (h.seen x hx a ha).grow g

/-- The write of path halving. -/
lemma MInv.halve (S : Spec n C R) {m : Labels} (h : MInv C R B m) {p q : ℕ} (hp : C p) (hq : C q)
    (hqp : q < p) (hroot : root m.L q = root m.L p) (hnr : m.L p ≠ p) (last : Bool) :
    MInv C R B (m.store p q last) ∧ Grow C m.L (m.store p q last).L := by
  have g1 := Grow.halve h.labels hp hq hqp hroot hnr
  have g : Grow C m.L (m.store p q last).L := by
    unfold Labels.store
    dsimp only
    split_ifs
    · exact g1
    · exact Grow.refl _ _
  refine ⟨⟨?_, ?_, ?_⟩, g⟩
  · unfold Labels.store
    dsimp only
    split_ifs
    · exact LInv.halve S h.labels hp hq hqp hroot hnr
    · exact h.labels
  · refine seen_update h g (fun _ => ?_)
    exact ⟨⟨hp, hq, g.eqr p q hp hq hroot.symm⟩, hqp.le, fun _ => g.nonroot p hp hnr⟩
  · intro b hb hl
    have e : b ≠ p := fun e => hb (e ▸ hp)
    replace hl : 1 < (update m.hist p (q :: m.hist p) b).length := hl
    rw [Function.update_of_ne e] at hl
    exact g.out b (h.out b hb hl)

/-- The exchange links a root. -/
lemma MInv.link {m : Labels} (h : MInv C R B m) {o v : ℕ} (ho : C o) (hv : C v)
    (hvo : v < o) (hroot : m.L o = o) (hR : R o v) :
    MInv C R B ⟨update m.L o v, update m.hist o (v :: m.hist o)⟩ ∧ Grow C m.L (update m.L o v) := by
  have g := Grow.link h.labels ho hv hvo hroot
  have hr := root_link h.labels.dec ho hv hvo hroot
  refine ⟨⟨LInv.link h.labels ho hv hvo hroot hR, ?_, ?_⟩, g⟩
  · refine seen_update h g (fun _ => ?_)
    refine ⟨⟨ho, hv, ?_⟩, hvo.le, fun _ => ?_⟩
    · rw [hr.2 o ho, hr.2 v hv, root_of_fix hroot, if_pos rfl]
      split_ifs <;> rfl
    · rw [Function.update_self]; omega
  · intro b hb hl
    have e : b ≠ o := fun e => hb (e ▸ ho)
    dsimp only at hl ⊢
    rw [Function.update_of_ne e] at hl ⊢
    exact h.out b hb hl

/-- The write of `merge_into`. -/
lemma MInv.store {m : Labels} (h : MInv C R B m) {b r j : ℕ} (hb : ¬ C b) (hr : C r) (hj : C j)
    (hB : B b j) (hR : R j r) (last : Bool) :
    MInv C R B (m.store b r last) ∧ Grow C m.L (m.store b r last).L ∧ C ((m.store b r last).L b) := by
  have g : Grow C m.L (m.store b r last).L := by
    unfold Labels.store
    dsimp only
    split_ifs
    · exact Grow.store h.labels hb hr
    · exact Grow.refl _ _
  have hC : C ((m.store b r last).L b) := by
    unfold Labels.store
    dsimp only
    split_ifs with hc
    · rw [Function.update_self]; exact hr
    · exact h.out b hb (by omega)
  refine ⟨⟨?_, ?_, ?_⟩, g, hC⟩
  · unfold Labels.store
    dsimp only
    split_ifs
    · exact LInv.store h.labels hb hr hj hB hR
    · exact h.labels
  · exact seen_update h g (fun hb' => absurd hb' hb)
  · intro x hx hl
    by_cases e : x = b
    · subst e; exact hC
    · replace hl : 1 < (update m.hist b (r :: m.hist b) x).length := hl
      rw [Function.update_of_ne e] at hl
      exact g.out x (h.out x hx hl)

/-- The exchange: the labels grow; what it returns is in the same tree, and smaller unless the exchange succeeds. -/
lemma MInv.cas {m : Labels} (h : MInv C R B m) {o v : ℕ} (ho : C o) (hv : C v)
    (hvo : v < o) (hR : R o v) (c : Option ℕ) :
    MInv C R B (m.cas o v c).1 ∧ Grow C m.L (m.cas o v c).1.L ∧ Eqr C (m.cas o v c).1.L o (m.cas o v c).2 ∧
      ((m.L o = o ∧ (m.cas o v c).1.L o ≠ o ∧ (m.cas o v c).2 = o) ∨
        (m.L o ≠ o ∧ (m.cas o v c).1 = m ∧ (m.cas o v c).2 < o)) := by
  unfold Labels.cas
  by_cases hroot : m.L o = o
  · rw [if_pos hroot]
    obtain ⟨h1, h2⟩ := h.link ho hv hvo hroot hR
    exact ⟨h1, h2, ⟨ho, ho, rfl⟩, Or.inl ⟨hroot, by dsimp only; rw [Function.update_self]; omega, rfl⟩⟩
  · rw [if_neg hroot]
    refine ⟨h, Grow.refl _ _, ?_, Or.inr ⟨hroot, rfl, ?_⟩⟩
    · dsimp only
      split_ifs
      · exact Eqr.label h.labels ho
      · exact (h.load ho c).1
    · dsimp only
      split_ifs with hl
      · exact lt_of_le_of_ne (h.labels.dec o ho).2 hroot
      · exact lt_of_le_of_ne (h.load ho c).2.1 hl

/-- A step of a thread keeps the invariants and lets the labels grow. -/
lemma actW_inv (S : Spec n C R) {m : Labels} (h : MInv C R B m) (ch : Choice)
    {p : Prog} {x : TS} (hx : Full n C R B false m.L p x) :
    MInv C R B (actW m ch x).1 ∧ Grow C m.L (actW m ch x).1.L ∧
      Full n C R B false (actW m ch x).1.L p (actW m ch x).2 := by
  obtain ⟨l, hT, hE, hF⟩ := hx
  cases x with
  | fault => exact hT.elim
  | idle q =>
    refine ⟨h, Grow.refl _ _, l, ?_, hE, hF⟩
    obtain ⟨h1, h2⟩ := hT
    cases q with
    | ret => exact ⟨h1, h2⟩
    | merge i j k => exact ⟨i, h1, ⟨h2.1, rfl⟩, h2.2.1, h2.2.2.1, h2.2.2.2⟩
    | into b j k => exact ⟨j, h1, ⟨h2.2.2.1, rfl⟩, h2.1, h2.2.1, h2.2.2.2.1, h2.2.2.2.2⟩
    | same i j k => exact ⟨i, h1, ⟨h2.1, rfl⟩, h2.2.1, h2.2.2.1, h2.2.2.2⟩
  | find f c =>
    cases f with
    | start y =>
      unfold actW
      dsimp only
      by_cases hy : m.load y ch.read = y
      · rw [if_pos hy]
        refine ⟨h, Grow.refl _ _, ?_⟩
        refine hT.ret ?_ (Or.inr rfl) hE hF
        rintro z ⟨hz, rfl⟩
        exact (h.load hz _).1
      · rw [if_neg hy]
        refine ⟨h, Grow.refl _ _, l, hT.move ?_, hE, hF⟩
        rintro z ⟨hz, rfl⟩
        have hs := h.load hz ch.read
        exact ⟨⟨hz, hz, rfl⟩, hs.1, hs.2.2 hy, lt_of_le_of_ne hs.2.1 hy⟩
    | read prev curr =>
      unfold actW
      dsimp only
      by_cases hc : curr > m.load curr ch.read
      · rw [if_pos hc]
        refine ⟨h, Grow.refl _ _, l, hT.move ?_, hE, hF⟩
        rintro z ⟨h1, h2, h3, h4⟩
        have hs := h.load h2.2.1 ch.read
        exact ⟨h1, h2, h2.trans hs.1, h3, hs.2.2 (by omega), hc, h4⟩
      · rw [if_neg hc]
        refine ⟨h, Grow.refl _ _, ?_⟩
        refine hT.ret ?_ (Or.inr rfl) hE hF
        rintro z ⟨h1, h2, h3, h4⟩
        exact h2
    | write prev curr nxt =>
      obtain ⟨z, h1, h2, h3, h4, h5, h6, h7⟩ := hT.arg
      have hroot : root m.L nxt = root m.L prev := by rw [← h3.2.2, h1.2.2]
      obtain ⟨hm, g⟩ := h.halve S h1.2.1 h3.2.1 (by omega) hroot h4 ch.last
      refine ⟨hm, g, l, ?_, hE, fun e he => (hF e he).grow g (hE e he)⟩
      refine (hT.grow g (by simp)).move ?_
      rintro w ⟨k1, k2, k3, k4, k5, k6, k7⟩
      exact ⟨k2, k3, k5, k6⟩
  | store b r k =>
    obtain ⟨j, h1, h2, h3, h4, h5, h6⟩ := hT
    obtain ⟨hm, g, hC⟩ := h.store h4 h2.2.1 h2.1 h5 (h2.rel S h.labels) ch.last
    refine ⟨hm, g, l ++ [.into b j], ⟨Path.into h1, h6⟩, ?_, ?_⟩
    · intro e he
      rcases List.mem_append.mp he with he | he
      · exact hE e he
      · rw [List.mem_singleton] at he
        subst he
        rintro a c (e | ⟨q, e⟩) <;> cases e
    · intro e he
      rcases List.mem_append.mp he with he | he
      · exact (hF e he).grow g (hE e he)
      · rw [List.mem_singleton] at he
        subst he
        exact hC
  | cas v o k =>
    obtain ⟨i, j, h1, h2, h3, h4, h5, -⟩ := hT
    have hRvo : R v o := S.equiv.trans (S.equiv.symm (h2.rel S h.labels)) (S.equiv.trans h4 (h3.rel S h.labels))
    unfold actW
    dsimp only
    by_cases he : v = o
    · rw [if_pos he]
      refine ⟨h, Grow.refl _ _, l ++ [.merge i j], ⟨Path.merge h1, h5⟩, ?_, ?_⟩
      · intro e he
        rcases List.mem_append.mp he with he | he
        · exact hE e he
        · rw [List.mem_singleton] at he
          subst he
          rintro a c (e | ⟨q, e⟩)
          · cases e; exact ⟨h2.1, h3.1⟩
          · cases e
      · intro e' he'
        rcases List.mem_append.mp he' with he' | he'
        · exact hF e' he'
        · rw [List.mem_singleton] at he'
          subst he'
          show root m.L i = root m.L j
          rw [h2.2.2, h3.2.2, he]
    · rw [if_neg he]
      by_cases hvo : v < o
      · rw [if_pos hvo]
        obtain ⟨hm, g, hq, -⟩ := h.cas h3.2.1 h2.2.1 hvo (S.equiv.symm hRvo) ch.read
        exact ⟨hm, g, l, ⟨i, j, h1, h2.grow g, (h3.grow g).trans hq, h4, h5, by simp⟩, hE,
          fun e he => (hF e he).grow g (hE e he)⟩
      · rw [if_neg hvo]
        obtain ⟨hm, g, hq, -⟩ := h.cas h2.2.1 h3.2.1 (by omega) hRvo ch.read
        exact ⟨hm, g, l, ⟨i, j, h1, (h2.grow g).trans hq, h3.grow g, h4, h5, by simp⟩, hE,
          fun e he => (hF e he).grow g (hE e he)⟩

/-- Every own step of an unfinished thread decreases its rank. -/
lemma rank_actW (S : Spec n C R) {m : Labels} (h : MInv C R B m) (ch : Choice)
    {p : Prog} {x : TS} (hx : Full n C R B false m.L p x) (hne : x ≠ .idle .ret) :
    rank n (actW m ch x).1.L (actW m ch x).2 < rank n m.L x := by
  cases x with
  | fault => obtain ⟨l, hT, -, -⟩ := hx; exact hT.elim
  | idle q => exact rank_act S h.labels hx hne
  | store b r k => simp only [actW, rank]; omega
  | find f c =>
    obtain ⟨l, hT, -, -⟩ := hx
    have hret : ∀ r, r < n → rank n m.L (ret r c) ≤ contRank n c := by
      intro r hr
      refine ret_rank hr ?_ ?_ ?_
      · rintro v k rfl
        obtain ⟨i, j, -, h2, -⟩ := hT
        exact S.lt _ h2.2.1
      · rintro j k rfl
        obtain ⟨i, -, -, h3, -⟩ := hT
        exact S.lt _ h3
      · rintro j k rfl
        obtain ⟨i, -, -, h3, -⟩ := hT
        exact S.lt _ h3
    obtain ⟨z, hz⟩ := hT.arg
    cases f with
    | start y =>
      obtain ⟨hz1, rfl⟩ := hz
      have hy := h.load hz1 ch.read
      unfold actW
      dsimp only
      split_ifs with he
      · have := hret (m.load y ch.read) (S.lt _ hy.1.2.1)
        dsimp only
        simp only [rank, findRank] at *
        omega
      · have := hy.2.1
        simp only [rank, findRank]
        omega
    | read a b =>
      have hb := hz.2.1.2.1
      unfold actW
      dsimp only
      split_ifs with he
      · simp only [rank, findRank]
        omega
      · have := hret b (S.lt _ hb)
        dsimp only
        simp only [rank, findRank] at *
        omega
    | write a b d =>
      simp only [actW, rank, findRank]
      omega
  | cas v o k =>
    obtain ⟨l, hT, -, -⟩ := hx
    obtain ⟨i, j, h1, h2, h3, h4, -⟩ := hT
    have hRvo : R v o := S.equiv.trans (S.equiv.symm (h2.rel S h.labels)) (S.equiv.trans h4 (h3.rel S h.labels))
    unfold actW
    dsimp only
    by_cases he : v = o
    · rw [if_pos he]; simp only [rank]; omega
    · rw [if_neg he]
      by_cases hvo : v < o
      · rw [if_pos hvo]
        obtain ⟨-, -, -, hq⟩ := h.cas h3.2.1 h2.2.1 hvo (S.equiv.symm hRvo) ch.read
        rcases hq with ⟨a1, a2, a3⟩ | ⟨a1, a2, a3⟩
        · simp only [rank, a3, max_eq_right hvo.le, if_pos a1, if_neg a2]; omega
        · simp only [rank, max_eq_right hvo.le, if_neg a1]
          split_ifs <;> omega
      · rw [if_neg hvo]
        have hov : o < v := by omega
        obtain ⟨-, -, -, hq⟩ := h.cas h2.2.1 h3.2.1 hov hRvo ch.read
        rcases hq with ⟨a1, a2, a3⟩ | ⟨a1, a2, a3⟩
        · simp only [rank, a3, max_eq_left hov.le, if_pos a1, if_neg a2]; omega
        · simp only [rank, max_eq_left hov.le, if_neg a1]
          split_ifs <;> omega

/-- Invariant of the whole system. -/
structure WInv (n nt : ℕ) (C : ℕ → Prop) (R B : ℕ → ℕ → Prop) (prog : ℕ → Prog) (s : WState) : Prop where
  mem : MInv C R B s.mem
  threads : ∀ t < nt, Full n C R B false s.mem.L (prog t) (s.thr t)

lemma stepW_eq {nt : ℕ} {s : WState} {e : ℕ × Choice} (ht : e.1 < nt)
    (ha : ∀ y ∈ accessed (s.thr e.1), y < n) :
    stepW n nt s e = ⟨(actW s.mem e.2 (s.thr e.1)).1, update s.thr e.1 (actW s.mem e.2 (s.thr e.1)).2⟩ := by
  unfold stepW
  rw [if_neg (by omega), if_neg]
  intro h
  rw [List.any_eq_true] at h
  obtain ⟨y, hy, hy'⟩ := h
  have := ha y hy
  simp only [decide_eq_true_eq] at hy'
  omega

lemma WInv.step {nt : ℕ} {prog : ℕ → Prog} (S : Spec n C R) {s : WState} (h : WInv n nt C R B prog s)
    (e : ℕ × Choice) : WInv n nt C R B prog (stepW n nt s e) ∧ Grow C s.mem.L (stepW n nt s e).mem.L := by
  by_cases ht : e.1 < nt
  · rw [stepW_eq ht (accessed_lt S (h.threads e.1 ht))]
    obtain ⟨h1, h2, h3⟩ := actW_inv S h.mem e.2 (h.threads e.1 ht)
    refine ⟨⟨h1, ?_⟩, h2⟩
    intro u hu
    dsimp only
    by_cases e' : u = e.1
    · subst e'; rw [Function.update_self]; exact h3
    · rw [Function.update_of_ne e']
      exact (h.threads u hu).grow h2 (by simp)
  · have : stepW n nt s e = s := by unfold stepW; rw [if_pos (by omega)]
    rw [this]
    exact ⟨h, Grow.refl _ _⟩

lemma WInv.init {nt : ℕ} {prog : ℕ → Prog} {L0 : ℕ → ℕ} (hL : LInv C R B L0)
    (hsafe : ∀ t < nt, Safe n C R B (prog t)) :
    WInv n nt C R B prog ⟨⟨L0, fun x => [L0 x]⟩, fun t => .idle (prog t)⟩ := by
  refine ⟨⟨hL, ?_, ?_⟩, fun t ht => ⟨[], ⟨Path.nil, hsafe t ht⟩, by simp, by simp⟩⟩
  · intro x hx h hm
    rw [List.mem_singleton] at hm
    subst hm
    exact ⟨Eqr.label hL hx, (hL.dec x hx).2, fun e => e⟩
  · intro b _ h
    simp at h

lemma WInv.run {nt : ℕ} {prog : ℕ → Prog} (S : Spec n C R) {L0 : ℕ → ℕ} (hL : LInv C R B L0)
    (hsafe : ∀ t < nt, Safe n C R B (prog t)) (sched : List (ℕ × Choice)) :
    WInv n nt C R B prog (runW n nt prog L0 sched) := by
  unfold UF.runW
  have h0 := WInv.init (n := n) (nt := nt) (prog := prog) hL hsafe
  generalize (⟨⟨L0, fun x => [L0 x]⟩, fun t => .idle (prog t)⟩ : WState) = s at h0
  induction sched generalizing s with
  | nil => exact h0
  | cons e es ih => exact ih _ (h0.step S e).1

lemma rank_stepW {nt : ℕ} {prog : ℕ → Prog} (S : Spec n C R) {s : WState} (h : WInv n nt C R B prog s)
    (e : ℕ × Choice) (u : ℕ) (hu : u < nt) :
    rank n (stepW n nt s e).mem.L ((stepW n nt s e).thr u) + (if u = e.1 then 1 else 0) ≤
      rank n s.mem.L (s.thr u) ∨ ((s.thr u) = .idle .ret ∧ (stepW n nt s e).thr u = .idle .ret) := by
  by_cases ht : e.1 < nt
  · by_cases e' : u = e.1
    · subst e'
      by_cases hf : s.thr e.1 = .idle .ret
      · right
        refine ⟨hf, ?_⟩
        rw [stepW_eq ht (accessed_lt S (h.threads _ ht))]
        dsimp only
        rw [Function.update_self, hf]
        rfl
      · left
        have := rank_actW S h.mem e.2 (h.threads _ ht) hf
        rw [stepW_eq ht (accessed_lt S (h.threads _ ht))]
        dsimp only
        rw [Function.update_self, if_pos rfl]
        omega
    · left
      have := rank_grow (h.step S e).2 (h.threads u hu)
      rw [if_neg e']
      have hthr : (stepW n nt s e).thr u = s.thr u := by
        rw [stepW_eq ht (accessed_lt S (h.threads _ ht))]
        dsimp only
        rw [Function.update_of_ne e']
      rw [hthr]
      omega
  · left
    have hs : stepW n nt s e = s := by unfold stepW; rw [if_pos (by omega)]
    rw [hs, if_neg (by omega)]
    omega

/-- A thread that has taken `cost` steps has finished, whatever the others and the memory did. -/
lemma wait_freeW_aux {nt : ℕ} {prog : ℕ → Prog} (S : Spec n C R) {s : WState} (h : WInv n nt C R B prog s)
    (u : ℕ) (hu : u < nt) (sched : List (ℕ × Choice))
    (hn : rank n s.mem.L (s.thr u) < (sched.map Prod.fst).count u + 1) :
    (sched.foldl (stepW n nt) s).thr u = .idle .ret := by
  have hzero : ∀ s : WState, WInv n nt C R B prog s → rank n s.mem.L (s.thr u) = 0 → s.thr u = .idle .ret := by
    intro s h h0
    by_contra hne
    have := rank_actW S h.mem ⟨none, true⟩ (h.threads u hu) hne
    omega
  have hstay : ∀ (sched : List (ℕ × Choice)) (s : WState), WInv n nt C R B prog s → s.thr u = .idle .ret →
      (sched.foldl (stepW n nt) s).thr u = .idle .ret := by
    intro sched
    induction sched with
    | nil => intro s _ h0; exact h0
    | cons e es ih =>
      intro s h h0
      refine ih _ (h.step S e).1 ?_
      rcases rank_stepW S h e u hu with hr | hr
      · rw [h0] at hr
        have : rank n s.mem.L (.idle .ret) = 0 := rfl
        exact hzero _ (h.step S e).1 (by omega)
      · exact hr.2
  induction sched generalizing s with
  | nil =>
    simp only [List.map_nil, List.count_nil] at hn
    exact hzero s h (by omega)
  | cons e es ih =>
    rw [List.map_cons, List.count_cons] at hn
    rcases rank_stepW S h e u hu with hr | hr
    · refine ih (h.step S e).1 ?_
      by_cases e' : u = e.1
      · rw [if_pos e'] at hr
        rw [if_pos (by simpa using e'.symm)] at hn
        omega
      · rw [if_neg e'] at hr
        rw [if_neg (by simpa using Ne.symm e')] at hn
        omega
    · exact hstay es _ (h.step S e).1 hr.2

end ArborX.UF
