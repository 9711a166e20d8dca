import Verif.Labels.Shape

/-!
# Invariant of `reduceLabels` (lemmas)
-/

namespace ArborX.Labels

open Function (update)

/-- Specification. The common label of the leaves of a non-empty list, `-1` when they differ. -/
def common (lab : ℕ → ℤ) : List ℕ → ℤ
  | [] => -1
  | a :: as => if ∀ b ∈ as, lab b = lab a then lab a else -1

lemma common_eq_iff {lab : ℕ → ℤ} {l : List ℕ} (hl : 0 < l.length) {c : ℤ} (hc : c ≠ -1) :
    common lab l = c ↔ ∀ a ∈ l, lab a = c := by
  cases l with
  | nil => simp at hl
  | cons a as =>
    rw [common]
    split_ifs with h
    · constructor
      · intro e b hb
        rcases List.mem_cons.mp hb with rfl | hb
        · exact e
        · rw [h b hb, e]
      · intro e; exact e a List.mem_cons_self
    · constructor
      · intro e; exact absurd e.symm hc
      · intro e
        exact absurd (fun b hb => by rw [e b (List.mem_cons_of_mem _ hb), e a List.mem_cons_self]) h

lemma common_append {lab : ℕ → ℤ} {l m : List ℕ} (hl : 0 < l.length) (hm : 0 < m.length) :
    common lab (l ++ m) = if common lab l = common lab m then common lab l else -1 := by
  have hlm : 0 < (l ++ m).length := by rw [List.length_append]; omega
  by_cases h : common lab (l ++ m) = -1
  · rw [h]
    split_ifs with e
    · by_contra hc
      have hc : common lab l ≠ -1 := fun h => hc h.symm
      have a := (common_eq_iff hl hc).mp rfl
      have b := (common_eq_iff hm hc).mp e.symm
      have := (common_eq_iff (lab := lab) hlm hc).mpr (by
        intro x hx
        rcases List.mem_append.mp hx with hx | hx
        · exact a x hx
        · exact b x hx)
      rw [h] at this
      exact hc this.symm
    · rfl
  · have a := (common_eq_iff (lab := lab) hlm h).mp rfl
    have e1 := (common_eq_iff (lab := lab) hl h).mpr (fun x hx => a x (List.mem_append_left _ hx))
    have e2 := (common_eq_iff (lab := lab) hm h).mpr (fun x hx => a x (List.mem_append_right _ hx))
    rw [e1, e2, if_pos rfl]

lemma common_ne {lab : ℕ → ℤ} {l : List ℕ} (h : ∀ a ∈ l, lab a ≠ -2) : common lab l ≠ -2 := by
  cases l with
  | nil => simp [common]
  | cons a as =>
    rw [common]
    split_ifs
    · exact h a List.mem_cons_self
    · decide

section
variable {n : ℕ} {par : ℕ → Option ℕ} {L R : ℕ → ℕ} {leaves : ℕ → List ℕ} {lab0 : ℕ → ℤ}

/-- `x` and `y` are the two children of `p`. -/
def Kids (n : ℕ) (L R : ℕ → ℕ) (p x y : ℕ) : Prop :=
  n ≤ p ∧ p < 2 * n - 1 ∧ ((x = L p ∧ y = R p) ∨ (x = R p ∧ y = L p))

lemma Kids.symm {p x y} (h : Kids n L R p x y) : Kids n L R p y x :=
  ⟨h.1, h.2.1, h.2.2.symm.imp (fun h => ⟨h.2, h.1⟩) (fun h => ⟨h.2, h.1⟩)⟩

/-- Final label of a node. -/
def val (lab0 : ℕ → ℤ) (leaves : ℕ → List ℕ) (x : ℕ) : ℤ := common lab0 (leaves x)

lemma Shape.kids_facts (S : Shape n par L R leaves) {p x y} (h : Kids n L R p x y) :
    x ≠ y ∧ par x = some p ∧ x < 2 * n - 1 ∧ x ≠ n := by
  obtain ⟨h1, h2, h3⟩ := h
  obtain ⟨-, a2, a3, a4, a5, a6, a7, a8⟩ := S.node p h1 h2
  rcases h3 with ⟨rfl, rfl⟩ | ⟨rfl, rfl⟩
  · exact ⟨a2, a7, a3, a5⟩
  · exact ⟨a2.symm, a8, a4, a6⟩

lemma Shape.kids_val (S : Shape n par L R leaves) {p x y} (h : Kids n L R p x y) :
    val lab0 leaves p = if val lab0 leaves x = val lab0 leaves y then val lab0 leaves x else -1 := by
  obtain ⟨h1, h2, h3⟩ := h
  obtain ⟨a1, a2, a3, a4, -⟩ := S.node p h1 h2
  have e : val lab0 leaves p = if val lab0 leaves (L p) = val lab0 leaves (R p) then val lab0 leaves (L p) else -1 := by
    unfold val; rw [a1, common_append (S.len _ a3).1 (S.len _ a4).1]
  rcases h3 with ⟨rfl, rfl⟩ | ⟨rfl, rfl⟩
  · exact e
  · rw [e]
    split_ifs with c1 c2 c2
    · exact c1
    · exact absurd c1.symm c2
    · exact absurd c2.symm c1
    · rfl

lemma Shape.kids_unique (S : Shape n par L R leaves) {p p' x y y'} (h : Kids n L R p x y)
    (h' : Kids n L R p' x y') : p = p' ∧ y = y' := by
  have e := (S.kids_facts h).2.1
  rw [(S.kids_facts h').2.1] at e
  cases e
  refine ⟨rfl, ?_⟩
  have := (S.node p h.1 h.2.1).2.1
  rcases h.2.2 with ⟨a, b⟩ | ⟨a, b⟩ <;> rcases h'.2.2 with ⟨c, d⟩ | ⟨c, d⟩
  · rw [b, d]
  · exact absurd (a.symm.trans c) this
  · exact absurd (c.symm.trans a) this
  · rw [b, d]

lemma Shape.kids_of (S : Shape n par L R leaves) {x : ℕ} (hx : x < 2 * n - 1) (hne : x ≠ n) :
    ∃ p y, Kids n L R p x y := by
  obtain ⟨p, -, h1, h2, h3⟩ := S.up x hx hne
  rcases h3 with h3 | h3
  · exact ⟨p, R p, h1, h2, .inl ⟨h3, rfl⟩⟩
  · exact ⟨p, L p, h1, h2, .inr ⟨h3, rfl⟩⟩

lemma Shape.leaf_lt (S : Shape n par L R leaves) : ∀ (k x : ℕ), x < 2 * n - 1 → (leaves x).length ≤ k →
    ∀ i ∈ leaves x, i < n := by
  intro k
  induction k with
  | zero => intro x hx hk; have := (S.len x hx).1; omega
  | succ k ih =>
    intro x hx hk i hi
    by_cases hn : x < n
    · rw [S.leaf x hn, List.mem_singleton] at hi; omega
    · obtain ⟨a1, a2, a3, a4, -⟩ := S.node x (by omega) hx
      have l1 := (S.len _ a3).1
      have l2 := (S.len _ a4).1
      rw [a1, List.length_append] at hk
      rw [a1] at hi
      rcases List.mem_append.mp hi with hi | hi
      · exact ih _ a3 (by omega) i hi
      · exact ih _ a4 (by omega) i hi

/-- The node a thread works on. -/
def TS.at : TS → Option ℕ
  | .read i => some i
  | .cas i _ => some i
  | .mark p => some p
  | _ => none

/-- Both children of `x` (if it has any) have arrived. -/
def Ripe (n : ℕ) (L R : ℕ → ℕ) (arr : ℕ → Prop) (x : ℕ) : Prop := ∀ a b, Kids n L R x a b → arr a ∧ arr b

structure Inv (n : ℕ) (L R : ℕ → ℕ) (leaves : ℕ → List ℕ) (lab0 : ℕ → ℤ) (s : State) (arr : ℕ → Prop) :
    Prop where
  leafLab : ∀ i < n, s.lab i = lab0 i
  out : ∀ i, 2 * n - 1 ≤ i → s.lab i = lab0 i
  closed : ∀ x, arr x → Ripe n L R arr x
  none : ∀ p x y, Kids n L R p x y → ¬ arr x → ¬ arr y → s.lab p = -2
  one : ∀ p x y, Kids n L R p x y → arr x → ¬ arr y → s.lab p = val lab0 leaves x
  both : ∀ p x y, Kids n L R p x y → arr x → arr y → s.lab p = val lab0 leaves p ∨ ∃ t < n, s.thr t = .mark p
  ready : ∀ t < n, ∀ x, (s.thr t).at = some x → x < 2 * n - 1 ∧ ¬ arr x ∧ Ripe n L R arr x
  notRoot : ∀ t < n, ∀ x, (s.thr t).at = some x → s.thr t ≠ .mark x → x ≠ n
  cas : ∀ t < n, ∀ x l, s.thr t = .cas x l → l = val lab0 leaves x
  mark : ∀ t < n, ∀ p, s.thr t = .mark p → n ≤ p ∧ val lab0 leaves p = -1
  fault : ∀ t < n, s.thr t ≠ .fault
  uniq : ∀ t < n, ∀ t' < n, ∀ x, (s.thr t).at = some x → (s.thr t').at = some x → t = t'
  live : ∀ x < 2 * n - 1, x ≠ n → ¬ arr x → Ripe n L R arr x → ∃ t < n, (s.thr t).at = some x

lemma inv_init (S : Shape n par L R leaves) : Inv n L R leaves lab0 (init n lab0) (fun _ => False) where
  leafLab := fun i hi => by simp only [init]; rw [if_neg (by omega)]
  out := fun i hi => by simp only [init]; rw [if_neg (by omega)]
  closed := fun x h => h.elim
  none := fun p x y h _ _ => by simp only [init]; rw [if_pos ⟨h.1, h.2.1⟩]
  one := fun p x y _ h => h.elim
  both := fun p x y _ h => h.elim
  ready := fun t ht x hx => by
    simp only [init, TS.at, Option.some.injEq] at hx
    subst hx
    exact ⟨by have := S.two; omega, id, fun a b h => by have := h.1; omega⟩
  notRoot := fun t ht x hx _ => by
    simp only [init, TS.at, Option.some.injEq] at hx
    omega
  cas := fun t _ x l h => by simp [init] at h
  mark := fun t _ p h => by simp [init] at h
  fault := fun t _ => by simp [init]
  uniq := fun t _ t' _ x h h' => by
    simp only [init, TS.at, Option.some.injEq] at h h'
    omega
  live := fun x hx hne _ h => by
    by_cases hn : x < n
    · exact ⟨x, hn, rfl⟩
    · exact (h _ _ ⟨by omega, hx, .inl ⟨rfl, rfl⟩⟩).1.elim

lemma climb_at (p : ℕ) {x : ℕ} (h : (climb n p).at = some x) : x = p ∧ p ≠ n := by
  unfold climb at h
  split_ifs at h with hp
  · simp [TS.at] at h
  · simp only [TS.at, Option.some.injEq] at h
    exact ⟨h.symm, hp⟩

lemma climb_ne (p : ℕ) : (∀ q, climb n p ≠ .mark q) ∧ (∀ q l, climb n p ≠ .cas q l) ∧ climb n p ≠ .fault := by
  unfold climb
  split_ifs <;> simp

lemma climb_read {p j : ℕ} (h : climb n p = .read j) : j = p := by
  unfold climb at h
  split_ifs at h
  cases h
  rfl

/-- A node a thread is about to read is final. -/
lemma Inv.lab_val (S : Shape n par L R leaves) {s : State} {arr} (h : Inv n L R leaves lab0 s arr) {t i : ℕ}
    (ht : t < n) (hi : s.thr t = .read i) : s.lab i = val lab0 leaves i := by
  obtain ⟨r1, r2, r3⟩ := h.ready t ht i (by rw [hi]; rfl)
  by_cases hn : i < n
  · rw [h.leafLab i hn, val, S.leaf i hn]; simp [common]
  · have k : Kids n L R i (L i) (R i) := ⟨by omega, r1, .inl ⟨rfl, rfl⟩⟩
    rcases h.both _ _ _ k (r3 _ _ k).1 (r3 _ _ k).2 with e | ⟨u, hu, e⟩
    · exact e
    · exfalso
      have := h.uniq t ht u hu i (by rw [hi]; rfl) (by rw [e]; rfl)
      subst this
      rw [hi] at e
      cases e

lemma Inv.step_read (S : Shape n par L R leaves) {s : State} {arr} (h : Inv n L R leaves lab0 s arr) {t i : ℕ}
    (ht : t < n) (hi : s.thr t = .read i) :
    Inv n L R leaves lab0 { s with thr := update s.thr t (.cas i (s.lab i)) } arr := by
  have hat : ∀ u, (update s.thr t (.cas i (s.lab i)) u).at = (s.thr u).at := by
    intro u
    by_cases e : u = t
    · subst e; rw [Function.update_self, hi]; rfl
    · rw [Function.update_of_ne e]
  refine ⟨h.leafLab, h.out, h.closed, h.none, h.one, ?_, ?_, ?_, ?_, ?_, ?_, ?_, ?_⟩
  · intro p x y k a b
    refine (h.both p x y k a b).imp id ?_
    rintro ⟨u, hu, e⟩
    refine ⟨u, hu, ?_⟩
    dsimp only
    rw [Function.update_of_ne]
    · exact e
    · rintro rfl; rw [hi] at e; cases e
  · intro u hu x hx
    dsimp only at hx
    rw [hat] at hx
    exact h.ready u hu x hx
  · intro u hu x hx hm
    dsimp only at hx hm
    rw [hat] at hx
    by_cases e : u = t
    · subst e
      exact h.notRoot u hu x hx (by rw [hi]; simp)
    · rw [Function.update_of_ne e] at hm
      exact h.notRoot u hu x hx hm
  · intro u hu x l hx
    dsimp only at hx
    by_cases e : u = t
    · subst e
      rw [Function.update_self] at hx
      cases hx
      exact h.lab_val S ht hi
    · rw [Function.update_of_ne e] at hx
      exact h.cas u hu x l hx
  · intro u hu p hx
    dsimp only at hx
    by_cases e : u = t
    · subst e
      rw [Function.update_self] at hx
      cases hx
    · rw [Function.update_of_ne e] at hx
      exact h.mark u hu p hx
  · intro u hu hx
    dsimp only at hx
    by_cases e : u = t
    · subst e
      rw [Function.update_self] at hx
      cases hx
    · rw [Function.update_of_ne e] at hx
      exact h.fault u hu hx
  · intro u hu u' hu' x hx hx'
    dsimp only at hx hx'
    rw [hat] at hx hx'
    exact h.uniq u hu u' hu' x hx hx'
  · intro x hx hne ha hr
    obtain ⟨u, hu, e⟩ := h.live x hx hne ha hr
    exact ⟨u, hu, by dsimp only; rw [hat]; exact e⟩

/-- First arrival at `p`. -/
lemma Inv.step_first (S : Shape n par L R leaves) {s : State} {arr} (h : Inv n L R leaves lab0 s arr)
    {t i p y : ℕ} {l : ℤ} (ht : t < n) (hi : s.thr t = .cas i l) (k : Kids n L R p i y) (hy : ¬ arr y) :
    Inv n L R leaves lab0 { lab := update s.lab p l, thr := update s.thr t .done } (fun z => arr z ∨ z = i) := by
  obtain ⟨r1, r2, r3⟩ := h.ready t ht i (by rw [hi]; rfl)
  obtain ⟨f1, f2, f3, f4⟩ := S.kids_facts k
  have hl := h.cas t ht i l hi
  have hp := k.1
  have hp' := k.2.1
  have other : ∀ q x z, Kids n L R q x z → q ≠ p → x ≠ i := by
    rintro q x z hk hq rfl
    exact hq (S.kids_unique hk k).1
  have mono : ∀ x, Ripe n L R arr x → Ripe n L R (fun z => arr z ∨ z = i) x :=
    fun x hr a b hk => ⟨.inl (hr a b hk).1, .inl (hr a b hk).2⟩
  refine ⟨?_, ?_, ?_, ?_, ?_, ?_, ?_, ?_, ?_, ?_, ?_, ?_, ?_⟩ <;> try dsimp only
  · intro j hj; rw [Function.update_of_ne (by omega)]; exact h.leafLab j hj
  · intro j hj; rw [Function.update_of_ne (by omega)]; exact h.out j hj
  · rintro x (hx | rfl)
    · exact mono x (h.closed x hx)
    · exact mono x r3
  · intro q x z hk hx hz
    have hq : q ≠ p := by
      rintro rfl
      rcases hk.2.2 with ⟨a, b⟩ | ⟨a, b⟩ <;> rcases k.2.2 with ⟨c, d⟩ | ⟨c, d⟩
      · exact hx (.inr (a.trans c.symm))
      · exact hz (.inr (b.trans c.symm))
      · exact hz (.inr (b.trans c.symm))
      · exact hx (.inr (a.trans c.symm))
    rw [Function.update_of_ne hq]
    exact h.none q x z hk (fun a => hx (.inl a)) (fun a => hz (.inl a))
  · intro q x z hk hx hz
    by_cases hq : q = p
    · subst hq
      rw [Function.update_self, hl]
      rcases hx with hx | rfl
      · by_cases e : x = i
        · rw [e]
        · exfalso
          have : x = y := by
            rcases hk.2.2 with ⟨a, b⟩ | ⟨a, b⟩ <;> rcases k.2.2 with ⟨c, d⟩ | ⟨c, d⟩
            · exact absurd (a.trans c.symm) e
            · rw [a, d]
            · rw [a, d]
            · exact absurd (a.trans c.symm) e
          exact hy (this ▸ hx)
      · rfl
    · rw [Function.update_of_ne hq]
      exact h.one q x z hk (hx.resolve_right (other q x z hk hq)) (fun a => hz (.inl a))
  · intro q x z hk hx hz
    by_cases hq : q = p
    · exfalso
      subst hq
      by_cases e : x = i
      · subst e
        obtain ⟨-, rfl⟩ := S.kids_unique hk k
        rcases hz with hz | rfl
        · exact hy hz
        · exact f1 rfl
      · have e' := hx.resolve_right e
        by_cases e2 : z = i
        · subst e2
          obtain ⟨-, rfl⟩ := S.kids_unique hk.symm k
          exact hy e'
        · rcases hk.2.2 with ⟨a, b⟩ | ⟨a, b⟩ <;> rcases k.2.2 with ⟨c, d⟩ | ⟨c, d⟩
          · exact e (a.trans c.symm)
          · exact e2 (b.trans c.symm)
          · exact e2 (b.trans c.symm)
          · exact e (a.trans c.symm)
    · rw [Function.update_of_ne hq]
      refine (h.both q x z hk (hx.resolve_right (other q x z hk hq))
        (hz.resolve_right (other q z x hk.symm hq))).imp id ?_
      rintro ⟨u, hu, e⟩
      refine ⟨u, hu, ?_⟩
      rw [Function.update_of_ne]
      · exact e
      · rintro rfl; rw [hi] at e; cases e
  · intro u hu x hx
    by_cases e : u = t
    · subst e; rw [Function.update_self] at hx; cases hx
    · rw [Function.update_of_ne e] at hx
      obtain ⟨a, b, c⟩ := h.ready u hu x hx
      refine ⟨a, ?_, mono x c⟩
      rintro (h1 | rfl)
      · exact b h1
      · exact e (h.uniq u hu t ht x hx (by rw [hi]; rfl))
  · intro u hu x hx hm
    by_cases e : u = t
    · subst e; rw [Function.update_self] at hx; cases hx
    · rw [Function.update_of_ne e] at hx hm
      exact h.notRoot u hu x hx hm
  · intro u hu x l' hx
    by_cases e : u = t
    · subst e; rw [Function.update_self] at hx; cases hx
    · rw [Function.update_of_ne e] at hx
      exact h.cas u hu x l' hx
  · intro u hu q hx
    by_cases e : u = t
    · subst e; rw [Function.update_self] at hx; cases hx
    · rw [Function.update_of_ne e] at hx
      exact h.mark u hu q hx
  · intro u hu hx
    by_cases e : u = t
    · subst e; rw [Function.update_self] at hx; cases hx
    · rw [Function.update_of_ne e] at hx
      exact h.fault u hu hx
  · intro u hu u' hu' x hx hx'
    by_cases e : u = t
    · subst e; rw [Function.update_self] at hx; cases hx
    · by_cases e' : u' = t
      · subst e'; rw [Function.update_self] at hx'; cases hx'
      · rw [Function.update_of_ne e] at hx
        rw [Function.update_of_ne e'] at hx'
        exact h.uniq u hu u' hu' x hx hx'
  · intro x hx hne ha hr
    have hxp : x ≠ p := by
      rintro rfl
      rcases (hr i y k).2 with h1 | h1
      · exact hy h1
      · exact f1 h1.symm
    obtain ⟨u, hu, e⟩ := h.live x hx hne (fun a => ha (.inl a)) (fun a b hk =>
      ⟨(hr a b hk).1.resolve_right (other x a b hk hxp),
       (hr a b hk).2.resolve_right (other x b a hk.symm hxp)⟩)
    refine ⟨u, hu, ?_⟩
    rw [Function.update_of_ne]
    · exact e
    · rintro rfl
      rw [hi] at e
      simp only [TS.at, Option.some.injEq] at e
      exact ha (.inr e.symm)

/-- Second arrival at `p`. -/
lemma Inv.step_second (S : Shape n par L R leaves) {s : State} {arr} (h : Inv n L R leaves lab0 s arr)
    {t i p y : ℕ} {l : ℤ} {ts : TS} (ht : t < n) (hi : s.thr t = .cas i l) (k : Kids n L R p i y) (hy : arr y)
    (hts : (ts = .mark p ∧ val lab0 leaves p = -1) ∨ (ts = climb n p ∧ s.lab p = val lab0 leaves p)) :
    Inv n L R leaves lab0 { s with thr := update s.thr t ts } (fun z => arr z ∨ z = i) := by
  obtain ⟨r1, r2, r3⟩ := h.ready t ht i (by rw [hi]; rfl)
  obtain ⟨f1, f2, f3, f4⟩ := S.kids_facts k
  have hl := h.cas t ht i l hi
  have hp := k.1
  have hp' := k.2.1
  have hpi : p ≠ i := by
    rintro rfl
    exact r2 (r3 _ _ k).1
  have hnp : ¬ arr p := fun a => r2 (h.closed p a _ _ k).1
  have other : ∀ q x z, Kids n L R q x z → q ≠ p → x ≠ i := by
    rintro q x z hk hq rfl
    exact hq (S.kids_unique hk k).1
  have mono : ∀ x, Ripe n L R arr x → Ripe n L R (fun z => arr z ∨ z = i) x :=
    fun x hr a b hk => ⟨.inl (hr a b hk).1, .inl (hr a b hk).2⟩
  have hat : ∀ x, ts.at = some x → x = p := by
    intro x hx
    rcases hts with ⟨rfl, -⟩ | ⟨rfl, -⟩
    · simp only [TS.at, Option.some.injEq] at hx; exact hx.symm
    · exact (climb_at p hx).1
  have ripe : Ripe n L R (fun z => arr z ∨ z = i) p := by
    intro a b hk
    by_cases e : a = i
    · subst e
      obtain ⟨-, rfl⟩ := S.kids_unique hk k
      exact ⟨.inr rfl, .inl hy⟩
    · have : b = i := by
        rcases hk.2.2 with ⟨a', b'⟩ | ⟨a', b'⟩ <;> rcases k.2.2 with ⟨c, d⟩ | ⟨c, d⟩
        · exact absurd (a'.trans c.symm) e
        · exact (b'.trans c.symm)
        · exact (b'.trans c.symm)
        · exact absurd (a'.trans c.symm) e
      subst this
      obtain ⟨-, rfl⟩ := S.kids_unique hk.symm k
      exact ⟨.inl hy, .inr rfl⟩
  refine ⟨h.leafLab, h.out, ?_, ?_, ?_, ?_, ?_, ?_, ?_, ?_, ?_, ?_, ?_⟩ <;> try dsimp only
  · rintro x (hx | rfl)
    · exact mono x (h.closed x hx)
    · exact mono x r3
  · intro q x z hk hx hz
    exact h.none q x z hk (fun a => hx (.inl a)) (fun a => hz (.inl a))
  · intro q x z hk hx hz
    by_cases hq : q = p
    · subst hq
      exact absurd (ripe x z hk).2 hz
    · exact h.one q x z hk (hx.resolve_right (other q x z hk hq)) (fun a => hz (.inl a))
  · intro q x z hk hx hz
    by_cases hq : q = p
    · subst hq
      rcases hts with ⟨rfl, -⟩ | ⟨rfl, e⟩
      · exact .inr ⟨t, ht, by rw [Function.update_self]⟩
      · exact .inl e
    · refine (h.both q x z hk (hx.resolve_right (other q x z hk hq))
        (hz.resolve_right (other q z x hk.symm hq))).imp id ?_
      rintro ⟨u, hu, e⟩
      refine ⟨u, hu, ?_⟩
      rw [Function.update_of_ne]
      · exact e
      · rintro rfl; rw [hi] at e; cases e
  · intro u hu x hx
    by_cases e : u = t
    · subst e; rw [Function.update_self] at hx
      have := hat x hx
      subst this
      exact ⟨hp', fun a => a.elim hnp hpi, ripe⟩
    · rw [Function.update_of_ne e] at hx
      obtain ⟨a, b, c⟩ := h.ready u hu x hx
      refine ⟨a, ?_, mono x c⟩
      rintro (h1 | rfl)
      · exact b h1
      · exact e (h.uniq u hu t ht x hx (by rw [hi]; rfl))
  · intro u hu x hx hm
    by_cases e : u = t
    · subst e; rw [Function.update_self] at hx hm
      rcases hts with ⟨rfl, -⟩ | ⟨rfl, -⟩
      · have := hat x hx
        subst this
        exact absurd rfl hm
      · obtain ⟨e1, e2⟩ := climb_at p hx
        rw [e1]; exact e2
    · rw [Function.update_of_ne e] at hx hm
      exact h.notRoot u hu x hx hm
  · intro u hu x l' hx
    by_cases e : u = t
    · subst e; rw [Function.update_self] at hx
      rcases hts with ⟨rfl, -⟩ | ⟨rfl, -⟩
      · cases hx
      · exact absurd hx ((climb_ne p).2.1 _ _)
    · rw [Function.update_of_ne e] at hx
      exact h.cas u hu x l' hx
  · intro u hu q hx
    by_cases e : u = t
    · subst e; rw [Function.update_self] at hx
      rcases hts with ⟨rfl, hv⟩ | ⟨rfl, -⟩
      · cases hx
        exact ⟨hp, hv⟩
      · exact absurd hx ((climb_ne p).1 _)
    · rw [Function.update_of_ne e] at hx
      exact h.mark u hu q hx
  · intro u hu hx
    by_cases e : u = t
    · subst e; rw [Function.update_self] at hx
      rcases hts with ⟨rfl, hv⟩ | ⟨rfl, -⟩
      · cases hx
      · exact absurd hx (climb_ne p).2.2
    · rw [Function.update_of_ne e] at hx
      exact h.fault u hu hx
  · have excl : ∀ u < n, ∀ x, u ≠ t → (s.thr u).at = some x → x ≠ p := by
      rintro u hu x - hx rfl
      exact r2 ((h.ready u hu x hx).2.2 _ _ k).1
    intro u hu u' hu' x hx hx'
    by_cases e : u = t
    · subst e
      by_cases e' : u' = u
      · exact e'.symm
      · rw [Function.update_self] at hx
        rw [Function.update_of_ne e'] at hx'
        exact absurd (hat x hx) (excl u' hu' x e' hx')
    · rw [Function.update_of_ne e] at hx
      by_cases e' : u' = t
      · subst e'
        rw [Function.update_self] at hx'
        exact absurd (hat x hx') (excl u hu x e hx)
      · rw [Function.update_of_ne e'] at hx'
        exact h.uniq u hu u' hu' x hx hx'
  · intro x hx hne ha hr
    by_cases hxp : x = p
    · subst hxp
      refine ⟨t, ht, ?_⟩
      rw [Function.update_self]
      rcases hts with ⟨rfl, -⟩ | ⟨rfl, -⟩
      · rfl
      · simp [climb, hne, TS.at]
    · obtain ⟨u, hu, e⟩ := h.live x hx hne (fun a => ha (.inl a)) (fun a b hk =>
        ⟨(hr a b hk).1.resolve_right (other x a b hk hxp),
         (hr a b hk).2.resolve_right (other x b a hk.symm hxp)⟩)
      refine ⟨u, hu, ?_⟩
      rw [Function.update_of_ne]
      · exact e
      · rintro rfl
        rw [hi] at e
        simp only [TS.at, Option.some.injEq] at e
        exact ha (.inr e.symm)

lemma Inv.step_mark {s : State} {arr} (h : Inv n L R leaves lab0 s arr)
    {t p : ℕ} (ht : t < n) (hi : s.thr t = .mark p) :
    Inv n L R leaves lab0 { lab := update s.lab p (-1), thr := update s.thr t (climb n p) } arr := by
  obtain ⟨r1, r2, r3⟩ := h.ready t ht p (by rw [hi]; rfl)
  obtain ⟨hp, hv⟩ := h.mark t ht p hi
  refine ⟨?_, ?_, h.closed, ?_, ?_, ?_, ?_, ?_, ?_, ?_, ?_, ?_, ?_⟩ <;> try dsimp only
  · intro j hj; rw [Function.update_of_ne (by omega)]; exact h.leafLab j hj
  · intro j hj; rw [Function.update_of_ne (by omega)]; exact h.out j hj
  · intro q x z hk hx hz
    rw [Function.update_of_ne]
    · exact h.none q x z hk hx hz
    · rintro rfl; exact hx (r3 x z hk).1
  · intro q x z hk hx hz
    rw [Function.update_of_ne]
    · exact h.one q x z hk hx hz
    · rintro rfl; exact hz (r3 x z hk).2
  · intro q x z hk hx hz
    by_cases hq : q = p
    · subst hq; left; rw [Function.update_self, hv]
    · rw [Function.update_of_ne hq]
      refine (h.both q x z hk hx hz).imp id ?_
      rintro ⟨u, hu, e⟩
      refine ⟨u, hu, ?_⟩
      rw [Function.update_of_ne]
      · exact e
      · rintro rfl; rw [hi] at e; cases e; exact hq rfl
  · intro u hu x hx
    by_cases e : u = t
    · subst e; rw [Function.update_self] at hx
      obtain ⟨rfl, -⟩ := climb_at p hx
      exact ⟨r1, r2, r3⟩
    · rw [Function.update_of_ne e] at hx
      exact h.ready u hu x hx
  · intro u hu x hx hm
    by_cases e : u = t
    · subst e; rw [Function.update_self] at hx
      obtain ⟨rfl, h2⟩ := climb_at p hx
      exact h2
    · rw [Function.update_of_ne e] at hx hm
      exact h.notRoot u hu x hx hm
  · intro u hu x l' hx
    by_cases e : u = t
    · subst e; rw [Function.update_self] at hx
      exact absurd hx ((climb_ne p).2.1 _ _)
    · rw [Function.update_of_ne e] at hx
      exact h.cas u hu x l' hx
  · intro u hu q hx
    by_cases e : u = t
    · subst e; rw [Function.update_self] at hx
      exact absurd hx ((climb_ne p).1 _)
    · rw [Function.update_of_ne e] at hx
      exact h.mark u hu q hx
  · intro u hu hx
    by_cases e : u = t
    · subst e; rw [Function.update_self] at hx
      exact absurd hx (climb_ne p).2.2
    · rw [Function.update_of_ne e] at hx
      exact h.fault u hu hx
  · intro u hu u' hu' x hx hx'
    have fix : ∀ v, (update s.thr t (climb n p) v).at = some x → (s.thr v).at = some x := by
      intro v hv
      by_cases e : v = t
      · subst e; rw [Function.update_self] at hv
        obtain ⟨rfl, -⟩ := climb_at p hv
        rw [hi]; rfl
      · rwa [Function.update_of_ne e] at hv
    exact h.uniq u hu u' hu' x (fix u hx) (fix u' hx')
  · intro x hx hne ha hr
    obtain ⟨u, hu, e⟩ := h.live x hx hne ha hr
    refine ⟨u, hu, ?_⟩
    by_cases hut : u = t
    · subst hut
      rw [hi] at e
      simp only [TS.at, Option.some.injEq] at e
      subst e
      rw [Function.update_self]
      simp [climb, hne, TS.at]
    · rw [Function.update_of_ne hut]; exact e

/-- Labels are valid input: neither of the two markers. -/
def ValidLabels (n : ℕ) (lab : ℕ → ℤ) : Prop := ∀ i < n, lab i ≠ -1 ∧ lab i ≠ -2

lemma inv_step (S : Shape n par L R leaves) (hv : ValidLabels n lab0) {s : State} {arr}
    (h : Inv n L R leaves lab0 s arr) (t : ℕ) :
    ∃ arr', Inv n L R leaves lab0 (step n par s t) arr' := by
  have hv' : ∀ x < 2 * n - 1, val lab0 leaves x ≠ -2 := fun x hx =>
    common_ne (fun a ha => (hv a (S.leaf_lt _ x hx le_rfl a ha)).2)
  unfold step
  by_cases ht : n ≤ t
  · rw [if_pos ht]; exact ⟨arr, h⟩
  · rw [if_neg ht]
    have ht : t < n := by omega
    split
    · rename_i i hi
      exact ⟨arr, h.step_read S ht hi⟩
    · rename_i i l hi
      obtain ⟨r1, r2, r3⟩ := h.ready t ht i (by rw [hi]; rfl)
      have hne := h.notRoot t ht i (by rw [hi]; rfl) (by rw [hi]; simp)
      obtain ⟨p, y, k⟩ := S.kids_of r1 hne
      obtain ⟨f1, f2, f3, f4⟩ := S.kids_facts k
      have g3 := (S.kids_facts k.symm).2.2.1
      have hl := h.cas t ht i l hi
      rw [f2]
      dsimp only
      by_cases hy : arr y
      · have e := h.one p y i k.symm hy r2
        rw [if_neg (by rw [e]; exact hv' y g3)]
        refine ⟨fun z => arr z ∨ z = i, ?_⟩
        have ev := S.kids_val (lab0 := lab0) k.symm
        split_ifs with hc
        · refine h.step_second S ht hi k hy (.inl ⟨rfl, ?_⟩)
          rw [ev, if_neg]
          intro e'
          apply hc
          rw [e, hl, e']
        · refine h.step_second S ht hi k hy (.inr ⟨rfl, ?_⟩)
          rw [not_not] at hc
          rw [ev, e, if_pos]
          rw [← e, hc, hl]
      · rw [if_pos (h.none p i y k r2 hy)]
        exact ⟨_, h.step_first S ht hi k hy⟩
    · rename_i p hi
      exact ⟨arr, h.step_mark ht hi⟩
    · exact ⟨arr, h⟩
    · exact ⟨arr, h⟩

lemma inv_run (S : Shape n par L R leaves) (hv : ValidLabels n lab0) (sched : List ℕ) :
    ∃ arr, Inv n L R leaves lab0 (run n par lab0 sched) arr := by
  have : ∀ (l : List ℕ) (s : State), (∃ arr, Inv n L R leaves lab0 s arr) →
      ∃ arr, Inv n L R leaves lab0 (l.foldl (step n par) s) arr := by
    intro l
    induction l with
    | nil => intro s h; exact h
    | cons t l ih => intro s ⟨arr, h⟩; exact ih _ (inv_step S hv h t)
  exact this sched _ ⟨_, inv_init S⟩

/-- When all threads have returned every node is final. -/
lemma Inv.final (S : Shape n par L R leaves) {s : State} {arr} (h : Inv n L R leaves lab0 s arr)
    (hc : Complete n s) : ∀ (k x : ℕ), (leaves x).length ≤ k → x < 2 * n - 1 →
      s.lab x = val lab0 leaves x ∧ (x ≠ n → arr x) := by
  intro k
  induction k with
  | zero => intro x hk hx; have := (S.len x hx).1; omega
  | succ k ih =>
    intro x hk hx
    have ripe : Ripe n L R arr x := by
      intro a b hab
      have e : leaves x = leaves (L x) ++ leaves (R x) := (S.node x hab.1 hab.2.1).1
      obtain ⟨f1, -, f3, f4⟩ := S.kids_facts hab
      obtain ⟨-, -, g3, g4⟩ := S.kids_facts hab.symm
      have la := (S.len a f3).1
      have lb := (S.len b g3).1
      have hlen : (leaves a).length + (leaves b).length ≤ k + 1 := by
        rw [e, List.length_append] at hk
        rcases hab.2.2 with ⟨rfl, rfl⟩ | ⟨rfl, rfl⟩ <;> omega
      exact ⟨(ih a (by omega) f3).2 f4, (ih b (by omega) g3).2 g4⟩
    refine ⟨?_, ?_⟩
    · by_cases hn : x < n
      · rw [h.leafLab x hn, val, S.leaf x hn]; simp [common]
      · have kk : Kids n L R x (L x) (R x) := ⟨by omega, hx, .inl ⟨rfl, rfl⟩⟩
        rcases h.both _ _ _ kk (ripe _ _ kk).1 (ripe _ _ kk).2 with e | ⟨t, ht, e⟩
        · exact e
        · rw [hc t ht] at e; cases e
    · intro hne
      by_contra ha
      obtain ⟨t, ht, e⟩ := h.live x hx hne ha ripe
      rw [hc t ht] at e
      cases e

/-! ## Progress -/

/-- Upper bound on the number of further steps of a thread. -/
def TS.rank (n : ℕ) (leaves : ℕ → List ℕ) : TS → ℕ
  | .read i => 3 * (n - (leaves i).length) + 2
  | .cas i _ => 3 * (n - (leaves i).length) + 1
  | .mark p => 3 * (n - (leaves p).length) + 3
  | _ => 0

lemma rank_cas (i : ℕ) (l : ℤ) : (TS.cas i l).rank n leaves = 3 * (n - (leaves i).length) + 1 := rfl
lemma rank_mark (p : ℕ) : (TS.mark p).rank n leaves = 3 * (n - (leaves p).length) + 3 := rfl
lemma rank_done : (TS.done).rank n leaves = 0 := rfl

lemma climb_rank (p : ℕ) : (climb n p).rank n leaves ≤ 3 * (n - (leaves p).length) + 2 := by
  unfold climb; split_ifs
  · exact Nat.zero_le _
  · exact le_rfl

lemma step_other {s : State} {t u : ℕ} (h : u ≠ t) : (step n par s t).thr u = s.thr u := by
  unfold step
  split_ifs
  · rfl
  · split
    · exact Function.update_of_ne h _ _
    · split
      · exact Function.update_of_ne h _ _
      · split_ifs <;> exact Function.update_of_ne h _ _
    · exact Function.update_of_ne h _ _
    · rfl
    · rfl

lemma step_rank (S : Shape n par L R leaves) {s : State} {arr} (h : Inv n L R leaves lab0 s arr) {t : ℕ}
    (ht : t < n) : ((step n par s t).thr t).rank n leaves + 1 ≤ (s.thr t).rank n leaves ∨ s.thr t = .done := by
  unfold step
  rw [if_neg (by omega)]
  split
  · rename_i i hi
    left; dsimp only; rw [Function.update_self, hi]; simp only [TS.rank]; omega
  · rename_i i l hi
    obtain ⟨r1, r2, r3⟩ := h.ready t ht i (by rw [hi]; rfl)
    have hne := h.notRoot t ht i (by rw [hi]; rfl) (by rw [hi]; simp)
    obtain ⟨p, y, k⟩ := S.kids_of r1 hne
    obtain ⟨f1, f2, f3, f4⟩ := S.kids_facts k
    have g3 := (S.kids_facts k.symm).2.2.1
    have e : leaves p = leaves (L p) ++ leaves (R p) := (S.node p k.1 k.2.1).1
    have la := (S.len i f3).1
    have lb := (S.len y g3).1
    have lp := (S.len p k.2.1).2
    have hlen : (leaves p).length = (leaves i).length + (leaves y).length := by
      rw [e, List.length_append]
      rcases k.2.2 with ⟨rfl, rfl⟩ | ⟨rfl, rfl⟩ <;> omega
    have hcl := climb_rank (n := n) (leaves := leaves) p
    left
    rw [f2]
    dsimp only
    split_ifs <;> dsimp only <;> rw [Function.update_self, hi] <;> simp only [rank_cas, rank_mark, rank_done] at hcl ⊢ <;> omega
  · rename_i p hi
    have hcl := climb_rank (n := n) (leaves := leaves) p
    left; dsimp only; rw [Function.update_self, hi, rank_mark]; omega
  · rename_i hi; right; exact hi
  · rename_i hi; exact absurd hi (h.fault t ht)

lemma run_rank (S : Shape n par L R leaves) (hv : ValidLabels n lab0) {t : ℕ} (ht : t < n) :
    ∀ (l : List ℕ) (s : State), (∃ arr, Inv n L R leaves lab0 s arr) →
      ((l.foldl (step n par) s).thr t).rank n leaves ≤ (s.thr t).rank n leaves - l.count t ∨
      (l.foldl (step n par) s).thr t = .done := by
  intro l
  induction l with
  | nil => intro s _; left; simp
  | cons u l ih =>
    intro s ⟨arr, h⟩
    have h' := inv_step S hv h u
    rw [List.foldl_cons]
    by_cases e : u = t
    · subst e
      rw [List.count_cons_self]
      rcases step_rank S h ht with hr | hr
      · rcases ih _ h' with h2 | h2
        · left; omega
        · exact .inr h2
      · have hs : step n par s u = s := by
          unfold step; rw [if_neg (by omega), hr]
        rw [hs] at h' ⊢
        rcases ih s h' with h2 | h2
        · left; rw [hr] at h2 ⊢; simp only [TS.rank] at h2 ⊢; omega
        · exact .inr h2
    · rw [List.count_cons_of_ne e]
      rcases ih _ h' with h2 | h2
      · left; rw [step_other (fun h => e h.symm)] at h2; exact h2
      · exact .inr h2

end
end ArborX.Labels
