import Verif.UnionFind.Model
import Mathlib.Logic.Relation
import Mathlib.Order.Basic
import Mathlib.Logic.Function.Iterate
import Mathlib.Tactic.Common

/-!
# Invariant of the concurrent union-find
-/

namespace ArborX.UF

open Function (update)

/-! ## Roots -/

/-- The end of the chain of labels from `x`. -/
def root (L : ℕ → ℕ) (x : ℕ) : ℕ := L^[x] x

/-- The labels of the vertices in `C` stay in `C` and do not increase. -/
def Dec (C : ℕ → Prop) (L : ℕ → ℕ) : Prop := ∀ x, C x → C (L x) ∧ L x ≤ x

lemma iterate_fix {L : ℕ → ℕ} {x : ℕ} (h : L x = x) (n : ℕ) : L^[n] x = x := by
  induction n with
  | zero => rfl
  | succ n ih => rw [Function.iterate_succ_apply, h, ih]

lemma iterate_stable {C : ℕ → Prop} {L : ℕ → ℕ} (h : Dec C L) (x : ℕ) (hx : C x) :
    ∀ m, x ≤ m → L^[m] x = L^[x] x ∧ L (L^[x] x) = L^[x] x ∧ C (L^[x] x) ∧ L^[x] x ≤ x := by
  induction x using Nat.strong_induction_on with
  | _ x ih =>
    intro m hm
    by_cases hf : L x = x
    · rw [iterate_fix hf, iterate_fix hf]
      exact ⟨rfl, hf, hx, le_rfl⟩
    · have hlt : L x < x := lt_of_le_of_ne (h x hx).2 hf
      obtain ⟨m', rfl⟩ : ∃ m', m = m' + 1 := ⟨m - 1, by omega⟩
      obtain ⟨x', hx'⟩ : ∃ x', x = x' + 1 := ⟨x - 1, by omega⟩
      have h1 := ih (L x) hlt (h x hx).1 m' (by omega)
      have h2 := ih (L x) hlt (h x hx).1 x' (by omega)
      have e : L^[x] x = L^[L x] (L x) := by
        conv_lhs => rw [hx', Function.iterate_succ_apply, ← hx']
        exact h2.1
      rw [e]
      refine ⟨?_, h1.2.1, h1.2.2.1, by omega⟩
      rw [Function.iterate_succ_apply]
      exact h1.1

lemma root_of_fix {L : ℕ → ℕ} {x : ℕ} (h : L x = x) : root L x = x := iterate_fix h x

lemma root_label {C : ℕ → Prop} {L : ℕ → ℕ} (h : Dec C L) {x : ℕ} (hx : C x) :
    root L (L x) = root L x := by
  by_cases hf : L x = x
  · rw [hf]
  · have hlt : L x < x := lt_of_le_of_ne (h x hx).2 hf
    obtain ⟨x', hx'⟩ : ∃ x', x = x' + 1 := ⟨x - 1, by omega⟩
    unfold root
    conv_rhs => rw [hx', Function.iterate_succ_apply, ← hx']
    exact ((iterate_stable h (L x) (h x hx).1 x' (by omega)).1).symm

lemma root_fixed {C : ℕ → Prop} {L : ℕ → ℕ} (h : Dec C L) {x : ℕ} (hx : C x) :
    L (root L x) = root L x := (iterate_stable h x hx x le_rfl).2.1

lemma root_mem {C : ℕ → Prop} {L : ℕ → ℕ} (h : Dec C L) {x : ℕ} (hx : C x) : C (root L x) :=
  (iterate_stable h x hx x le_rfl).2.2.1

lemma root_le {C : ℕ → Prop} {L : ℕ → ℕ} (h : Dec C L) {x : ℕ} (hx : C x) : root L x ≤ x :=
  (iterate_stable h x hx x le_rfl).2.2.2

/-- Roots are related to their vertices by any equivalence that contains the labels. -/
lemma root_rel {C : ℕ → Prop} {L : ℕ → ℕ} (h : Dec C L) {R : ℕ → ℕ → Prop} (hR : Equivalence R)
    (hL : ∀ x, C x → R x (L x)) {x : ℕ} (hx : C x) : R x (root L x) := by
  induction x using Nat.strong_induction_on with
  | _ x ih =>
    by_cases hf : L x = x
    · rw [root_of_fix hf]; exact hR.refl x
    · have hlt : L x < x := lt_of_le_of_ne (h x hx).2 hf
      rw [← root_label h hx]
      exact hR.trans (hL x hx) (ih _ hlt (h x hx).1)

/-- A write that moves a pointer within its tree keeps all roots. -/
lemma root_halve {C : ℕ → Prop} {L : ℕ → ℕ} (h : Dec C L) {p q : ℕ} (hp : C p) (hq : C q)
    (hqp : q < p) (hroot : root L q = root L p) (hnr : L p ≠ p) :
    Dec C (update L p q) ∧ ∀ x, C x → root (update L p q) x = root L x := by
  have hD : Dec C (update L p q) := by
    intro x hx
    by_cases e : x = p
    · subst e; rw [Function.update_self]; exact ⟨hq, hqp.le⟩
    · rw [Function.update_of_ne e]; exact h x hx
  refine ⟨hD, ?_⟩
  intro x
  induction x using Nat.strong_induction_on with
  | _ x ih =>
    intro hx
    rw [← root_label hD hx]
    by_cases e : x = p
    · subst e
      rw [Function.update_self, ih q hqp hq, hroot]
    · rw [Function.update_of_ne e]
      by_cases hf : L x = x
      · have : update L p q x = x := by rw [Function.update_of_ne e]; exact hf
        rw [hf, root_of_fix hf, root_of_fix this]
      · rw [ih _ (lt_of_le_of_ne (h x hx).2 hf) (h x hx).1, root_label h hx]

/-- Linking a root below a smaller vertex joins the two trees. -/
lemma root_link {C : ℕ → Prop} {L : ℕ → ℕ} (h : Dec C L) {o v : ℕ} (ho : C o) (hv : C v)
    (hvo : v < o) (hroot : L o = o) :
    Dec C (update L o v) ∧
      ∀ x, C x → root (update L o v) x = if root L x = o then root L v else root L x := by
  have hD : Dec C (update L o v) := by
    intro x hx
    by_cases e : x = o
    · subst e; rw [Function.update_self]; exact ⟨hv, hvo.le⟩
    · rw [Function.update_of_ne e]; exact h x hx
  refine ⟨hD, ?_⟩
  intro x
  induction x using Nat.strong_induction_on with
  | _ x ih =>
    intro hx
    rw [← root_label hD hx]
    by_cases e : x = o
    · subst e
      have hne : root L v ≠ x := by
        have := root_le h hv
        omega
      rw [Function.update_self, ih v hvo hv, if_neg hne, root_of_fix hroot, if_pos rfl]
    · rw [Function.update_of_ne e]
      by_cases hf : L x = x
      · have : update L o v x = x := by rw [Function.update_of_ne e]; exact hf
        rw [hf, root_of_fix hf, root_of_fix this, if_neg e]
      · rw [ih _ (lt_of_le_of_ne (h x hx).2 hf) (h x hx).1, root_label h hx]

/-- Writes to vertices outside `C` do not matter. -/
lemma root_outside {C : ℕ → Prop} {L : ℕ → ℕ} (h : Dec C L) {b r : ℕ} (hb : ¬ C b) :
    Dec C (update L b r) ∧ ∀ x, C x → root (update L b r) x = root L x := by
  have hne : ∀ x, C x → x ≠ b := fun x hx e => hb (e ▸ hx)
  have hD : Dec C (update L b r) := by
    intro x hx
    rw [Function.update_of_ne (hne x hx)]; exact h x hx
  refine ⟨hD, ?_⟩
  intro x
  induction x using Nat.strong_induction_on with
  | _ x ih =>
    intro hx
    rw [← root_label hD hx, Function.update_of_ne (hne x hx)]
    by_cases hf : L x = x
    · have : update L b r x = x := by rw [Function.update_of_ne (hne x hx)]; exact hf
      rw [hf, root_of_fix hf, root_of_fix this]
    · rw [ih _ (lt_of_le_of_ne (h x hx).2 hf) (h x hx).1, root_label h hx]

/-! ## Programs -/

/-- A completed operation. -/
inductive Ev where
  | merge (i j : ℕ)
  | into (b j : ℕ)
  | same (i j : ℕ) (r : Bool)

/-- `Path p l q`: the program `p`, after completing the operations `l`, has `q` left. -/
inductive Path (p : Prog) : List Ev → Prog → Prop where
  | nil : Path p [] p
  | merge {l i j k} : Path p l (.merge i j k) → Path p (l ++ [.merge i j]) k
  | into {l b j k} : Path p l (.into b j k) → Path p (l ++ [.into b j]) k
  | same {l i j k} (r : Bool) : Path p l (.same i j k) → Path p (l ++ [.same i j r]) (k r)

lemma Path.cons_merge {i j : ℕ} {k q : Prog} {l : List Ev} (h : Path k l q) :
    Path (.merge i j k) (.merge i j :: l) q := by
  induction h with
  | nil => exact Path.merge (l := []) Path.nil
  | merge _ ih => exact Path.merge ih
  | into _ ih => exact Path.into ih
  | same r _ ih => exact Path.same r ih

/-- Decomposition at the first operation. -/
lemma Path.head {p q : Prog} {l : List Ev} (h : Path p l q) :
    (l = [] ∧ q = p) ∨
    (∃ i j k l', p = .merge i j k ∧ l = .merge i j :: l' ∧ Path k l' q) ∨
    (∃ b j k l', p = .into b j k ∧ l = .into b j :: l' ∧ Path k l' q) ∨
    (∃ i j k r l', p = .same i j k ∧ l = .same i j r :: l' ∧ Path (k r) l' q) := by
  induction h with
  | nil => exact Or.inl ⟨rfl, rfl⟩
  | @merge l i j k _ ih =>
    rcases ih with ⟨rfl, rfl⟩ | ⟨i', j', k', l', rfl, rfl, hp⟩ | ⟨i', j', k', l', rfl, rfl, hp⟩ |
      ⟨i', j', k', r', l', rfl, rfl, hp⟩
    · exact Or.inr (Or.inl ⟨i, j, k, [], rfl, rfl, .nil⟩)
    · exact Or.inr (Or.inl ⟨i', j', k', _, rfl, rfl, .merge hp⟩)
    · exact Or.inr (Or.inr (Or.inl ⟨i', j', k', _, rfl, rfl, .merge hp⟩))
    · exact Or.inr (Or.inr (Or.inr ⟨i', j', k', r', _, rfl, rfl, .merge hp⟩))
  | @into l i j k _ ih =>
    rcases ih with ⟨rfl, rfl⟩ | ⟨i', j', k', l', rfl, rfl, hp⟩ | ⟨i', j', k', l', rfl, rfl, hp⟩ |
      ⟨i', j', k', r', l', rfl, rfl, hp⟩
    · exact Or.inr (Or.inr (Or.inl ⟨i, j, k, [], rfl, rfl, .nil⟩))
    · exact Or.inr (Or.inl ⟨i', j', k', _, rfl, rfl, .into hp⟩)
    · exact Or.inr (Or.inr (Or.inl ⟨i', j', k', _, rfl, rfl, .into hp⟩))
    · exact Or.inr (Or.inr (Or.inr ⟨i', j', k', r', _, rfl, rfl, .into hp⟩))
  | @same l i j k r _ ih =>
    rcases ih with ⟨rfl, rfl⟩ | ⟨i', j', k', l', rfl, rfl, hp⟩ | ⟨i', j', k', l', rfl, rfl, hp⟩ |
      ⟨i', j', k', r', l', rfl, rfl, hp⟩
    · exact Or.inr (Or.inr (Or.inr ⟨i, j, k, r, [], rfl, rfl, .nil⟩))
    · exact Or.inr (Or.inl ⟨i', j', k', _, rfl, rfl, .same r hp⟩)
    · exact Or.inr (Or.inr (Or.inl ⟨i', j', k', _, rfl, rfl, .same r hp⟩))
    · exact Or.inr (Or.inr (Or.inr ⟨i', j', k', r', _, rfl, rfl, .same r hp⟩))

/-- Every operation the program may reach respects the specification: merges and comparisons
are between vertices of `C` and merged vertices are related by `R`; only vertices outside
`C` are merged into vertices of `C`, and then `B b j`. -/
def Safe (n : ℕ) (C : ℕ → Prop) (R B : ℕ → ℕ → Prop) : Prog → Prop
  | .ret => True
  | .merge i j k => C i ∧ C j ∧ R i j ∧ Safe n C R B k
  | .into b j k => b < n ∧ ¬ C b ∧ C j ∧ B b j ∧ Safe n C R B k
  | .same i j k => C i ∧ C j ∧ Safe n C R B (k true) ∧ Safe n C R B (k false)

/-- What a completed operation guarantees. -/
def Fact (C : ℕ → Prop) (L : ℕ → ℕ) : Ev → Prop
  | .merge i j => root L i = root L j
  | .into b _ => C (L b)
  | .same i j r => r = true → root L i = root L j

/-! ## Invariant -/

/-- Invariant of the labels. -/
structure LInv (C : ℕ → Prop) (R B : ℕ → ℕ → Prop) (L : ℕ → ℕ) : Prop where
  dec : Dec C L
  rel : ∀ x, C x → R x (L x)
  out : ∀ b, ¬ C b → L b = b ∨ (C (L b) ∧ ∃ j, C j ∧ B b j ∧ R j (L b))

/-- `x` and `y` are vertices of `C` in the same tree. -/
def Eqr (C : ℕ → Prop) (L : ℕ → ℕ) (x y : ℕ) : Prop := C x ∧ C y ∧ root L x = root L y

/-- What is known of the argument `x` and of the variables of `representative`. -/
def FindInv (C : ℕ → Prop) (L : ℕ → ℕ) (x : ℕ) : Find → Prop
  | .start y => C x ∧ y = x
  | .read prev curr => Eqr C L x prev ∧ Eqr C L x curr ∧ L prev ≠ prev ∧ curr < prev
  | .write prev curr next =>
      Eqr C L x prev ∧ Eqr C L x curr ∧ Eqr C L x next ∧ L prev ≠ prev ∧ L curr ≠ curr ∧
        next < curr ∧ curr < prev

/-- Local invariant of a thread with program `p` after the operations `l`; `sr`: serial. -/
def TInv (n : ℕ) (C : ℕ → Prop) (R B : ℕ → ℕ → Prop) (sr : Bool) (L : ℕ → ℕ) (p : Prog) (l : List Ev) :
    TS → Prop
  | .idle q => Path p l q ∧ Safe n C R B q
  | .find f (.mergeI j k) => ∃ i, Path p l (.merge i j k) ∧ FindInv C L i f ∧ C j ∧ R i j ∧ Safe n C R B k
  | .find f (.mergeJ v k) => ∃ i j, Path p l (.merge i j k) ∧ Eqr C L i v ∧ FindInv C L j f ∧ R i j ∧
      Safe n C R B k ∧ (sr = true → L v = v)
  | .find f (.into b k) => ∃ j, Path p l (.into b j k) ∧ FindInv C L j f ∧ b < n ∧ ¬ C b ∧ B b j ∧
      Safe n C R B k
  | .find f (.sameI j k) => ∃ i, Path p l (.same i j k) ∧ FindInv C L i f ∧ C j ∧
      Safe n C R B (k true) ∧ Safe n C R B (k false)
  | .find f (.sameJ r k) => ∃ i j, Path p l (.same i j k) ∧ Eqr C L i r ∧ FindInv C L j f ∧
      Safe n C R B (k true) ∧ Safe n C R B (k false)
  | .cas v o k => ∃ i j, Path p l (.merge i j k) ∧ Eqr C L i v ∧ Eqr C L j o ∧ R i j ∧ Safe n C R B k ∧
      (sr = true → L v = v ∧ L o = o)
  | .store b r k => ∃ j, Path p l (.into b j k) ∧ Eqr C L j r ∧ b < n ∧ ¬ C b ∧ B b j ∧ Safe n C R B k
  | .fault => False

/-- The labels change only in ways that keep all facts. -/
structure Grow (C : ℕ → Prop) (L L' : ℕ → ℕ) : Prop where
  eqr : ∀ x y, C x → C y → root L x = root L y → root L' x = root L' y
  nonroot : ∀ x, C x → L x ≠ x → L' x ≠ x
  out : ∀ b, C (L b) → C (L' b)

lemma Grow.refl (C : ℕ → Prop) (L : ℕ → ℕ) : Grow C L L :=
  ⟨fun _ _ _ _ h => h, fun _ _ h => h, fun _ h => h⟩

lemma Eqr.grow {C : ℕ → Prop} {L L' : ℕ → ℕ} (g : Grow C L L') {x y : ℕ} (h : Eqr C L x y) :
    Eqr C L' x y := ⟨h.1, h.2.1, g.eqr x y h.1 h.2.1 h.2.2⟩

lemma FindInv.grow {C : ℕ → Prop} {L L' : ℕ → ℕ} (g : Grow C L L') {x : ℕ} {f : Find}
    (h : FindInv C L x f) : FindInv C L' x f := by
  cases f with
  | start y => exact h
  | read p c =>
    obtain ⟨h1, h2, h3, h4⟩ := h
    exact ⟨h1.grow g, h2.grow g, g.nonroot _ h1.2.1 h3, h4⟩
  | write p c m =>
    obtain ⟨h1, h2, h3, h4, h5, h6, h7⟩ := h
    exact ⟨h1.grow g, h2.grow g, h3.grow g, g.nonroot _ h1.2.1 h4, g.nonroot _ h2.2.1 h5, h6, h7⟩

lemma Fact.grow {C : ℕ → Prop} {L L' : ℕ → ℕ} (g : Grow C L L') {e : Ev}
    (hC : ∀ i j, (e = .merge i j ∨ ∃ r, e = .same i j r) → C i ∧ C j)
    (h : Fact C L e) : Fact C L' e := by
  cases e with
  | merge i j =>
    have := hC i j (Or.inl rfl)
    exact g.eqr i j this.1 this.2 h
  | into b j => exact g.out b h
  | same i j r =>
    have := hC i j (Or.inr ⟨r, rfl⟩)
    exact fun hr => g.eqr i j this.1 this.2 (h hr)

/-- Vertices of completed comparisons and merges are in `C`. -/
def EvC (C : ℕ → Prop) (e : Ev) : Prop :=
  ∀ i j, (e = .merge i j ∨ ∃ r, e = .same i j r) → C i ∧ C j

lemma TInv.grow {n : ℕ} {C : ℕ → Prop} {R B : ℕ → ℕ → Prop} {L L' : ℕ → ℕ} (g : Grow C L L') {p : Prog}
    {l : List Ev} {x : TS} {sr : Bool} (h : TInv n C R B sr L p l x) (hs : sr = true → L' = L) :
    TInv n C R B sr L' p l x := by
  cases x with
  | idle q => exact h
  | fault => exact h
  | find f c =>
    cases c with
    | mergeI j k => obtain ⟨i, h1, h2, h3⟩ := h; exact ⟨i, h1, h2.grow g, h3⟩
    | mergeJ v k =>
      obtain ⟨i, j, h1, h2, h3, h4, h5, h6⟩ := h
      exact ⟨i, j, h1, h2.grow g, h3.grow g, h4, h5, fun e => by rw [hs e]; exact h6 e⟩
    | into b k => obtain ⟨j, h1, h2, h3⟩ := h; exact ⟨j, h1, h2.grow g, h3⟩
    | sameI j k => obtain ⟨i, h1, h2, h3⟩ := h; exact ⟨i, h1, h2.grow g, h3⟩
    | sameJ r k => obtain ⟨i, j, h1, h2, h3, h4⟩ := h; exact ⟨i, j, h1, h2.grow g, h3.grow g, h4⟩
  | cas v o k =>
    obtain ⟨i, j, h1, h2, h3, h4, h5, h6⟩ := h
    exact ⟨i, j, h1, h2.grow g, h3.grow g, h4, h5, fun e => by rw [hs e]; exact h6 e⟩
  | store b r k => obtain ⟨j, h1, h2, h3⟩ := h; exact ⟨j, h1, h2.grow g, h3⟩

/-- `representative` returning keeps the invariant. -/
lemma TInv.ret {n : ℕ} {C : ℕ → Prop} {R B : ℕ → ℕ → Prop} {L : ℕ → ℕ} {p : Prog} {l : List Ev}
    {sr : Bool} {f : Find} {c : Cont} {r : ℕ} (h : TInv n C R B sr L p l (.find f c))
    (hr : ∀ x, FindInv C L x f → Eqr C L x r) (hroot : L r = r ∨ sr = false)
    (hevC : ∀ e ∈ l, EvC C e) (hfact : ∀ e ∈ l, Fact C L e) :
    ∃ l', TInv n C R B sr L p l' (UF.ret r c) ∧ (∀ e ∈ l', EvC C e) ∧ (∀ e ∈ l', Fact C L e) := by
  have hroot' : sr = true → L r = r := by
    intro e
    rcases hroot with h | h
    · exact h
    · rw [e] at h; cases h
  cases c with
  | mergeI j k =>
    obtain ⟨i, h1, h2, h3, h4, h5⟩ := h
    exact ⟨l, ⟨i, j, h1, hr i h2, ⟨h3, rfl⟩, h4, h5, hroot'⟩, hevC, hfact⟩
  | mergeJ v k =>
    obtain ⟨i, j, h1, h2, h3, h4, h5, h6⟩ := h
    exact ⟨l, ⟨i, j, h1, h2, hr j h3, h4, h5, fun e => ⟨h6 e, hroot' e⟩⟩, hevC, hfact⟩
  | into b k =>
    obtain ⟨j, h1, h2, h3⟩ := h
    exact ⟨l, ⟨j, h1, hr j h2, h3⟩, hevC, hfact⟩
  | sameI j k =>
    obtain ⟨i, h1, h2, h3, h4⟩ := h
    exact ⟨l, ⟨i, j, h1, hr i h2, ⟨h3, rfl⟩, h4⟩, hevC, hfact⟩
  | sameJ r' k =>
    obtain ⟨i, j, h1, h2, h3, h4, h5⟩ := h
    have hj := hr j h3
    refine ⟨l ++ [.same i j (decide (r' = r))], ⟨Path.same _ h1, ?_⟩, ?_, ?_⟩
    · cases decide (r' = r)
      · exact h5
      · exact h4
    · intro e he
      rcases List.mem_append.mp he with he | he
      · exact hevC e he
      · rw [List.mem_singleton] at he
        subst he
        rintro a b (e | ⟨q, e⟩)
        · cases e
        · cases e; exact ⟨h2.1, hj.1⟩
    · intro e he
      rcases List.mem_append.mp he with he | he
      · exact hfact e he
      · rw [List.mem_singleton] at he
        subst he
        intro hd
        have : r' = r := by simpa using hd
        rw [h2.2.2, hj.2.2, this]

end ArborX.UF
