import Mathlib.Logic.Relation
import Mathlib.Data.Finset.Max
import Mathlib.Data.Finset.Image
import Mathlib.Data.Finset.Range
import Mathlib.Data.Finset.Filter
import Mathlib.Data.Finset.Card
import Mathlib.Order.Defs.LinearOrder
import Mathlib.Tactic.Common

/-!
# The levels of Borůvka's algorithm and the chains of its edges (lemmas)

Independent of the code: what a run of Borůvka's algorithm leaves behind, and the facts about the
edges that make the chains of `computeParentsAndReorderEdges` a dendrogram.
-/

namespace ArborX.Hdbscan

/-- `u` and `v` are joined by edges with property `p`, of the edges `0, …, m - 1` given by
`src`, `tgt`. -/
def Lk (m : ℕ) (src tgt : ℕ → ℕ) (p : ℕ → Prop) : ℕ → ℕ → Prop :=
  Relation.EqvGen (fun a b => ∃ e < m, p e ∧ src e = a ∧ tgt e = b)

section Lk

variable {m : ℕ} {src tgt : ℕ → ℕ} {p q : ℕ → Prop} {u v x : ℕ}

lemma Lk.refl (p : ℕ → Prop) (u : ℕ) : Lk m src tgt p u u := Relation.EqvGen.refl u
lemma Lk.symm (h : Lk m src tgt p u v) : Lk m src tgt p v u := Relation.EqvGen.symm _ _ h
lemma Lk.trans (h : Lk m src tgt p u v) (h' : Lk m src tgt p v x) : Lk m src tgt p u x :=
  Relation.EqvGen.trans _ _ _ h h'
lemma Lk.edge {e : ℕ} (he : e < m) (hp : p e) : Lk m src tgt p (src e) (tgt e) :=
  Relation.EqvGen.rel _ _ ⟨e, he, hp, rfl, rfl⟩

lemma Lk.mono (hpq : ∀ e < m, p e → q e) (h : Lk m src tgt p u v) : Lk m src tgt q u v :=
  Relation.EqvGen.mono (r := fun a b => ∃ e < m, p e ∧ src e = a ∧ tgt e = b)
    (fun _ _ ⟨e, he, hp, h1, h2⟩ => ⟨e, he, hpq e he hp, h1, h2⟩) _ _ h

lemma Lk.closed {S : ℕ → Prop} (hS : ∀ e < m, p e → (S (src e) ↔ S (tgt e))) (h : Lk m src tgt p u v) :
    S u ↔ S v := by
  induction h with
  | rel a b h => obtain ⟨e, he, hp, rfl, rfl⟩ := h; exact hS e he hp
  | refl a => exact Iff.rfl
  | symm a b _ ih => exact ih.symm
  | trans a b c _ _ ih1 ih2 => exact ih1.trans ih2

lemma Lk.split {h : ℕ} (c : Lk m src tgt p u v) :
    Lk m src tgt (fun e => p e ∧ e ≠ h) u v ∨
    (Lk m src tgt (fun e => p e ∧ e ≠ h) u (src h) ∧ Lk m src tgt (fun e => p e ∧ e ≠ h) (tgt h) v) ∨
    (Lk m src tgt (fun e => p e ∧ e ≠ h) u (tgt h) ∧ Lk m src tgt (fun e => p e ∧ e ≠ h) (src h) v) := by
  set q : ℕ → Prop := fun e => p e ∧ e ≠ h with hq
  by_cases h1 : Lk m src tgt q u (src h)
  · have := (Lk.closed (S := fun x => Lk m src tgt q u x ∨ Lk m src tgt q (tgt h) x) (p := p) ?_ c).mp (.inl (.refl _ _))
    · rcases this with h2 | h2
      · exact .inl h2
      · exact .inr (.inl ⟨h1, h2⟩)
    · intro e he hp
      by_cases heh : e = h
      · subst heh; exact ⟨fun _ => .inr (.refl _ _), fun _ => .inl h1⟩
      · have hee : Lk m src tgt q (src e) (tgt e) := Lk.edge he ⟨hp, heh⟩
        exact or_congr ⟨fun a => a.trans hee, fun a => a.trans hee.symm⟩ ⟨fun a => a.trans hee, fun a => a.trans hee.symm⟩
  · by_cases h2 : Lk m src tgt q u (tgt h)
    · have := (Lk.closed (S := fun x => Lk m src tgt q u x ∨ Lk m src tgt q (src h) x) (p := p) ?_ c).mp (.inl (.refl _ _))
      · rcases this with h3 | h3
        · exact .inl h3
        · exact .inr (.inr ⟨h2, h3⟩)
      · intro e he hp
        by_cases heh : e = h
        · subst heh; exact ⟨fun _ => .inl h2, fun _ => .inr (.refl _ _)⟩
        · have hee : Lk m src tgt q (src e) (tgt e) := Lk.edge he ⟨hp, heh⟩
          exact or_congr ⟨fun a => a.trans hee, fun a => a.trans hee.symm⟩ ⟨fun a => a.trans hee, fun a => a.trans hee.symm⟩
    · left
      refine (Lk.closed (S := fun x => Lk m src tgt q u x) (p := p) ?_ c).mp (.refl _ _)
      intro e he hp
      by_cases heh : e = h
      · subst heh; exact ⟨fun a => absurd a h1, fun a => absurd a h2⟩
      · have hee : Lk m src tgt q (src e) (tgt e) := Lk.edge he ⟨hp, heh⟩
        exact ⟨fun a => a.trans hee, fun a => a.trans hee.symm⟩

variable {κ : Type} [LinearOrder κ] {key : ℕ → κ}

/-- Two vertices joined by edges, but not by edges of key at most `t`: some edge of larger key
joins what smaller edges reach from the one and from the other. -/
lemma bottleneck (hinj : ∀ e < m, ∀ f < m, key e = key f → e = f) (t : κ) :
    ∀ (k : ℕ) (p : ℕ → Prop), (∃ F : Finset ℕ, F.card = k ∧ ∀ e < m, p e → t < key e → e ∈ F) →
      Lk m src tgt p u v → ¬ Lk m src tgt (fun e => p e ∧ key e ≤ t) u v →
      ∃ h < m, p h ∧ t < key h ∧
        ((Lk m src tgt (fun e => p e ∧ key e < key h) u (src h) ∧
          Lk m src tgt (fun e => p e ∧ key e < key h) (tgt h) v) ∨
        (Lk m src tgt (fun e => p e ∧ key e < key h) u (tgt h) ∧
          Lk m src tgt (fun e => p e ∧ key e < key h) (src h) v)) := by
  classical
  intro k
  induction k with
  | zero =>
    rintro p ⟨F, hF, hpF⟩ c hno
    rw [Finset.card_eq_zero] at hF
    subst hF
    refine absurd (c.mono (fun e he hp => ⟨hp, ?_⟩)) hno
    by_contra hk
    exact absurd (hpF e he hp (not_le.mp hk)) (Finset.notMem_empty e)
  | succ k ih =>
    rintro p ⟨F, hF, hpF⟩ c hno
    have hne : ((Finset.range m).filter (fun e => p e ∧ t < key e)).Nonempty := by
      by_contra hem
      rw [Finset.not_nonempty_iff_eq_empty] at hem
      refine hno (c.mono (fun e he hp => ⟨hp, ?_⟩))
      by_contra hk
      have : e ∈ (Finset.range m).filter (fun e => p e ∧ t < key e) := by
        rw [Finset.mem_filter, Finset.mem_range]; exact ⟨he, hp, not_le.mp hk⟩
      rw [hem] at this
      exact absurd this (Finset.notMem_empty e)
    obtain ⟨h, hh, hmax⟩ := Finset.exists_max_image _ key hne
    rw [Finset.mem_filter, Finset.mem_range] at hh
    obtain ⟨hm, hp, hth⟩ := hh
    have hlt : ∀ e < m, p e ∧ e ≠ h → p e ∧ key e < key h := by
      rintro e he ⟨h1, h2⟩
      refine ⟨h1, lt_of_le_of_ne ?_ (fun e' => h2 (hinj e he h hm e'))⟩
      by_cases hk : t < key e
      · exact hmax e (by rw [Finset.mem_filter, Finset.mem_range]; exact ⟨he, h1, hk⟩)
      · exact (not_lt.mp hk).trans hth.le
    rcases Lk.split (h := h) c with c | ⟨c1, c2⟩ | ⟨c1, c2⟩
    · obtain ⟨h', a1, a2, a3, a4⟩ := ih (fun e => p e ∧ e ≠ h) ⟨F.erase h, by
        rw [Finset.card_erase_of_mem (hpF h hm hp hth), hF]; rfl, fun e he hpe hk =>
        Finset.mem_erase.mpr ⟨hpe.2, hpF e he hpe.1 hk⟩⟩ c
        (fun c' => hno (c'.mono (fun e _ he => ⟨he.1.1, he.2⟩)))
      have mn : ∀ {a b}, Lk m src tgt (fun e => (p e ∧ e ≠ h) ∧ key e < key h') a b →
          Lk m src tgt (fun e => p e ∧ key e < key h') a b := fun c => c.mono (fun e _ he => ⟨he.1.1, he.2⟩)
      refine ⟨h', a1, a2.1, a3, ?_⟩
      rcases a4 with ⟨b1, b2⟩ | ⟨b1, b2⟩
      · exact .inl ⟨mn b1, mn b2⟩
      · exact .inr ⟨mn b1, mn b2⟩
    · exact ⟨h, hm, hp, hth, .inl ⟨c1.mono hlt, c2.mono hlt⟩⟩
    · exact ⟨h, hm, hp, hth, .inr ⟨c1.mono hlt, c2.mono hlt⟩⟩

end Lk

/-! ## Levels -/

/-- What a run of Borůvka's algorithm with `L` iterations on `n` vertices leaves behind: the edges
`0, …, m - 1`, those of iteration `k` being `off k, …, off (k + 1) - 1`; the component `lab k v` of
vertex `v` before iteration `k`; the edge `α k c` that component `c` chooses in iteration `k`. -/
structure Levels (n m : ℕ) {κ : Type} [LinearOrder κ] (src tgt : ℕ → ℕ) (key : ℕ → κ) (L : ℕ) (off : ℕ → ℕ)
    (lab : ℕ → ℕ → ℕ) (α : ℕ → ℕ → ℕ) : Prop where
  off_zero : off 0 = 0
  off_le : ∀ k < L, off k < off (k + 1)
  off_last : off L = m
  range : ∀ e < m, src e < n ∧ tgt e < n
  inj : ∀ e < m, ∀ f < m, key e = key f → e = f
  /-- at first every vertex is a component, in the end there is one component -/
  lab_zero : ∀ v < n, lab 0 v = v
  lab_last : ∀ u < n, ∀ v < n, lab L u = lab L v
  /-- components are merged -/
  coarse : ∀ k < L, ∀ u < n, ∀ v < n, lab k u = lab k v → lab (k + 1) u = lab (k + 1) v
  /-- the components are those joined by the edges of earlier iterations -/
  inside : ∀ k ≤ L, ∀ e < off k, lab k (src e) = lab k (tgt e)
  joined : ∀ k ≤ L, ∀ u < n, ∀ v < n, lab k u = lab k v → Lk m src tgt (fun e => e < off k) u v
  /-- the edge chosen is the smallest that leaves the component -/
  alpha_mem : ∀ k < L, ∀ v < n, off k ≤ α k (lab k v) ∧ α k (lab k v) < off (k + 1)
  alpha_cross : ∀ k < L, ∀ v < n,
    (lab k (src (α k (lab k v))) = lab k v ∧ lab k (tgt (α k (lab k v))) ≠ lab k v) ∨
    (lab k (tgt (α k (lab k v))) = lab k v ∧ lab k (src (α k (lab k v))) ≠ lab k v)
  alpha_min : ∀ k < L, ∀ v < n, ∀ f < m, lab k (src f) ≠ lab k (tgt f) →
    (lab k (src f) = lab k v ∨ lab k (tgt f) = lab k v) → key (α k (lab k v)) ≤ key f
  /-- every edge is chosen by a component at one of its ends -/
  alpha_onto : ∀ k < L, ∀ e, off k ≤ e → e < off (k + 1) → α k (lab k (src e)) = e ∨ α k (lab k (tgt e)) = e

namespace Levels

variable {n m : ℕ} {κ : Type} [LinearOrder κ] {src tgt : ℕ → ℕ} {key : ℕ → κ} {L : ℕ} {off : ℕ → ℕ}
  {lab : ℕ → ℕ → ℕ} {α : ℕ → ℕ → ℕ} (H : Levels n m src tgt key L off lab α)
include H

lemma off_mono {i j : ℕ} (hij : i ≤ j) (hj : j ≤ L) : off i ≤ off j := by
  induction j, hij using Nat.le_induction with
  | base => exact le_rfl
  | succ j _ ih => exact (ih (by omega)).trans (H.off_le j (by omega)).le

lemma off_le_m {i : ℕ} (hi : i ≤ L) : off i ≤ m := H.off_last ▸ H.off_mono hi le_rfl

lemma coarse' {i j : ℕ} (hij : i ≤ j) (hj : j ≤ L) {u v : ℕ} (hu : u < n) (hv : v < n) (h : lab i u = lab i v) :
    lab j u = lab j v := by
  induction j, hij using Nat.le_induction with
  | base => exact h
  | succ j _ ih => exact H.coarse j (by omega) u hu v hv (ih (by omega))

/-- The iteration of an edge. -/
lemma level {e : ℕ} (he : e < m) : ∃ k < L, off k ≤ e ∧ e < off (k + 1) := by
  have : ∀ k ≤ L, e < off k → ∃ k < L, off k ≤ e ∧ e < off (k + 1) := by
    intro k
    induction k with
    | zero => intro _ h; rw [H.off_zero] at h; omega
    | succ k ih =>
      intro h1 h2
      by_cases h3 : e < off k
      · exact ih (by omega) h3
      · exact ⟨k, by omega, by omega, h2⟩
  exact this L le_rfl (by rw [H.off_last]; exact he)

lemma alpha_lt {k v : ℕ} (hk : k < L) (hv : v < n) : α k (lab k v) < m :=
  lt_of_lt_of_le (H.alpha_mem k hk v hv).2 (H.off_le_m hk)

/-- An edge joins different components before its iteration. -/
lemma ends_ne {k e : ℕ} (hk : k < L) (h1 : off k ≤ e) (h2 : e < off (k + 1)) : lab k (src e) ≠ lab k (tgt e) := by
  have hm : e < m := lt_of_lt_of_le h2 (H.off_le_m hk)
  obtain ⟨hs, ht⟩ := H.range e hm
  rcases H.alpha_onto k hk e h1 h2 with h | h
  · have := H.alpha_cross k hk _ hs
    rw [h] at this
    rcases this with ⟨a, b⟩ | ⟨a, b⟩
    · exact b.symm
    · exact absurd rfl b
  · have := H.alpha_cross k hk _ ht
    rw [h] at this
    rcases this with ⟨a, b⟩ | ⟨a, b⟩
    · exact absurd rfl b
    · exact b

lemma inside_iff {k e : ℕ} (hk : k ≤ L) (he : e < m) : lab k (src e) = lab k (tgt e) ↔ e < off k := by
  refine ⟨fun h => ?_, fun h => H.inside k hk e h⟩
  obtain ⟨i, hi, h1, h2⟩ := H.level he
  by_contra hlt
  have hki : k ≤ i := by
    by_contra hik
    exact hlt (lt_of_lt_of_le h2 (H.off_mono (by omega) hk))
  obtain ⟨hs, ht⟩ := H.range e he
  exact H.ends_ne hi h1 h2 (H.coarse' hki hi.le hs ht h)

/-- Edges smaller than the edge chosen by a component do not leave it. -/
lemma below {k v : ℕ} (hk : k < L) (hv : v < n) {f : ℕ} (hf : f < m) (hlt : key f < key (α k (lab k v))) :
    lab k (src f) = lab k v ↔ lab k (tgt f) = lab k v := by
  constructor
  · intro h
    by_contra h'
    exact absurd (H.alpha_min k hk v hv f hf (fun e => h' (e ▸ h)) (.inl h)) (not_le.mpr hlt)
  · intro h
    by_contra h'
    exact absurd (H.alpha_min k hk v hv f hf (fun e => h' (e.trans h)) (.inr h)) (not_le.mpr hlt)

/-- `a` is an edge with an end in the component of `v` and one outside. -/
lemma alpha_end {k v : ℕ} (hk : k < L) (hv : v < n) : ∃ a < n, ∃ b < n, lab k a = lab k v ∧ lab k b ≠ lab k v ∧
    ((src (α k (lab k v)) = a ∧ tgt (α k (lab k v)) = b) ∨ (src (α k (lab k v)) = b ∧ tgt (α k (lab k v)) = a)) := by
  obtain ⟨hs, ht⟩ := H.range _ (H.alpha_lt hk hv)
  rcases H.alpha_cross k hk v hv with ⟨h1, h2⟩ | ⟨h1, h2⟩
  · exact ⟨_, hs, _, ht, h1, h2, .inl ⟨rfl, rfl⟩⟩
  · exact ⟨_, ht, _, hs, h1, h2, .inr ⟨rfl, rfl⟩⟩

/-- If two vertices of a component are not joined inside it by edges of key at most `t`, one of them
was in a smaller component that chose an edge of key above `t`. -/
lemma obstacle {k u v : ℕ} {t : κ} (hk : k ≤ L) (hu : u < n) (hv : v < n) (huv : lab k u = lab k v)
    (hno : ¬ Lk m src tgt (fun e => e < off k ∧ key e ≤ t) u v) :
    ∃ j < k, t < key (α j (lab j u)) ∨ t < key (α j (lab j v)) := by
  obtain ⟨h, hm, hp, ht, hc⟩ := bottleneck H.inj t _ (fun e => e < off k)
    ⟨Finset.range m, rfl, fun e he _ _ => Finset.mem_range.mpr he⟩ (H.joined k hk u hu v hv huv) hno
  obtain ⟨j, hj, h1, h2⟩ := H.level hm
  have hjk : j < k := by
    by_contra hjk
    have := H.off_mono (by omega : k ≤ j) hj.le
    omega
  obtain ⟨hs, htt⟩ := H.range h hm
  -- the component that chose `h` contains one side
  have side : ∀ z < n, α j (lab j z) = h → ∀ x < n, ∀ y, Lk m src tgt (fun e => e < off k ∧ key e < key h) x y →
      lab j y = lab j z → lab j x = lab j z := by
    intro z hz hα x hx y c hy
    refine (Lk.closed (S := fun x => lab j x = lab j z) ?_ c).mpr hy
    intro e he hpe
    exact H.below hj hz he (by rw [hα]; exact hpe.2)
  refine ⟨j, hjk, ?_⟩
  rcases hc with ⟨c1, c2⟩ | ⟨c1, c2⟩ <;> rcases H.alpha_onto j hj h h1 h2 with e | e
  · left; rw [side _ hs e u hu _ c1 rfl, e]; exact ht
  · right; rw [side _ htt e v hv _ c2.symm rfl, e]; exact ht
  · right; rw [side _ hs e v hv _ c2.symm rfl, e]; exact ht
  · left; rw [side _ htt e u hu _ c1 rfl, e]; exact ht

end Levels

/-- The chain of edge `e` is that of its component before iteration `k` (the root chain if `k` is
the number of iterations): the first component that contains `e` and chooses a larger edge. -/
structure Top {κ : Type} [LinearOrder κ] (src : ℕ → ℕ) (key : ℕ → κ) (L : ℕ) (off : ℕ → ℕ)
    (lab : ℕ → ℕ → ℕ) (α : ℕ → ℕ → ℕ) (e k : ℕ) : Prop where
  le : k ≤ L
  lt : e < off k
  above : k < L → key e < key (α k (lab k (src e)))
  first : ∀ i < k, e < off i → key (α i (lab i (src e))) < key e

namespace Levels

variable {n m : ℕ} {κ : Type} [LinearOrder κ] {src tgt : ℕ → ℕ} {key : ℕ → κ} {L : ℕ} {off : ℕ → ℕ}
  {lab : ℕ → ℕ → ℕ} {α : ℕ → ℕ → ℕ} (H : Levels n m src tgt key L off lab α)
include H

lemma key_ne {k e v : ℕ} (hk : k < L) (he : e < off k) (hv : v < n) : key e ≠ key (α k (lab k v)) := by
  intro h
  have h1 := (H.alpha_mem k hk v hv).1
  have := H.inj _ (lt_of_lt_of_le he (H.off_le_m hk.le)) _ (H.alpha_lt hk hv) h
  omega

omit H in
lemma top_unique {e k k' : ℕ} (h : Top src key L off lab α e k) (h' : Top src key L off lab α e k') : k = k' := by
  rcases lt_trichotomy k k' with hlt | rfl | hlt
  · exact absurd (h.above (lt_of_lt_of_le hlt h'.le)) (not_lt.mpr (h'.first k hlt h.lt).le)
  · rfl
  · exact absurd (h'.above (lt_of_lt_of_le hlt h.le)) (not_lt.mpr (h.first k' hlt h'.lt).le)

/-- In its own iteration's component: the chain starts here or later. -/
lemma top_or {i e : ℕ} (hi : i < L) (h1 : off i ≤ e) (h2 : e < off (i + 1)) :
    Top src key L off lab α e (i + 1) ∨
      (i + 1 < L ∧ key (α (i + 1) (lab (i + 1) (src e))) < key e) := by
  have hm : e < m := lt_of_lt_of_le h2 (H.off_le_m hi)
  by_cases hL : i + 1 < L
  · rcases lt_or_gt_of_ne (H.key_ne hL h2 (H.range e hm).1) with h | h
    · exact .inl ⟨hi, h2, fun _ => h, fun j hj he => absurd he (not_lt.mpr ((H.off_mono (by omega : j ≤ i) hi.le).trans h1))⟩
    · exact .inr ⟨hL, h⟩
  · exact .inl ⟨hi, h2, fun h => absurd h hL, fun j hj he => absurd he (not_lt.mpr ((H.off_mono (by omega : j ≤ i) hi.le).trans h1))⟩

lemma top_obstacle {e k j : ℕ} {t : κ} (h : Top src key L off lab α e k) (hj : j < k) (het : key e ≤ t) :
    ¬ t < key (α j (lab j (src e))) := by
  intro hlt
  have hm : e < m := lt_of_lt_of_le h.lt (H.off_le_m h.le)
  have hjL : j < L := lt_of_lt_of_le hj h.le
  have hke := lt_of_le_of_lt het hlt
  have := (H.below hjL (H.range e hm).1 hm hke).mp rfl
  have hin := (H.inside_iff hjL.le hm).mp this.symm
  exact absurd (h.first j hj hin) (not_lt.mpr hke.le)

/-- Two edges of one chain are joined by edges not larger than the larger one. -/
lemma chain_joined {e f k : ℕ} {t : κ} (he : Top src key L off lab α e k) (hf : Top src key L off lab α f k)
    (hlab : lab k (src e) = lab k (src f)) (het : key e ≤ t) (hft : key f ≤ t) :
    Lk m src tgt (fun e => e < off k ∧ key e ≤ t) (src e) (src f) := by
  by_contra hno
  have hem : e < m := lt_of_lt_of_le he.lt (H.off_le_m he.le)
  have hfm : f < m := lt_of_lt_of_le hf.lt (H.off_le_m hf.le)
  obtain ⟨j, hj, h | h⟩ := H.obstacle he.le (H.range e hem).1 (H.range f hfm).1 hlab hno
  · exact H.top_obstacle he hj het h
  · exact H.top_obstacle hf hj hft h

/-- An edge of a chain and the edge chosen by the component of the chain are joined by edges not
larger than the latter. -/
lemma alpha_joined {e k : ℕ} (hk : k < L) (he : Top src key L off lab α e k) :
    Lk m src tgt (fun f => key f ≤ key (α k (lab k (src e)))) (src e) (src (α k (lab k (src e)))) := by
  have hem : e < m := lt_of_lt_of_le he.lt (H.off_le_m he.le)
  have hes := (H.range e hem).1
  obtain ⟨a, ha, b, hb, h1, h2, hab⟩ := H.alpha_end hk hes
  set A := α k (lab k (src e)) with hA
  have hAm : A < m := H.alpha_lt hk hes
  have hc : Lk m src tgt (fun f => key f ≤ key A) (src e) a := by
    by_contra hno
    obtain ⟨j, hj, h | h⟩ := H.obstacle (t := key A) hk.le hes ha h1.symm
      (fun c => hno (c.mono (fun f _ hf => hf.2)))
    · exact H.top_obstacle he hj (he.above hk).le h
    · have hjL : j < L := by omega
      have hne : lab j a ≠ lab j b := fun e => h2 ((H.coarse' hj.le hk.le ha hb e).symm.trans h1)
      refine absurd (H.alpha_min j hjL a ha A hAm ?_ ?_) (not_le.mpr h)
      · rcases hab with ⟨x, y⟩ | ⟨x, y⟩
        · rw [x, y]; exact hne
        · rw [x, y]; exact hne.symm
      · rcases hab with ⟨x, y⟩ | ⟨x, y⟩
        · left; rw [x]
        · right; rw [y]
  rcases hab with ⟨x, y⟩ | ⟨x, y⟩
  · rw [x]; exact hc
  · refine hc.trans ?_
    rw [← y]
    exact (Lk.edge (p := fun f => key f ≤ key A) hAm le_rfl).symm

/-- An edge chosen by both its components is the smallest of its chain. -/
lemma mutual_least {i k p q : ℕ} (hi : i < L) (h1 : off i ≤ p) (h2 : p < off (i + 1))
    (hs : α i (lab i (src p)) = p) (ht : α i (lab i (tgt p)) = p)
    (hp : Top src key L off lab α p k) (hq : Top src key L off lab α q k)
    (hlab : lab k (src p) = lab k (src q)) (hne : q ≠ p) : key p < key q := by
  have hpm : p < m := lt_of_lt_of_le hp.lt (H.off_le_m hp.le)
  have hqm : q < m := lt_of_lt_of_le hq.lt (H.off_le_m hq.le)
  rcases lt_trichotomy (key p) (key q) with h | h | h
  · exact h
  · exact absurd (H.inj _ hpm _ hqm h).symm hne
  exfalso
  have hik : i < k := by
    by_contra hki
    have := H.off_mono (by omega : k ≤ i) hi.le
    have := hp.lt
    omega
  obtain ⟨ps, pt⟩ := H.range p hpm
  have c := H.chain_joined hp hq hlab le_rfl h.le
  have hS : lab i (src q) = lab i (src p) ∨ lab i (src q) = lab i (tgt p) := by
    refine (Lk.closed (S := fun x => lab i x = lab i (src p) ∨ lab i x = lab i (tgt p)) ?_ c).mp (.inl rfl)
    rintro e he ⟨-, hle⟩
    by_cases hep : e = p
    · subst hep; exact ⟨fun _ => .inr rfl, fun _ => .inl rfl⟩
    · have hlt : key e < key p := lt_of_le_of_ne hle (fun h => hep (H.inj _ he _ hpm h))
      exact or_congr (H.below hi ps he (by rw [hs]; exact hlt)) (H.below hi pt he (by rw [ht]; exact hlt))
  have hα : α i (lab i (src q)) = p := by
    rcases hS with e | e
    · rw [e, hs]
    · rw [e, ht]
  exact H.top_obstacle hq hik le_rfl (by rw [hα]; exact h)

end Levels

end ArborX.Hdbscan
