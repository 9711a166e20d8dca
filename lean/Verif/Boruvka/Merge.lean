import Verif.Boruvka.Model
import Mathlib.Data.Finset.Card
import Mathlib.Data.Finset.Filter
import Mathlib.Order.Interval.Finset.Nat
import Mathlib.Data.Finset.Range
import Mathlib.Logic.Function.Iterate
import Mathlib.Tactic.Linarith

/-!
# Merging components along their edges (lemmas)

`rep C`: `C` is a component; `N C` is the component its edge leads to; `key C` orders the edges.
-/

namespace ArborX.Boruvka

open Function (update)
open Mst (DirectedEdge)

variable {κ : Type} [LinearOrder κ]

/-- The edges of the components: they leave the component, and going along them the keys decrease
until two components point at each other. -/
structure Chain (n : ℕ) (rep : ℕ → Prop) (N : ℕ → ℕ) (key : ℕ → κ) : Prop where
  lt : ∀ c, rep c → c < n
  closed : ∀ c, rep c → rep (N c)
  ne : ∀ c, rep c → N c ≠ c
  le : ∀ c, rep c → key (N c) ≤ key c
  strict : ∀ c, rep c → N (N c) ≠ c → key (N c) < key c

/-- `computeNextComponent` on labels that do not change. -/
def nextOf (N : ℕ → ℕ) (c : ℕ) : ℕ := resolve c (N c) (N (N c))

/-- The component where the walk from `c` ends. -/
def fin (n : ℕ) (N : ℕ → ℕ) (c : ℕ) : ℕ := (nextOf N)^[n] c

namespace Chain

variable {n : ℕ} {rep : ℕ → Prop} {N : ℕ → ℕ} {key : ℕ → κ}

lemma nextOf_cases (c : ℕ) : nextOf N c = N c ∨ (nextOf N c = c ∧ N (N c) = c ∧ c ≤ N c) := by
  unfold nextOf resolve
  split_ifs with h
  · exact .inl rfl
  · rcases le_total c (N c) with h' | h'
    · exact .inr ⟨min_eq_left h', not_not.mp h, h'⟩
    · exact .inl (min_eq_right h')

lemma next_rep (h : Chain n rep N key) {c : ℕ} (hc : rep c) : rep (nextOf N c) := by
  rcases nextOf_cases (N := N) c with e | ⟨e, -⟩
  · rw [e]; exact h.closed c hc
  · rw [e]; exact hc

/-- A component at which the walk stops: the smaller one of two that point at each other. -/
lemma fixed (h : Chain n rep N key) {c : ℕ} (hc : rep c) (e : nextOf N c = c) : N (N c) = c ∧ c < N c := by
  rcases nextOf_cases (N := N) c with e' | ⟨-, e1, e2⟩
  · exact absurd (e'.symm.trans e) (h.ne c hc)
  · exact ⟨e1, lt_of_le_of_ne e2 (h.ne c hc).symm⟩

lemma next_lt (h : Chain n rep N key) {c : ℕ} (hc : rep c) (hne : nextOf N c ≠ c) :
    nextOf N c = N c ∧ (key (N c) < key c ∨ (key (N c) = key c ∧ N c < c)) := by
  by_cases hb : N (N c) = c
  · have e : nextOf N c = min c (N c) := by unfold nextOf resolve; rw [if_neg (not_not.mpr hb)]
    have hlt : N c < c := by
      by_contra hge
      exact hne (e.trans (min_eq_left (not_lt.mp hge)))
    refine ⟨e.trans (min_eq_right hlt.le), ?_⟩
    rcases lt_or_eq_of_le (h.le c hc) with h1 | h1
    · exact .inl h1
    · exact .inr ⟨h1, hlt⟩
  · have e : nextOf N c = N c := by unfold nextOf resolve; rw [if_pos hb]
    exact ⟨e, .inl (h.strict c hc hb)⟩

open Classical in
/-- Position of a component in the order by edge, then by number. -/
noncomputable def rank (n : ℕ) (rep : ℕ → Prop) (key : ℕ → κ) (c : ℕ) : ℕ :=
  ((Finset.range n).filter (fun d => rep d ∧ (key d < key c ∨ (key d = key c ∧ d < c)))).card

lemma rank_lt (h : Chain n rep N key) {c : ℕ} (hc : rep c) : rank n rep key c < n := by
  classical
  unfold rank
  have : (Finset.range n).filter (fun d => rep d ∧ (key d < key c ∨ (key d = key c ∧ d < c))) ⊂ Finset.range n := by
    rw [Finset.ssubset_iff_of_subset (Finset.filter_subset _ _)]
    exact ⟨c, Finset.mem_range.mpr (h.lt c hc), by simp⟩
  have := Finset.card_lt_card this
  rwa [Finset.card_range] at this

lemma rank_mono (h : Chain n rep N key) {c d : ℕ} (hd : rep d) (hlt : key d < key c ∨ (key d = key c ∧ d < c)) :
    rank n rep key d < rank n rep key c := by
  classical
  unfold rank
  apply Finset.card_lt_card
  rw [Finset.ssubset_iff_of_subset]
  · refine ⟨d, Finset.mem_filter.mpr ⟨Finset.mem_range.mpr (h.lt d hd), hd, hlt⟩, ?_⟩
    intro hm
    obtain ⟨-, -, h1 | h1⟩ := Finset.mem_filter.mp hm
    · exact lt_irrefl _ h1
    · exact lt_irrefl _ h1.2
  · intro x hx
    obtain ⟨h0, h1, h2⟩ := Finset.mem_filter.mp hx
    refine Finset.mem_filter.mpr ⟨h0, h1, ?_⟩
    rcases h2 with h2 | ⟨h2, h2'⟩ <;> rcases hlt with h3 | ⟨h3, h3'⟩
    · exact .inl (h2.trans h3)
    · exact .inl (h3 ▸ h2)
    · exact .inl (h2 ▸ h3)
    · exact .inr ⟨h2.trans h3, h2'.trans h3'⟩

lemma next_rank (h : Chain n rep N key) {c : ℕ} (hc : rep c) (hne : nextOf N c ≠ c) :
    rank n rep key (nextOf N c) < rank n rep key c := by
  obtain ⟨e, hlt⟩ := h.next_lt hc hne
  rw [e]
  exact h.rank_mono (h.closed c hc) hlt

lemma iter_rep (h : Chain n rep N key) {c : ℕ} (hc : rep c) (k : ℕ) : rep ((nextOf N)^[k] c) := by
  induction k with
  | zero => exact hc
  | succ k ih => rw [Function.iterate_succ_apply']; exact h.next_rep ih

lemma iter_fixed (h : Chain n rep N key) {c : ℕ} (hc : rep c) (k : ℕ) :
    nextOf N ((nextOf N)^[k] c) = (nextOf N)^[k] c ∨ rank n rep key ((nextOf N)^[k] c) + k ≤ rank n rep key c := by
  induction k with
  | zero => right; simp
  | succ k ih =>
    rw [Function.iterate_succ_apply']
    rcases ih with ih | ih
    · left; rw [ih]; exact ih
    · by_cases hf : nextOf N ((nextOf N)^[k] c) = (nextOf N)^[k] c
      · left; rw [hf]; exact hf
      · right
        have := h.next_rank (h.iter_rep hc k) hf
        omega

lemma fin_rep (h : Chain n rep N key) {c : ℕ} (hc : rep c) : rep (fin n N c) := h.iter_rep hc n

lemma fin_fixed (h : Chain n rep N key) {c : ℕ} (hc : rep c) : nextOf N (fin n N c) = fin n N c := by
  rcases h.iter_fixed hc n with e | e
  · exact e
  · have := h.rank_lt hc
    omega

lemma fin_next (h : Chain n rep N key) {c : ℕ} (hc : rep c) : fin n N (nextOf N c) = fin n N c := by
  have := h.fin_fixed hc
  unfold fin at *
  rw [← Function.iterate_succ_apply, Function.iterate_succ_apply', this]

lemma fin_of_fixed {c : ℕ} (e : nextOf N c = c) : fin n N c = c := Function.iterate_fixed e n

lemma fin_rank (h : Chain n rep N key) {c : ℕ} (hc : rep c) (hne : fin n N c ≠ c) :
    rank n rep key (fin n N c) < rank n rep key c := by
  have key' : ∀ k, (nextOf N)^[k] c = c ∨ rank n rep key ((nextOf N)^[k] c) < rank n rep key c := by
    intro k
    induction k with
    | zero => exact .inl rfl
    | succ k ih =>
      rw [Function.iterate_succ_apply']
      by_cases hf : nextOf N ((nextOf N)^[k] c) = (nextOf N)^[k] c
      · rw [hf]; exact ih
      · right
        have := h.next_rank (h.iter_rep hc k) hf
        rcases ih with ih | ih
        · rw [ih] at this ⊢; exact this
        · exact this.trans ih
  exact (key' n).resolve_left hne

/-- The walk with labels that are partly replaced: whatever mixture of old and final labels is
read, the next component is the regular one or the final one. -/
lemma resolve_spec (h : Chain n rep N key) {c nx nn : ℕ} (hc : rep c) (hnx : nx = N c ∨ nx = fin n N c)
    (hnn : nn = N nx ∨ nn = fin n N c) :
    resolve c nx nn = nextOf N c ∨ resolve c nx nn = fin n N c := by
  have hr := h.fin_rep hc
  obtain ⟨f1, f2⟩ := h.fixed hr (h.fin_fixed hc)
  set r := fin n N c with hrd
  rcases hnx with rfl | rfl
  · rcases hnn with rfl | rfl
    · exact .inl rfl
    · by_cases hrc : r = c
      · right
        unfold resolve
        rw [if_neg (not_not.mpr hrc)]
        rw [hrc] at f2
        rw [min_eq_left f2.le, hrc]
      · left
        unfold resolve
        rw [if_pos hrc]
        have hne : nextOf N c ≠ c := fun e => hrc (fin_of_fixed e)
        exact (h.next_lt hc hne).1.symm
  · right
    unfold resolve
    split_ifs with hn
    · rfl
    · have hn := not_not.mp hn
      rcases hnn with e | e
      · rw [e] at hn
        rw [hn] at f2
        exact min_eq_right f2.le
      · rw [← hn, e, min_self]

end Chain

/-! ## The kernel that updates the labels -/

section

variable {W : Type} [LinearOrder W] [BoundedOrder W]

/-- Labels are numbers of components, and a component carries its own number. -/
structure Labelling (n : ℕ) (lab : ℕ → ℤ) : Prop where
  nonneg : ∀ i < n, 0 ≤ lab i
  lt : ∀ i < n, comp lab i < n
  idem : ∀ i < n, lab (comp lab i) = lab i

namespace Labelling

variable {n : ℕ} {lab : ℕ → ℤ} (h : Labelling n lab)
include h

lemma cast {i : ℕ} (hi : i < n) : (comp lab i : ℤ) = lab i := by
  have := h.nonneg i hi
  unfold comp
  omega

lemma comp_eq {i j : ℕ} (hi : i < n) (hj : j < n) : comp lab i = comp lab j ↔ lab i = lab j := by
  rw [← h.cast hi, ← h.cast hj]
  exact Nat.cast_inj.symm

lemma comp_idem {i : ℕ} (hi : i < n) : comp lab (comp lab i) = comp lab i := by
  have := h.idem i hi
  unfold comp at *
  rw [this]

end Labelling

/-- `C` is the number of a component. -/
def Rep (n : ℕ) (lab : ℕ → ℤ) (c : ℕ) : Prop := c < n ∧ comp lab c = c

/-- The component the edge of `c` leads to. -/
def nbr (lab : ℕ → ℤ) (out : ℕ → DirectedEdge W) (c : ℕ) : ℕ := comp lab (out c).target

lemma seen_mem {α : Type} (cur : α) (past : List α) (k : ℕ) : seen cur past k = cur ∨ seen cur past k ∈ past := by
  unfold seen
  cases h : past[k]? with
  | none => exact .inl rfl
  | some x => exact .inr (List.mem_of_getElem? h)

/-- State of a thread of the kernel. -/
def UpdOk (n : ℕ) (lab : ℕ → ℤ) (out : ℕ → DirectedEdge W) (t : ℕ) : TU → Prop
  | .start => True
  | .first c => Rep n lab c ∧ fin n (nbr lab out) c = fin n (nbr lab out) (comp lab t)
  | .second c nx => Rep n lab c ∧ fin n (nbr lab out) c = fin n (nbr lab out) (comp lab t) ∧
      (nx = nbr lab out c ∨ nx = fin n (nbr lab out) c)
  | .write r => r = fin n (nbr lab out) (comp lab t)
  | .done => True
  | .fault => False

structure UpdInv (n : ℕ) (lab : ℕ → ℤ) (out : ℕ → DirectedEdge W) (s : Upd) : Prop where
  ok : ∀ t < n, UpdOk n lab out t (s.thr t)
  old : ∀ t < n, s.thr t ≠ .done → s.lab t = lab t
  new : ∀ t < n, s.thr t = .done → s.lab t = (fin n (nbr lab out) (comp lab t) : ℕ)
  fresh : ∀ t < n, s.thr t ≠ .done → s.past t = []
  past : ∀ t < n, ∀ x ∈ s.past t, x = lab t

variable {n : ℕ} {lab : ℕ → ℤ} {out : ℕ → DirectedEdge W} {key : ℕ → κ}

omit [LinearOrder W] [BoundedOrder W] in
lemma UpdInv.read {s : Upd} (h : UpdInv n lab out s) {j : ℕ} (hj : j < n) (k : ℕ) :
    s.load j k = comp lab j ∨ s.load j k = fin n (nbr lab out) (comp lab j) := by
  unfold Upd.load
  rcases seen_mem (s.lab j) (s.past j) k with e | e
  · rw [e]
    by_cases hd : s.thr j = .done
    · right; rw [h.new j hj hd]; simp
    · left; rw [h.old j hj hd]; rfl
  · left; rw [h.past j hj _ e]; rfl

/-- Steps a thread still needs. -/
noncomputable def updRank (n : ℕ) (lab : ℕ → ℤ) (key : ℕ → κ) : TU → ℕ
  | .start => 2 * n + 4
  | .first c => 2 * Chain.rank n (Rep n lab) key c + 3
  | .second c _ => 2 * Chain.rank n (Rep n lab) key c + 2
  | .write _ => 1
  | .done => 0
  | .fault => 0

omit [LinearOrder W] [BoundedOrder W] in
/-- One step of a thread. -/
lemma UpdInv.step (hl : Labelling n lab) (hc : Chain n (Rep n lab) (nbr lab out) key)
    (ht : ∀ c, Rep n lab c → (out c).target < n) {s : Upd} (h : UpdInv n lab out s) (t k : ℕ) :
    UpdInv n lab out (updStep n out s (t, k)) ∧
      (∀ u, u ≠ t → (updStep n out s (t, k)).thr u = s.thr u) ∧
      (t < n → updRank n lab key ((updStep n out s (t, k)).thr t) < updRank n lab key (s.thr t) ∨ s.thr t = .done) := by
  by_cases htn : n ≤ t
  · have e : updStep n out s (t, k) = s := by unfold updStep; exact if_pos htn
    rw [e]
    exact ⟨h, fun _ _ => rfl, fun hh => by omega⟩
  have htn' : t < n := by omega
  -- a step that only changes the state of the thread
  have pure : ∀ ts : TU, UpdOk n lab out t ts → ts ≠ .done → s.thr t ≠ .done →
      UpdInv n lab out { s with thr := update s.thr t ts } := by
    intro ts hok hne hnd
    refine ⟨?_, ?_, ?_, ?_, h.past⟩
    · intro u hu
      by_cases e : u = t
      · subst e; dsimp only; rw [Function.update_self]; exact hok
      · dsimp only; rw [Function.update_of_ne e]; exact h.ok u hu
    · intro u hu
      by_cases e : u = t
      · subst e; intro _; exact h.old u hu hnd
      · dsimp only; rw [Function.update_of_ne e]; exact h.old u hu
    · intro u hu
      by_cases e : u = t
      · subst e; dsimp only; rw [Function.update_self]; intro e; exact absurd e hne
      · dsimp only; rw [Function.update_of_ne e]; exact h.new u hu
    · intro u hu
      by_cases e : u = t
      · subst e; intro _; exact h.fresh u hu hnd
      · dsimp only; rw [Function.update_of_ne e]; exact h.fresh u hu
  have repc : Rep n lab (comp lab t) := ⟨hl.lt t htn', hl.comp_idem htn'⟩
  unfold updStep
  dsimp only
  rw [if_neg htn]
  have hok := h.ok t htn'
  cases hts : s.thr t with
  | start =>
    have e : s.load t k = comp lab t := by
      unfold Upd.load; rw [h.fresh t htn' (by rw [hts]; simp), h.old t htn' (by rw [hts]; simp)]; rfl
    dsimp only
    rw [e]
    refine ⟨pure _ ⟨repc, rfl⟩ (by simp) (by rw [hts]; simp), fun u hu => Function.update_of_ne hu _ _, fun _ => .inl ?_⟩
    rw [Function.update_self]
    have := hc.rank_lt repc
    simp only [updRank]
    omega
  | first c =>
    rw [hts] at hok
    obtain ⟨hr, hf⟩ := hok
    have htg := ht c hr
    dsimp only
    rw [if_neg (by omega)]
    refine ⟨pure _ ⟨hr, hf, ?_⟩ (by simp) (by rw [hts]; simp), fun u hu => Function.update_of_ne hu _ _, fun _ => .inl ?_⟩
    · rcases h.read htg k with e | e
      · exact .inl e
      · right
        rw [e]
        change fin n (nbr lab out) (nbr lab out c) = _
        rcases Chain.nextOf_cases (N := nbr lab out) c with e1 | ⟨e1, e2, e3⟩
        · rw [← e1]; exact hc.fin_next hr
        · -- c is final, its neighbour leads back
          have hlt := (hc.fixed hr e1).2
          have e4 : nextOf (nbr lab out) (nbr lab out c) = c := by
            unfold nextOf resolve
            rw [e2, if_neg (by simp), min_eq_right hlt.le]
          rw [← hc.fin_next (hc.closed c hr), e4]
    · dsimp only; rw [Function.update_self]; simp only [updRank]; omega
  | second c nx =>
    rw [hts] at hok
    obtain ⟨hr, hf, hnx⟩ := hok
    have hrn : Rep n lab nx := by
      rcases hnx with rfl | rfl
      · exact hc.closed c hr
      · exact hc.fin_rep hr
    have hfn : fin n (nbr lab out) nx = fin n (nbr lab out) c := by
      rcases hnx with rfl | rfl
      · rcases Chain.nextOf_cases (N := nbr lab out) c with e1 | ⟨e1, e2, e3⟩
        · rw [← e1]; exact hc.fin_next hr
        · have hlt := (hc.fixed hr e1).2
          have e4 : nextOf (nbr lab out) (nbr lab out c) = c := by
            unfold nextOf resolve
            rw [e2, if_neg (by simp), min_eq_right hlt.le]
          rw [← hc.fin_next (hc.closed c hr), e4]
      · exact Chain.fin_of_fixed (hc.fin_fixed hr)
    have hfnn : fin n (nbr lab out) (nbr lab out nx) = fin n (nbr lab out) c := by
      rw [← hfn]
      rcases Chain.nextOf_cases (N := nbr lab out) nx with e1 | ⟨e1, e2, e3⟩
      · rw [← e1]; exact hc.fin_next hrn
      · have hlt := (hc.fixed hrn e1).2
        have e4 : nextOf (nbr lab out) (nbr lab out nx) = nx := by
          unfold nextOf resolve
          rw [e2, if_neg (by simp), min_eq_right hlt.le]
        rw [← hc.fin_next (hc.closed nx hrn), e4]
    have htg := ht nx hrn
    dsimp only
    rw [if_neg (by omega)]
    have hnn : s.load (out nx).target k = nbr lab out nx ∨ s.load (out nx).target k = fin n (nbr lab out) c := by
      rcases h.read htg k with e | e
      · exact .inl e
      · right; rw [e]; exact hfnn
    have hres := hc.resolve_spec hr hnx hnn
    generalize hnext : resolve c nx (s.load (out nx).target k) = next at hres ⊢
    have hrep : Rep n lab next := by
      rcases hres with e | e
      · rw [e]; exact hc.next_rep hr
      · rw [e]; exact hc.fin_rep hr
    have hfin : fin n (nbr lab out) next = fin n (nbr lab out) c := by
      rcases hres with e | e
      · rw [e]; exact hc.fin_next hr
      · rw [e]; exact Chain.fin_of_fixed (hc.fin_fixed hr)
    by_cases hne : next = c
    · have hcf : next = fin n (nbr lab out) c := by
        rcases hres with e | e
        · rw [hne]; exact (Chain.fin_of_fixed (e.symm.trans hne)).symm
        · exact e
      rw [if_neg (not_not.mpr hne)]
      refine ⟨pure _ (hcf.trans hf) (by simp) (by rw [hts]; simp), fun u hu => Function.update_of_ne hu _ _, fun _ => .inl ?_⟩
      dsimp only; rw [Function.update_self]; simp only [updRank]; omega
    · rw [if_pos hne]
      refine ⟨pure _ ⟨hrep, hfin.trans hf⟩ (by simp) (by rw [hts]; simp), fun u hu => Function.update_of_ne hu _ _, fun _ => .inl ?_⟩
      dsimp only
      rw [Function.update_self]
      have : Chain.rank n (Rep n lab) key next < Chain.rank n (Rep n lab) key c := by
        rcases hres with e | e
        · rw [e]; exact hc.next_rank hr (by rw [← e]; exact hne)
        · rw [e]; exact hc.fin_rank hr (by rw [← e]; exact hne)
      simp only [updRank]; omega
  | write r =>
    rw [hts] at hok
    dsimp only
    refine ⟨⟨?_, ?_, ?_, ?_, ?_⟩, fun u hu => Function.update_of_ne hu _ _, fun _ => .inl ?_⟩
    · intro u hu
      by_cases e : u = t
      · subst e; dsimp only; rw [Function.update_self]; trivial
      · dsimp only; rw [Function.update_of_ne e]; exact h.ok u hu
    · intro u hu
      by_cases e : u = t
      · subst e; dsimp only; rw [Function.update_self]; intro hh; exact absurd rfl hh
      · dsimp only; rw [Function.update_of_ne e, Function.update_of_ne e]; exact h.old u hu
    · intro u hu
      by_cases e : u = t
      · subst e; dsimp only; rw [Function.update_self]; intro _
        have : r = fin n (nbr lab out) (comp lab u) := hok
        rw [Function.update_self, this]
      · dsimp only; rw [Function.update_of_ne e, Function.update_of_ne e]; exact h.new u hu
    · intro u hu
      by_cases e : u = t
      · subst e; dsimp only; rw [Function.update_self]; intro hh; exact absurd rfl hh
      · dsimp only; rw [Function.update_of_ne e, Function.update_of_ne e]; exact h.fresh u hu
    · intro u hu
      by_cases e : u = t
      · subst e; dsimp only; rw [Function.update_self]
        intro x hx
        rcases List.mem_cons.mp hx with rfl | hx
        · exact h.old u hu (by rw [hts]; simp)
        · exact h.past u hu x hx
      · dsimp only; rw [Function.update_of_ne e]; exact h.past u hu
    · rw [Function.update_self]; simp [updRank]
  | done =>
    dsimp only
    exact ⟨h, fun _ _ => rfl, fun _ => .inr rfl⟩
  | fault =>
    rw [hts] at hok
    exact hok.elim

omit [LinearOrder W] [BoundedOrder W] in
/-- The kernel: no access out of bounds, the final labels, and every thread returns after at most
`2 n + 4` steps of its own. -/
lemma updateLabels_spec (hl : Labelling n lab) (hc : Chain n (Rep n lab) (nbr lab out) key)
    (ht : ∀ c, Rep n lab c → (out c).target < n) (sched : List (ℕ × ℕ)) :
    UpdInv n lab out (updateLabels n lab out sched) ∧
      ∀ t < n, 2 * n + 4 ≤ (sched.map (·.1)).count t → (updateLabels n lab out sched).thr t = .done := by
  have main : ∀ (sched : List (ℕ × ℕ)) (s : Upd), UpdInv n lab out s →
      UpdInv n lab out (sched.foldl (updStep n out) s) ∧
      ∀ t < n, (sched.foldl (updStep n out) s).thr t = .done ∨
        updRank n lab key ((sched.foldl (updStep n out) s).thr t) + (sched.map (·.1)).count t ≤ updRank n lab key (s.thr t) := by
    intro sched
    induction sched with
    | nil => intro s hs; exact ⟨hs, fun t _ => .inr (by simp)⟩
    | cons x sched ih =>
      obtain ⟨u, k⟩ := x
      intro s hs
      obtain ⟨i1, i2, i3⟩ := hs.step hl hc ht u k
      obtain ⟨j1, j2⟩ := ih _ i1
      rw [List.foldl_cons]
      refine ⟨j1, fun t htn => ?_⟩
      rcases j2 t htn with j | j
      · exact .inl j
      · by_cases e : t = u
        · subst e
          rcases i3 htn with k | hk
          · right; rw [List.map_cons, List.count_cons_self]; omega
          · -- already done
            left
            have e0 : (updStep n out s (t, k)).thr t = .done := by
              unfold updStep
              dsimp only
              rw [if_neg (by omega), hk]; exact hk
            rw [e0] at j
            have e1 : updRank n lab key TU.done = 0 := rfl
            rw [e1] at j
            have hz : updRank n lab key ((sched.foldl (updStep n out) (updStep n out s (t, k))).thr t) = 0 := by omega
            have hok := j1.ok t htn
            generalize (sched.foldl (updStep n out) (updStep n out s (t, k))).thr t = x at hz hok ⊢
            cases x <;> simp_all [updRank, UpdOk]
        · right
          rw [i2 t e] at j
          rw [List.map_cons, List.count_cons_of_ne (Ne.symm e)]
          exact j
  have init : UpdInv n lab out ⟨lab, fun _ => [], fun _ => .start⟩ :=
    ⟨fun _ _ => trivial, fun _ _ _ => rfl, (fun _ _ h => by cases h), (fun _ _ _ => rfl), (fun _ _ _ h => by cases h)⟩
  obtain ⟨k1, k2⟩ := main sched _ init
  refine ⟨k1, fun t htn hcnt => ?_⟩
  rcases k2 t htn with h | h
  · exact h
  · unfold updateLabels
    have hok := k1.ok t htn
    generalize (sched.foldl (updStep n out) ⟨lab, fun _ => [], fun _ => .start⟩).thr t = x at h hok ⊢
    simp only [updRank] at h
    cases x <;> simp_all [updRank, UpdOk] <;> omega

end

end ArborX.Boruvka
