import Verif.Heap.Lemmas

/-!
# Property C13: priority queue and heap sort
-/

namespace ArborX.Heap

variable {T : Type} {comp : T → T → Bool}

/-- `push` never fails below the capacity, keeps the heap and adds exactly `v`. -/
theorem push_correct (sw : StrictWeak comp) {cap : ℕ} {c : List T} (v : T)
    (h : IsHeap comp c c.length) (hc : c.length < cap) :
    ∃ r, push comp cap c v = some r ∧ IsHeap comp r r.length ∧ r.Perm (v :: c) := by
  have h' : IsHeap comp (c ++ [v]) c.length := by
    intro p k x y hk hkn hx hy
    have hp : p < c.length := by unfold Child at hk; omega
    rw [List.getElem?_append_left hp] at hx
    rw [List.getElem?_append_left hkn] at hy
    exact h p k x y hk hkn hx hy
  obtain ⟨r, r1, r2, r3, -⟩ := pushHeap_spec sw (a := c ++ [v]) (n := c.length) (by simp) h'
  have hl : r.length = c.length + 1 := by simpa using r3.length_eq
  refine ⟨r, by simp [push, hc, r1], by rw [hl]; exact r2, r3.trans ?_⟩
  exact List.perm_append_singleton v c

/-- `push` on a full container is the only failure of `push`. -/
theorem push_full {cap : ℕ} {c : List T} (v : T) (hc : cap ≤ c.length) :
    push comp cap c v = none := by
  simp [push]; omega

/-- `pop` removes exactly one copy of the element `top` reports, which is a maximum. -/
theorem pop_correct (sw : StrictWeak comp) {c : List T} (h : IsHeap comp c c.length) (hc : c ≠ []) :
    ∃ t r, top c = some t ∧ (∀ x ∈ c, comp t x = false) ∧ pop comp c = some r ∧
      IsHeap comp r r.length ∧ (t :: r).Perm c := by
  obtain ⟨n, hn⟩ : ∃ n, c.length = n + 1 := ⟨c.length - 1, by
    have := List.length_pos_of_ne_nil hc; omega⟩
  obtain ⟨r, r1, r2, r3, r4, -⟩ := popHeap_spec sw (a := c) (n := n) (by omega) (hn ▸ h)
  have h0 : c[0]? = some (c[0]'(by omega)) := List.getElem?_eq_getElem (by omega)
  have hrl : r.length = n + 1 := by rw [r3.length_eq, hn]
  refine ⟨c[0]'(by omega), r.dropLast, h0, ?_, ?_, ?_, ?_⟩
  · intro x hx
    obtain ⟨i, hi, rfl⟩ := List.getElem_of_mem hx
    exact h.max sw (Nat.le_refl _) i hi _ _ h0 (List.getElem?_eq_getElem hi)
  · simp [pop, hn, r1]
  · intro p k x y hk hkn hx hy
    simp only [List.length_dropLast] at hkn
    have hp : p < r.length - 1 := by unfold Child at hk; omega
    rw [List.getElem?_dropLast, if_pos hp] at hx
    rw [List.getElem?_dropLast, if_pos hkn] at hy
    exact r2 p k x y hk (by omega) hx hy
  · have hne : r ≠ [] := by intro e; simp [e] at hrl
    have hlast : r.getLast hne = c[0]'(by omega) := by
      rw [h0] at r4
      rw [List.getLast_eq_getElem]
      rw [List.getElem?_eq_getElem (by omega)] at r4
      simpa [hrl] using r4
    rw [← hlast]
    refine (List.perm_append_singleton _ _).symm.trans ?_
    rw [List.dropLast_append_getLast hne]
    exact r3

/-- `popPush` removes exactly one copy of a maximum and adds exactly `v`. -/
theorem popPush_correct (sw : StrictWeak comp) {c : List T} (v : T)
    (h : IsHeap comp c c.length) (hc : c ≠ []) :
    ∃ t r, top c = some t ∧ (∀ x ∈ c, comp t x = false) ∧ popPush comp c v = some r ∧
      IsHeap comp r r.length ∧ (t :: r).Perm (v :: c) := by
  have hpos := List.length_pos_of_ne_nil hc
  obtain ⟨r, r1, r2, r3, -, -⟩ := bubbleDown_spec sw c.length v _ 0 c rfl (Nat.le_refl _) hpos
    (by omega) (h.hole (Nat.le_refl _) v)
  have h0 : c[0]? = some (c[0]'(by omega)) := List.getElem?_eq_getElem (by omega)
  have hl : r.length = c.length := by simpa using r3.length_eq
  refine ⟨c[0]'(by omega), r, h0, ?_, ?_, by rw [hl]; exact r2, ?_⟩
  · intro x hx
    obtain ⟨i, hi, rfl⟩ := List.getElem_of_mem hx
    exact h.max sw (Nat.le_refl _) i hi _ _ h0 (List.getElem?_eq_getElem hi)
  · simp [popPush, r1, hc]
  · refine (r3.cons _).trans ?_
    have := List.getD_set_perm_cons c 0 v
    rw [h0] at this
    simpa using this

/-! Histories of operations on the queue, starting empty. -/

/-- One operation: the reported top (for the removing ones) and the new content. -/
def exec (comp : T → T → Bool) (cap : ℕ) (c : List T) : Op T → Option (Option T × List T)
  | .push v => (push comp cap c v).map (none, ·)
  | .pop => (pop comp c).map (top c, ·)
  | .popPush v => (popPush comp c v).map (top c, ·)

/-- A sequence of operations. -/
def execAll (comp : T → T → Bool) (cap : ℕ) : List T → List (Op T) → Option (List (Option T) × List T)
  | c, [] => some ([], c)
  | c, o :: os =>
    match exec comp cap c o with
    | none => none
    | some (t, c') => (execAll comp cap c' os).map fun r => (t :: r.1, r.2)

lemma exec_sound (sw : StrictWeak comp) {cap : ℕ} {c : List T} (h : IsHeap comp c c.length)
    {o : Op T} {t c'} (he : exec comp cap c o = some (t, c')) :
    IsHeap comp c' c'.length ∧ Step comp cap (c : Multiset T) o t (c' : Multiset T) := by
  cases o with
  | push v =>
    by_cases hc : c.length < cap
    · obtain ⟨r, r1, r2, r3⟩ := push_correct sw v h hc
      simp [exec, r1] at he
      obtain ⟨rfl, rfl⟩ := he
      refine ⟨r2, ?_⟩
      rw [Multiset.coe_eq_coe.mpr r3]
      exact .push (by simpa using hc)
    · simp [exec, push_full v (by omega : cap ≤ c.length)] at he
  | pop =>
    by_cases hc : c = []
    · subst hc; simp [exec, pop] at he
    · obtain ⟨t', r, r1, r2, r3, r4, r5⟩ := pop_correct sw h hc
      simp [exec, r1, r3] at he
      obtain ⟨rfl, rfl⟩ := he
      refine ⟨r4, ?_⟩
      rw [← Multiset.coe_eq_coe.mpr r5, ← Multiset.cons_coe]
      refine .pop ⟨by simp, ?_⟩
      intro x hx
      exact r2 x (r5.mem_iff.mp (by simpa using hx))
  | popPush v =>
    by_cases hc : c = []
    · subst hc; simp [exec, popPush] at he
    · obtain ⟨t', r, r1, r2, r3, r4, r5⟩ := popPush_correct sw v h hc
      simp [exec, r1, r3] at he
      obtain ⟨rfl, rfl⟩ := he
      refine ⟨r4, ?_⟩
      have hmem : t' ∈ c := List.mem_of_getElem? r1
      obtain ⟨c0, hc0⟩ := Multiset.exists_cons_of_mem (a := t') (s := (c : Multiset T)) (by simpa)
      have hr : (r : Multiset T) = v ::ₘ c0 := by
        have := Multiset.coe_eq_coe.mpr r5
        simp only [← Multiset.cons_coe] at this
        rw [hc0, Multiset.cons_swap] at this
        exact (Multiset.cons_inj_right _).mp this
      rw [hr, hc0]
      refine .popPush ⟨by simp, ?_⟩
      intro x hx
      rw [← hc0] at hx
      exact r2 x (by simpa using hx)

lemma execAll_sound (sw : StrictWeak comp) {cap : ℕ} : ∀ (os : List (Op T)) {c : List T} {ts c'},
    IsHeap comp c c.length → execAll comp cap c os = some (ts, c') →
    Steps comp cap (c : Multiset T) os ts (c' : Multiset T)
  | [], c, ts, c', h, he => by
    simp [execAll] at he; obtain ⟨rfl, rfl⟩ := he; exact .nil
  | o :: os, c, ts, c', h, he => by
    rw [execAll] at he
    split at he
    · simp at he
    · rename_i t c1 he1
      obtain ⟨h1, s1⟩ := exec_sound sw h he1
      simp only [Option.map_eq_some_iff] at he
      obtain ⟨⟨ts2, c2⟩, he2, heq⟩ := he
      simp at heq
      obtain ⟨rfl, rfl⟩ := heq
      exact .cons s1 (execAll_sound sw os h1 he2)

/-- **C13**: every history of operations on an initially empty queue behaves as a
bounded multiset that reports and removes a maximum. -/
theorem queue_refines_multiset (sw : StrictWeak comp) {cap : ℕ} (os : List (Op T)) {ts c'}
    (he : execAll comp cap [] os = some (ts, c')) :
    Steps comp cap 0 os ts (c' : Multiset T) :=
  execAll_sound sw os (c := []) (by intro p c x y hc hcn; simp at hcn) he

def CanExec (cap : ℕ) (c : List T) : Op T → Prop
  | .push _ => c.length < cap
  | .pop => c ≠ []
  | .popPush _ => c ≠ []

lemma exec_complete (sw : StrictWeak comp) {cap : ℕ} {c : List T} (h : IsHeap comp c c.length)
    (o : Op T) (ho : CanExec cap c o) :
    ∃ t c', exec comp cap c o = some (t, c') ∧ IsHeap comp c' c'.length ∧
      c'.length = (match o with | .push _ => c.length + 1 | .pop => c.length - 1 | .popPush _ => c.length) := by
  cases o with
  | push v =>
    obtain ⟨r, r1, r2, r3⟩ := push_correct sw v h ho
    exact ⟨none, r, by simp [exec, r1], r2, by simpa using r3.length_eq⟩
  | pop =>
    obtain ⟨t', r, r1, r2, r3, r4, r5⟩ := pop_correct sw h ho
    exact ⟨some t', r, by simp [exec, r1, r3], r4, by have := r5.length_eq; simp at this; simp; omega⟩
  | popPush v =>
    obtain ⟨t', r, r1, r2, r3, r4, r5⟩ := popPush_correct sw v h ho
    exact ⟨some t', r, by simp [exec, r1, r3], r4, by simpa using r5.length_eq⟩

/-- Sizes along a history: the queue is never popped when empty nor pushed when full. -/
def Legal (cap : ℕ) : ℕ → List (Op T) → Prop
  | _, [] => True
  | n, .push _ :: os => n < cap ∧ Legal cap (n + 1) os
  | n, .pop :: os => 0 < n ∧ Legal cap (n - 1) os
  | n, .popPush _ :: os => 0 < n ∧ Legal cap n os

lemma execAll_defined (sw : StrictWeak comp) {cap : ℕ} : ∀ (os : List (Op T)) {c : List T},
    IsHeap comp c c.length → Legal cap c.length os → ∃ r, execAll comp cap c os = some r
  | [], c, _, _ => ⟨_, rfl⟩
  | o :: os, c, h, hl => by
    have ho : CanExec cap c o := by
      cases o with
      | push v => exact hl.1
      | pop => exact List.ne_nil_of_length_pos hl.1
      | popPush v => exact List.ne_nil_of_length_pos hl.1
    obtain ⟨t, c', h1, h2, h3⟩ := exec_complete sw h o ho
    have hl' : Legal cap c'.length os := by
      cases o with
      | push v => rw [h3]; exact hl.2
      | pop => rw [h3]; exact hl.2
      | popPush v => rw [h3]; exact hl.2
    obtain ⟨r, hr⟩ := execAll_defined sw os h2 hl'
    exact ⟨_, by rw [execAll, h1]; simp [hr]; rfl⟩

/-- **C13**: no legal history reads or writes outside of the container. -/
theorem queue_never_faults (sw : StrictWeak comp) {cap : ℕ} (os : List (Op T))
    (hl : Legal cap 0 os) : ∃ r, execAll comp cap [] os = some r :=
  execAll_defined sw os (c := []) (by intro p c x y hc hcn; simp at hcn) hl

/-! Heap construction and heap sort. -/

lemma makeHeapLoop_spec (sw : StrictWeak comp) : ∀ (k n : ℕ) (a : List T), n + k = a.length →
    IsHeap comp a n → ∃ r, makeHeapLoop comp a n k = some r ∧ IsHeap comp r a.length ∧ r.Perm a
  | 0, n, a, hn, h => ⟨a, rfl, by rw [← hn]; exact h, List.Perm.refl _⟩
  | k + 1, n, a, hn, h => by
    obtain ⟨r, r1, r2, r3, -⟩ := pushHeap_spec sw (a := a) (n := n) (by omega) h
    obtain ⟨r', s1, s2, s3⟩ := makeHeapLoop_spec sw k (n + 1) r (by rw [r3.length_eq]; omega) r2
    exact ⟨r', by rw [makeHeapLoop, r1]; exact s1, by rwa [← r3.length_eq], s3.trans r3⟩

/-- **C13**: `makeHeap` turns any array into a heap with the same elements. -/
theorem makeHeap_correct (sw : StrictWeak comp) (a : List T) :
    ∃ r, makeHeap comp a = some r ∧ IsHeap comp r r.length ∧ r.Perm a := by
  obtain ⟨r, h1, h2, h3⟩ := makeHeapLoop_spec sw a.length 0 a (by simp)
    (by intro p c x y hc hcn; simp at hcn)
  exact ⟨r, h1, by rw [h3.length_eq]; exact h2, h3⟩

lemma sortHeap_spec (sw : StrictWeak comp) : ∀ (n : ℕ) (a : List T), n ≤ a.length →
    IsHeap comp a n →
    (∀ (i j : ℕ) (x y : T), i < j → n ≤ j → a[i]? = some x → a[j]? = some y → comp y x = false) →
    ∃ r, sortHeap comp a n = some r ∧ r.Perm a ∧
      ∀ (i j : ℕ) (x y : T), i < j → r[i]? = some x → r[j]? = some y → comp y x = false
  | 0, a, _, _, hs => ⟨a, rfl, List.Perm.refl _, fun i j x y hij => hs i j x y hij (by omega)⟩
  | n + 1, a, hn, h, hs => by
    obtain ⟨r, r1, r2, r3, r4, r5⟩ := popHeap_spec sw (a := a) (n := n) hn h
    have hlen := r3.length_eq
    have h0 : a[0]? = some (a[0]'(by omega)) := List.getElem?_eq_getElem (by omega)
    -- elements of the prefix of `r` come from the prefix of `a`
    have hpre : (r.take (n + 1)).Perm (a.take (n + 1)) := by
      have hd : r.drop (n + 1) = a.drop (n + 1) := by
        apply List.ext_getElem?
        intro i
        simp only [List.getElem?_drop]
        exact r5 _ (by omega)
      have := r3
      rw [← List.take_append_drop (n + 1) r, ← List.take_append_drop (n + 1) a, hd] at this
      exact (List.perm_append_right_iff _).mp this
    have hmem : ∀ i x, i < n + 1 → r[i]? = some x → ∃ k, k < n + 1 ∧ a[k]? = some x := by
      intro i x hi hx
      have : x ∈ r.take (n + 1) := by
        apply List.mem_of_getElem? (i := i)
        rw [List.getElem?_take, if_pos hi]; exact hx
      have := hpre.mem_iff.mp this
      obtain ⟨k, hk⟩ := List.getElem?_of_mem this
      rw [List.getElem?_take] at hk
      split at hk
      · exact ⟨k, by assumption, hk⟩
      · simp at hk
    obtain ⟨r', s1, s2, s3⟩ := sortHeap_spec sw n r (by omega) r2 (by
      intro i j x y hij hj hx hy
      by_cases e : j = n
      · subst e
        obtain ⟨k, hk, hkx⟩ := hmem i x (by omega) hx
        rw [r4] at hy
        exact h.max sw (by omega) k hk y x hy hkx
      · rw [r5 j (by omega)] at hy
        by_cases e2 : n + 1 ≤ i
        · rw [r5 i e2] at hx
          exact hs i j x y hij (by omega) hx hy
        · obtain ⟨k, hk, hkx⟩ := hmem i x (by omega) hx
          exact hs k j x y (by omega) (by omega) hkx hy)
    exact ⟨r', by rw [sortHeap, r1]; exact s1, s2.trans r3, s3⟩

/-- **C13**: `sortHeap` on a heap produces a permutation of it in ascending order. -/
theorem sortHeap_correct (sw : StrictWeak comp) (a : List T) (h : IsHeap comp a a.length) :
    ∃ r, sortHeap comp a a.length = some r ∧ r.Perm a ∧
      r.Pairwise (fun x y => comp y x = false) := by
  obtain ⟨r, h1, h2, h3⟩ := sortHeap_spec sw a.length a (Nat.le_refl _) h (by
    intro i j x y hij hj hx hy
    have : j < a.length := by
      by_contra hc
      rw [List.getElem?_eq_none (by omega)] at hy; simp at hy
    omega)
  refine ⟨r, h1, h2, List.pairwise_iff_getElem.mpr ?_⟩
  intro i j hi hj hij
  exact h3 i j _ _ hij (List.getElem?_eq_getElem hi) (List.getElem?_eq_getElem hj)

/-! Non-vacuity. -/

/-- The usual `<` on naturals is a strict weak order. -/
theorem strictWeak_nat : StrictWeak (fun x y : ℕ => decide (x < y)) :=
  ⟨fun x y h => by simp at *; omega, fun x y z h1 h2 => by simp at *; omega⟩

example : execAll (fun x y : ℕ => decide (x < y)) 3 []
    [.push 2, .push 7, .push 5, .popPush 6, .pop, .pop] =
    some ([none, none, none, some 7, some 6, some 5], [2]) := by decide +kernel

example : Legal 3 0 [Op.push 2, .push 7, .push 5, .popPush 6, .pop, .pop] := by
  simp [Legal]

example : (makeHeap (fun x y : ℕ => decide (x < y)) [3, 1, 4, 1, 5, 9, 2, 6]).bind
    (fun a => sortHeap (fun x y : ℕ => decide (x < y)) a 8) = some [1, 1, 2, 3, 4, 5, 6, 9] := by
  decide +kernel

end ArborX.Heap
