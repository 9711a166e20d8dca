import Verif.Heap.Model
import Verif.Heap.Spec
import Mathlib.Data.List.Perm.Basic
import Mathlib.Tactic.SplitIfs

namespace ArborX.Heap

variable {T : Type}

lemma StrictWeak.irrefl {comp : T → T → Bool} (h : StrictWeak comp) (x : T) : comp x x = false := by
  by_contra hx
  have hx : comp x x = true := by simpa using hx
  have := h.asymm x x hx
  rw [hx] at this; simp at this

lemma StrictWeak.trans {comp : T → T → Bool} (h : StrictWeak comp) {x y z : T}
    (h1 : comp x y = true) (h2 : comp y z = true) : comp x z = true := by
  by_contra hx
  have hx : comp x z = false := by simpa using hx
  have := h.negtrans x z y hx (h.asymm _ _ h2)
  rw [h1] at this; simp at this

variable {comp : T → T → Bool}

lemma write_eq {a : List T} {i : ℕ} (h : i < a.length) (v : T) : write a i v = some (a.set i v) := by
  simp [write, h]

lemma swap_set_perm {a : List T} {i j : ℕ} (hi : i < a.length) (hj : j < a.length) (hij : i ≠ j)
    (v : T) : ((a.set i (a[j]'hj)).set j v).Perm (a.set i v) := by
  have := List.set_set_perm (as := a.set i v) (i := i) (j := j) (by simpa) (by simpa)
  simp [hij] at this
  exact this

lemma getElem?_set_ne' {a : List T} {i j : ℕ} {v : T} (h : i ≠ j) : (a.set i v)[j]? = a[j]? := by
  simp [h]

lemma getElem?_set_self' {a : List T} {i : ℕ} {v : T} (h : i < a.length) :
    (a.set i v)[i]? = some v := by
  simp [h]

structure HoleUp (comp : T → T → Bool) (a : List T) (n pos : ℕ) (val : T) : Prop where
  h1 : ∀ p c x y, Child p c → c < n → p ≠ pos → c ≠ pos → a[p]? = some x → a[c]? = some y →
    comp x y = false
  h2 : ∀ c y, Child pos c → c < n → a[c]? = some y → comp val y = false
  h3 : ∀ p c x y, Child p pos → Child pos c → c < n → a[p]? = some x → a[c]? = some y →
    comp x y = false

lemma HoleUp.finish {a : List T} {n pos : ℕ} {val : T} (h : HoleUp comp a n pos val)
    (hpos : pos < a.length)
    (hp : ∀ p x, Child p pos → a[p]? = some x → comp x val = false) :
    IsHeap comp (a.set pos val) n := by
  intro p c x y hc hn hx hy
  have hpc : p ≠ c := by unfold Child at hc; omega
  by_cases e1 : p = pos
  · subst e1
    rw [getElem?_set_self' hpos] at hx
    rw [getElem?_set_ne' hpc] at hy
    simp at hx; subst hx
    exact h.h2 c y hc hn hy
  · rw [getElem?_set_ne' (Ne.symm e1)] at hx
    by_cases e2 : c = pos
    · subst e2
      rw [getElem?_set_self' hpos] at hy
      simp at hy; subst hy
      exact hp p x hc hx
    · rw [getElem?_set_ne' (Ne.symm e2)] at hy
      exact h.h1 p c x y hc hn e1 e2 hx hy

lemma child_parent {pos : ℕ} (h : 0 < pos) : Child ((pos - 1) / 2) pos := by
  unfold Child; omega

lemma child_unique {p q c : ℕ} (h : Child p c) (h' : Child q c) : p = q := by
  unfold Child at *; omega

lemma bubbleUp_spec (sw : StrictWeak comp) (n : ℕ) (val : T) (pos : ℕ) :
    ∀ a : List T, pos < n → n ≤ a.length → HoleUp comp a n pos val →
    ∃ r, bubbleUp comp a pos 0 val = some r ∧ IsHeap comp r n ∧ r.Perm (a.set pos val) ∧
      (∀ i, n ≤ i → r[i]? = a[i]?) := by
  induction pos using Nat.strongRecOn with
  | _ pos ih =>
    intro a hpn hn hole
    rw [bubbleUp]
    by_cases h0 : 0 < pos
    · rw [dif_pos h0]
      have hparlt : (pos - 1) / 2 < pos := by omega
      have hpl : (pos - 1) / 2 < a.length := by omega
      rw [List.getElem?_eq_getElem hpl]
      dsimp only
      by_cases hc : comp (a[(pos - 1) / 2]'hpl) val = true
      · rw [if_pos hc, write_eq (by omega)]
        dsimp only
        have hch := child_parent h0
        obtain ⟨r, h1, h2, h3, h4⟩ := ih _ hparlt (a.set pos (a[(pos - 1) / 2]'hpl)) (by omega)
          (by simpa) (by
            have gp : a[(pos-1)/2]? = some (a[(pos - 1) / 2]'hpl) := List.getElem?_eq_getElem hpl
            constructor
            · intro p c x y hcc hcn hp hc' hx hy
              have hcpos : c ≠ pos := by rintro rfl; exact hp (child_unique hcc hch)
              rw [getElem?_set_ne' (Ne.symm hcpos)] at hy
              by_cases e : p = pos
              · subst e
                rw [getElem?_set_self' (by omega)] at hx
                simp at hx; subst hx
                exact hole.h3 _ c _ y hch hcc hcn gp hy
              · rw [getElem?_set_ne' (Ne.symm e)] at hx
                exact hole.h1 p c x y hcc hcn e hcpos hx hy
            · intro c y hcc hcn hy
              by_cases e : c = pos
              · subst e
                rw [getElem?_set_self' (by omega)] at hy
                simp at hy; subst hy
                exact sw.asymm _ _ hc
              · rw [getElem?_set_ne' (Ne.symm e)] at hy
                have := hole.h1 _ c _ y hcc hcn (by omega) e gp hy
                by_contra hx
                have hx : comp val y = true := by simpa using hx
                rw [sw.trans hc hx] at this; simp at this
            · intro p c x y hcp hcc hcn hx hy
              have hp : p ≠ pos := by unfold Child at hcp; omega
              rw [getElem?_set_ne' (Ne.symm hp)] at hx
              have hxp := hole.h1 p _ x _ hcp (by omega) hp (by omega) hx gp
              by_cases e : c = pos
              · subst e
                rw [getElem?_set_self' (by omega)] at hy
                simp at hy; subst hy
                exact hxp
              · rw [getElem?_set_ne' (Ne.symm e)] at hy
                exact sw.negtrans _ _ _ hxp (hole.h1 _ c _ y hcc hcn (by omega) e gp hy))
        refine ⟨r, h1, h2, h3.trans (swap_set_perm (by omega) hpl (by omega) val), ?_⟩
        intro i hi
        rw [h4 i hi, getElem?_set_ne' (by omega)]
      · rw [if_neg hc, write_eq (by omega)]
        refine ⟨_, rfl, hole.finish (by omega) ?_, List.Perm.refl _, ?_⟩
        · intro p x hp hx
          have : p = (pos - 1) / 2 := child_unique hp (child_parent h0)
          subst this
          rw [List.getElem?_eq_getElem hpl] at hx
          simp at hx; subst hx
          simpa using hc
        · intro i hi; exact getElem?_set_ne' (by omega)
    · rw [dif_neg h0, write_eq (by omega)]
      refine ⟨_, rfl, hole.finish (by omega) ?_, List.Perm.refl _, ?_⟩
      · intro p x hp hx; unfold Child at hp; omega
      · intro i hi; exact getElem?_set_ne' (by omega)

lemma set_self_getElem {a : List T} {i : ℕ} (h : i < a.length) : a.set i (a[i]'h) = a := by simp

lemma pushHeap_spec (sw : StrictWeak comp) {a : List T} {n : ℕ} (hn : n + 1 ≤ a.length)
    (h : IsHeap comp a n) :
    ∃ r, pushHeap comp a (n + 1) = some r ∧ IsHeap comp r (n + 1) ∧ r.Perm a ∧
      (∀ i, n + 1 ≤ i → r[i]? = a[i]?) := by
  unfold pushHeap
  by_cases h1 : 1 < n + 1
  · rw [if_pos h1, Nat.add_sub_cancel, List.getElem?_eq_getElem (by omega)]
    dsimp only
    obtain ⟨r, r1, r2, r3, r4⟩ := bubbleUp_spec sw (n + 1) (a[n]'(by omega)) n a (by omega) hn
      ⟨fun p c x y hc hcn hp hcp hx hy => h p c x y hc (by omega) hx hy,
       fun c y hc hcn hy => by unfold Child at hc; omega,
       fun p c x y hp hc hcn hx hy => by unfold Child at hc; omega⟩
    refine ⟨r, r1, r2, ?_, r4⟩
    rwa [set_self_getElem] at r3
  · rw [if_neg h1]
    refine ⟨a, rfl, ?_, List.Perm.refl _, fun _ _ => rfl⟩
    intro p c x y hc hcn; unfold Child at hc; omega

structure HoleDown (comp : T → T → Bool) (a : List T) (n pos : ℕ) (val : T) : Prop where
  h1 : ∀ p c x y, Child p c → c < n → p ≠ pos → c ≠ pos → a[p]? = some x → a[c]? = some y →
    comp x y = false
  h2 : ∀ p x, Child p pos → a[p]? = some x → comp x val = false
  h3 : ∀ p c x y, Child p pos → Child pos c → c < n → a[p]? = some x → a[c]? = some y →
    comp x y = false

lemma HoleDown.finish {a : List T} {n pos : ℕ} {val : T} (h : HoleDown comp a n pos val)
    (hpos : pos < a.length)
    (hp : ∀ c y, Child pos c → c < n → a[c]? = some y → comp val y = false) :
    IsHeap comp (a.set pos val) n := by
  intro p c x y hc hn hx hy
  have hpc : p ≠ c := by unfold Child at hc; omega
  by_cases e1 : p = pos
  · subst e1
    rw [getElem?_set_self' hpos] at hx
    rw [getElem?_set_ne' hpc] at hy
    simp at hx; subst hx
    exact hp c y hc hn hy
  · rw [getElem?_set_ne' (Ne.symm e1)] at hx
    by_cases e2 : c = pos
    · subst e2
      rw [getElem?_set_self' hpos] at hy
      simp at hy; subst hy
      exact h.h2 p x hc hx
    · rw [getElem?_set_ne' (Ne.symm e2)] at hy
      exact h.h1 p c x y hc hn e1 e2 hx hy

lemma pickChild_spec (sw : StrictWeak comp) {a : List T} {pos len : ℕ} (hl : len ≤ a.length) :
    ∃ c, pickChild comp a pos len = some c ∧ Child pos c ∧
      (c < len → ∀ c' x y, Child pos c' → c' < len → a[c]? = some x → a[c']? = some y →
        comp x y = false) ∧ (¬ c < len → ∀ c', Child pos c' → ¬ c' < len) := by
  unfold pickChild
  split_ifs with h
  · rw [List.getElem?_eq_getElem (by omega), List.getElem?_eq_getElem (by omega)]
    dsimp only
    refine ⟨_, rfl, ?_, ?_, ?_⟩
    · unfold Child; split_ifs <;> omega
    · intro _ c' x y hc' hlt hx hy
      split_ifs at hx with hcmp
      · rw [List.getElem?_eq_getElem (by omega)] at hx
        simp at hx
        rcases hc' with rfl | rfl
        · rw [List.getElem?_eq_getElem (by omega)] at hy
          simp at hy; subst hx hy
          exact sw.asymm _ _ hcmp
        · rw [List.getElem?_eq_getElem (by omega)] at hy
          simp at hy; subst hx hy
          exact sw.irrefl _
      · rw [List.getElem?_eq_getElem (by omega)] at hx
        simp at hx
        rcases hc' with rfl | rfl
        · rw [List.getElem?_eq_getElem (by omega)] at hy
          simp at hy; subst hx hy
          exact sw.irrefl _
        · rw [List.getElem?_eq_getElem (by omega)] at hy
          simp at hy; subst hx hy
          simpa using hcmp
    · intro hn; split_ifs at hn <;> omega
  · refine ⟨_, rfl, .inl rfl, ?_, ?_⟩
    · intro hlt c' x y hc' hlt' hx hy
      have : c' = 2 * pos + 1 := by unfold Child at hc'; omega
      subst this
      rw [hx] at hy; simp at hy; subst hy
      exact sw.irrefl _
    · intro hn c' hc'; unfold Child at hc'; omega

lemma bubbleDown_spec (sw : StrictWeak comp) (len : ℕ) (val : T) (k : ℕ) :
    ∀ (pos : ℕ) (a : List T), len - pos = k → len ≤ a.length → pos < a.length → pos ≤ len →
    HoleDown comp a len pos val →
    ∃ r, bubbleDown comp a pos len val = some r ∧ IsHeap comp r len ∧ r.Perm (a.set pos val) ∧
      (∀ i, len ≤ i → i ≠ pos → r[i]? = a[i]?) ∧
      (∀ i, i < pos → r[i]? = a[i]?) := by
  induction k using Nat.strongRecOn with
  | _ k ih =>
    intro pos a hk hl hpa hpl hole
    obtain ⟨c, hpick, hch, hbest, hnone⟩ := pickChild_spec sw (a := a) (pos := pos) hl
    have hgt := pickChild_gt comp hpick
    rw [bubbleDown]
    split
    · rename_i hh; rw [hpick] at hh; simp at hh
    · rename_i child hh
      rw [hpick] at hh
      simp at hh; subst hh
      by_cases hlt : c < len
      · rw [dif_pos hlt, List.getElem?_eq_getElem (by omega)]
        dsimp only
        have gc : a[c]? = some (a[c]'(by omega)) := List.getElem?_eq_getElem (by omega)
        by_cases hcmp : comp val (a[c]'(by omega)) = true
        · rw [if_pos hcmp, write_eq hpa]
          dsimp only
          obtain ⟨r, r1, r2, r3, r4, r5⟩ := ih (len - c) (by omega) c
            (a.set pos (a[c]'(by omega))) rfl (by simpa) (by simp; omega) (by omega) (by
              constructor
              · intro p c' x y hcc hcn hp hc' hx hy
                by_cases e : c' = pos
                · subst e
                  rw [getElem?_set_self' (by omega)] at hy
                  have : p ≠ c' := by unfold Child at hcc; omega
                  rw [getElem?_set_ne' (Ne.symm this)] at hx
                  simp at hy; subst hy
                  exact hole.h3 p c x _ hcc hch hlt hx gc
                · rw [getElem?_set_ne' (Ne.symm e)] at hy
                  by_cases e2 : p = pos
                  · subst e2
                    rw [getElem?_set_self' (by omega)] at hx
                    simp at hx; subst hx
                    exact hbest hlt c' _ y hcc hcn gc hy
                  · rw [getElem?_set_ne' (Ne.symm e2)] at hx
                    exact hole.h1 p c' x y hcc hcn e2 e hx hy
              · intro p x hp hx
                have : p = pos := child_unique hp hch
                subst this
                rw [getElem?_set_self' (by omega)] at hx
                simp at hx; subst hx
                exact sw.asymm _ _ hcmp
              · intro p c' x y hp hc' hcn hx hy
                have : p = pos := child_unique hp hch
                subst this
                rw [getElem?_set_self' (by omega)] at hx
                simp at hx; subst hx
                have : p ≠ c' := by unfold Child at hc' hp; omega
                rw [getElem?_set_ne' this] at hy
                exact hole.h1 c c' _ y hc' hcn (by omega) (by omega) gc hy)
          refine ⟨r, r1, r2, r3.trans (swap_set_perm (by omega) (by omega) (by omega) val), ?_, ?_⟩
          · intro i hi hne
            rw [r4 i hi (by omega), getElem?_set_ne' (Ne.symm hne)]
          · intro i hi
            rw [r5 i (by omega), getElem?_set_ne' (by omega)]
        · rw [if_neg hcmp, write_eq hpa]
          refine ⟨_, rfl, hole.finish hpa ?_, List.Perm.refl _, ?_, ?_⟩
          · intro c' y hc' hcn hy
            have hcmp : comp val (a[c]'(by omega)) = false := by simpa using hcmp
            exact sw.negtrans _ _ _ hcmp (hbest hlt c' _ y hc' hcn gc hy)
          · intro i hi hne; exact getElem?_set_ne' (Ne.symm hne)
          · intro i hi; exact getElem?_set_ne' (by omega)
      · rw [dif_neg hlt, write_eq hpa]
        refine ⟨_, rfl, hole.finish hpa ?_, List.Perm.refl _, ?_, ?_⟩
        · intro c' y hc' hcn; exact absurd hcn (hnone hlt c' hc')
        · intro i hi hne; exact getElem?_set_ne' (Ne.symm hne)
        · intro i hi; exact getElem?_set_ne' (by omega)

/-- the first element of a heap is a maximum -/
lemma IsHeap.max (sw : StrictWeak comp) {a : List T} {n : ℕ} (h : IsHeap comp a n) (hn : n ≤ a.length)
    (i : ℕ) : i < n → ∀ x y, a[0]? = some x → a[i]? = some y → comp x y = false := by
  induction i using Nat.strongRecOn with
  | _ i ih =>
    intro hi x y hx hy
    by_cases h0 : i = 0
    · subst h0; rw [hx] at hy; simp at hy; subst hy; exact sw.irrefl _
    · have hp : (i - 1) / 2 < i := by omega
      have hl : (i-1)/2 < a.length := by omega
      exact sw.negtrans _ _ _ (ih _ hp (by omega) x _ hx (List.getElem?_eq_getElem hl))
        (h _ i _ y (child_parent (by omega)) hi (List.getElem?_eq_getElem hl) hy)

lemma IsHeap.hole {a : List T} {n m : ℕ} (h : IsHeap comp a n) (hm : m ≤ n) (val : T) :
    HoleDown comp a m 0 val :=
  ⟨fun p c x y hc hcn _ _ hx hy => h p c x y hc (by omega) hx hy,
   fun p x hp => by unfold Child at hp; omega,
   fun p c x y hp => by unfold Child at hp; omega⟩

lemma popHeap_spec (sw : StrictWeak comp) {a : List T} {n : ℕ} (hn : n + 1 ≤ a.length)
    (h : IsHeap comp a (n + 1)) :
    ∃ r, popHeap comp a (n + 1) = some r ∧ IsHeap comp r n ∧ r.Perm a ∧
      r[n]? = a[0]? ∧ (∀ i, n + 1 ≤ i → r[i]? = a[i]?) := by
  unfold popHeap
  by_cases h1 : 1 < n + 1
  · rw [if_pos h1, Nat.add_sub_cancel, List.getElem?_eq_getElem (by omega),
      List.getElem?_eq_getElem (by omega)]
    dsimp only
    obtain ⟨r, r1, r2, r3, r4, -⟩ := bubbleDown_spec sw n (a[n]'(by omega)) _ 0 a rfl (by omega)
      (by omega) (by omega) (h.hole (by omega) _)
    rw [r1]
    have hlen : r.length = a.length := by simpa using r3.length_eq
    dsimp only
    rw [write_eq (by omega)]
    refine ⟨_, rfl, ?_, ?_, ?_, ?_⟩
    · intro p c x y hc hcn hx hy
      rw [getElem?_set_ne' (by unfold Child at hc; omega)] at hx
      rw [getElem?_set_ne' (by omega)] at hy
      exact r2 p c x y hc hcn hx hy
    · -- r ~ a.set 0 a[n], r[n] = a[n]; then set n a[0]
      have hrn : r[n]'(by omega) = a[n]'(by omega) := by
        have := r4 n (Nat.le_refl n) (by omega)
        rw [List.getElem?_eq_getElem (by omega), List.getElem?_eq_getElem (by omega)] at this
        simpa using this
      have g0 : (r.set n (a[0]'(by omega))).Perm ((a.set 0 (a[n]'(by omega))).set n (a[0]'(by omega))) := by
        -- both sides: remove one a[n], add a[0]
        have e1 : (a[n]'(by omega) :: r.set n (a[0]'(by omega))).Perm (a[0]'(by omega) :: r) := by
          have := List.getD_set_perm_cons r n (a[0]'(by omega))
          rw [List.getElem?_eq_getElem (by omega)] at this
          simpa [hrn] using this
        have e2 : (a[n]'(by omega) :: (a.set 0 (a[n]'(by omega))).set n (a[0]'(by omega))).Perm
            (a[0]'(by omega) :: (a.set 0 (a[n]'(by omega)))) := by
          have := List.getD_set_perm_cons (a.set 0 (a[n]'(by omega))) n (a[0]'(by omega))
          rw [getElem?_set_ne' (by omega), List.getElem?_eq_getElem (by omega)] at this
          simpa using this
        exact (List.perm_cons _).mp (e1.trans ((r3.cons _).trans e2.symm))
      exact g0.trans (List.set_set_perm (by omega) (by omega))
    · rw [getElem?_set_self' (by omega)]
    · intro i hi
      rw [getElem?_set_ne' (by omega), r4 i (by omega) (by omega)]
  · rw [if_neg h1]
    have : n = 0 := by omega
    subst this
    refine ⟨a, rfl, ?_, List.Perm.refl _, rfl, fun _ _ => rfl⟩
    intro p c x y hc hcn; unfold Child at hc; omega

end ArborX.Heap
