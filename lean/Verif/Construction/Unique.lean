import Verif.Construction.Height

/-!
# The memory image produced by the construction does not depend on the schedule
-/

namespace ArborX.Construction

variable {α V : Type} [SemilatticeSup V] [OrderBot V]

lemma Built.same {P : Params α V} {L I L' I'} {l r : ℕ} {T : BTree} (h : Built P L I l r T) :
    ∀ {T'}, Built P L' I' l r T' → r ≤ P.m →
    (∀ i, l ≤ i → i ≤ r → L i = L' i) ∧ (∀ k, l < k → k < r → I k = I' k) ∧
    (l < r → I (karras P l r) = I' (karras P l r)) := by
  induction h with
  | leaf i hi =>
    intro T' h' hr
    have e := (Built.leaf (P := P) (internal := I) i hi).unique h' hr
    subst e
    cases h' with
    | leaf _ hi' =>
      refine ⟨?_, by intro k h1 h2; omega, by omega⟩
      intro j h1 h2
      have : j = i := by omega
      subst this; rw [hi, hi']
  | node l p r a b ha hb h1 h2 hk iha ihb =>
    intro T' h' hr
    have e := (Built.node l p r a b ha hb h1 h2 hk).unique h' hr
    subst e
    have la := ha.le
    have lb := hb.le
    cases h' with
    | node _ p' _ _ _ ha' hb' h1' h2' hk' =>
      have hp : p = p' := by
        have e1 := ha.leaves
        have e2 := ha'.leaves
        have l1 := ha'.le
        rw [e1] at e2
        have := congrArg List.length e2
        simp at this
        omega
      subst hp
      obtain ⟨a1, a2, a3⟩ := iha ha' (by omega)
      obtain ⟨b1, b2, b3⟩ := ihb hb' hr
      refine ⟨?_, ?_, fun _ => by rw [hk, hk']⟩
      · intro i hi1 hi2
        by_cases hc : i ≤ p
        · exact a1 i hi1 hc
        · exact b1 i (by omega) hi2
      · intro k hk1 hk2
        rcases lt_trichotomy k p with hc | hc | hc
        · exact a2 k hk1 hc
        · subst hc
          have := a3 (by omega)
          rwa [karras, if_pos h1] at this
        · by_cases hc2 : k = p + 1
          · subst hc2
            have := b3 (by omega)
            rwa [karras, if_neg h2] at this
          · exact b2 k (by omega) hk2

/-- nothing is ever written outside of the arrays -/
lemma step_outside (P : Params α V) (s : State α V) (t : ℕ)
    (h : (∀ i, P.m < i → s.leaf i = none) ∧ (∀ k, P.m ≤ k → s.internal k = none)) :
    (∀ i, P.m < i → (step P s t).leaf i = none) ∧ (∀ k, P.m ≤ k → (step P s t).internal k = none) := by
  unfold step
  split
  · exact h
  · rename_i ht
    split
    · refine ⟨fun i hi => ?_, h.2⟩
      simp only
      rw [Function.update_of_ne (by omega)]
      exact h.1 i hi
    · split_ifs <;> (try exact h) <;> split <;> exact h
    · dsimp only; split <;> exact h
    · split <;> exact h
    · rename_i l r dl dr bv left _
      dsimp only
      generalize (if dr < dl then r else l) = kk
      split
      · rename_i hk
        refine ⟨h.1, fun k hk' => ?_⟩
        simp only
        rw [Function.update_of_ne (by omega)]
        exact h.2 k hk'
      · exact h
    · exact h
    · exact h

lemma run_outside (P : Params α V) (sched : List ℕ) :
    (∀ i, P.m < i → (run P sched).leaf i = none) ∧
      (∀ k, P.m ≤ k → (run P sched).internal k = none) := by
  have : ∀ (l : List ℕ) (s : State α V), ((∀ i, P.m < i → s.leaf i = none) ∧
      (∀ k, P.m ≤ k → s.internal k = none)) →
      ((∀ i, P.m < i → (l.foldl (step P) s).leaf i = none) ∧
      (∀ k, P.m ≤ k → (l.foldl (step P) s).internal k = none)) := by
    intro l
    induction l with
    | nil => intro s h; exact h
    | cons t l ih => intro s h; exact ih _ (step_outside P s t h)
  exact this sched _ ⟨fun _ _ => rfl, fun _ _ => rfl⟩

/-- **C02 (schedule independence).** Two complete runs leave the same node arrays. -/
theorem memory_schedule_independent (P : Params α V) (h : ValidKeys P) (s1 s2 : List ℕ)
    (h1 : Complete P (run P s1)) (h2 : Complete P (run P s2)) :
    memOf P (run P s1) = memOf P (run P s2) := by
  have g := h.good
  obtain ⟨b1, I1⟩ := inv_run g s1
  obtain ⟨T1, B1⟩ := I1.complete g h1
  obtain ⟨b2, I2⟩ := inv_run g s2
  obtain ⟨T2, B2⟩ := I2.complete g h2
  obtain ⟨e1, e2, e3⟩ := B1.same B2 le_rfl
  have o1 := run_outside P s1
  have o2 := run_outside P s2
  have hk : karras P 0 P.m = 0 := by
    have : ¬ isLeft P 0 P.m := by
      unfold isLeft; rw [dL_zero, dR_ge P le_rfl]; exact lt_irrefl _
    simp [karras, this]
  unfold memOf
  congr 1
  · funext i
    by_cases hi : i ≤ P.m
    · exact e1 i (by omega) hi
    · rw [o1.1 i (by omega), o2.1 i (by omega)]
  · funext k
    by_cases hk' : k < P.m
    · by_cases h0 : k = 0
      · subst h0
        have := e3 (by omega)
        rwa [hk] at this
      · exact e2 k (by omega) hk'
    · rw [o1.2 k (by omega), o2.2 k (by omega)]

end ArborX.Construction
