import Verif.Labels.Lemmas

/-!
# `reduceLabels` on weak memory (lemmas)

A thread about to load the label of a node has already seen its last value.
-/

namespace ArborX.Labels

open Function (update)

variable {n : ℕ} {par : ℕ → Option ℕ} {L R : ℕ → ℕ} {leaves : ℕ → List ℕ} {lab0 : ℕ → ℤ}

/-- A thread about to load a label can see no earlier value of it. -/
def Settled (n : ℕ) (s : WState) : Prop := ∀ t < n, ∀ i, s.thr t = .read i → (s.past i).length ≤ s.floor t

lemma Settled.load {s : WState} (h : Settled n s) {t i : ℕ} (ht : t < n) (hi : s.thr t = .read i) (k : ℕ) :
    s.load t i k = s.lab i := by
  unfold WState.load
  rw [if_neg]
  have := h t ht i hi
  omega

lemma wstep_eq {s : WState} (h : Settled n s) (t k : ℕ) :
    (wstep n par s (t, k)).toState = step n par s.toState t := by
  unfold wstep step
  dsimp only
  split_ifs with ht
  · rfl
  · cases hts : s.thr t with
    | read i => dsimp only; rw [h.load (by omega) hts]
    | cas i l =>
      dsimp only
      cases par i with
      | none => rfl
      | some p => dsimp only; split_ifs <;> rfl
    | mark p => rfl
    | done => rfl
    | fault => rfl

lemma settled_step (S : Shape n par L R leaves) {s : WState} {arr} (h : Inv n L R leaves lab0 s.toState arr)
    (hs : Settled n s) (t k : ℕ) : Settled n (wstep n par s (t, k)) := by
  unfold wstep
  dsimp only
  split_ifs with ht
  · exact hs
  have ht : t < n := by omega
  cases hts : s.thr t with
  | read i =>
    intro u hu j hj
    dsimp only at hj ⊢
    by_cases e : u = t
    · subst e; rw [Function.update_self] at hj; cases hj
    · rw [Function.update_of_ne e] at hj; exact hs u hu j hj
  | cas i l =>
    obtain ⟨r1, r2, r3⟩ := h.ready t ht i (by rw [hts]; rfl)
    have hne := h.notRoot t ht i (by rw [hts]; rfl) (by rw [hts]; simp)
    obtain ⟨p, y, kd⟩ := S.kids_of r1 hne
    obtain ⟨f1, f2, f3, f4⟩ := S.kids_facts kd
    dsimp only
    rw [f2]
    dsimp only
    by_cases h1 : s.lab p = -2
    · rw [if_pos h1]
      intro u hu j hj
      dsimp only at hj ⊢
      by_cases e : u = t
      · subst e; rw [Function.update_self] at hj; cases hj
      · rw [Function.update_of_ne e] at hj ⊢
        have : j ≠ p := by
          rintro rfl
          exact r2 ((h.ready u hu j (by rw [hj]; rfl)).2.2 _ _ kd).1
        rw [Function.update_of_ne this]
        exact hs u hu j hj
    · rw [if_neg h1]
      intro u hu j hj
      dsimp only at hj ⊢
      by_cases e : u = t
      · subst e
        rw [Function.update_self] at hj ⊢
        by_cases h2 : s.lab p ≠ l
        · rw [if_pos h2] at hj; cases hj
        · rw [if_neg h2] at hj; rw [climb_read hj]
      · rw [Function.update_of_ne e] at hj ⊢
        exact hs u hu j hj
  | mark p =>
    intro u hu j hj
    dsimp only at hj ⊢
    by_cases e : u = t
    · subst e
      rw [Function.update_self] at hj ⊢
      rw [climb_read hj, Function.update_self]
      simp
    · rw [Function.update_of_ne e] at hj ⊢
      have : j ≠ p := by
        rintro rfl
        exact e (h.uniq u hu t ht j (by rw [hj]; rfl) (by rw [hts]; rfl))
      rw [Function.update_of_ne this]
      exact hs u hu j hj
  | done => exact hs
  | fault => exact hs

/-- Every execution on weak memory is one in which the loads return the latest values. -/
lemma wrun_eq (S : Shape n par L R leaves) (hv : ValidLabels n lab0) (sched : List (ℕ × ℕ)) :
    (wrun n par lab0 sched).toState = run n par lab0 (sched.map (·.1)) := by
  have main : ∀ (l : List (ℕ × ℕ)) (s : WState), (∃ arr, Inv n L R leaves lab0 s.toState arr) → Settled n s →
      (l.foldl (wstep n par) s).toState = (l.map (·.1)).foldl (step n par) s.toState := by
    intro l
    induction l with
    | nil => intro s _ _; rfl
    | cons x l ih =>
      obtain ⟨t, k⟩ := x
      rintro s ⟨arr, h⟩ hs
      rw [List.foldl_cons, List.map_cons, List.foldl_cons, ← wstep_eq hs t k]
      refine ih _ ?_ (settled_step S h hs t k)
      rw [wstep_eq hs]
      exact inv_step S hv h t
  exact main sched _ ⟨_, inv_init S⟩ (fun _ _ _ _ => Nat.zero_le _)

end ArborX.Labels
