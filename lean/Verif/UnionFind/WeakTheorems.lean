import Verif.UnionFind.Weak
import Mathlib.Tactic.IntervalCases

/-!
# Property theorems: union-find on a machine with weak memory (C79)
-/

namespace ArborX.UF

variable {n nt : ℕ} {C : ℕ → Prop} {R B : ℕ → ℕ → Prop}

/-- No access is out of bounds. -/
theorem weak_no_fault {prog : ℕ → Prog} (S : Spec n C R) {L0 : ℕ → ℕ} (hL : LInv C R B L0)
    (hsafe : ∀ t < nt, Safe n C R B (prog t)) (sched : List (ℕ × Choice)) (t : ℕ) (ht : t < nt) :
    (runW n nt prog L0 sched).thr t ≠ .fault := by
  intro hf
  obtain ⟨l, hT, -⟩ := (WInv.run S hL hsafe sched).threads t ht
  rw [hf] at hT
  exact hT

/-- Every thread finishes after a bounded number of its own steps. -/
theorem weak_wait_free {prog : ℕ → Prog} (S : Spec n C R) {L0 : ℕ → ℕ} (hL : LInv C R B L0)
    (hsafe : ∀ t < nt, Safe n C R B (prog t)) (sched : List (ℕ × Choice)) (t : ℕ) (ht : t < nt)
    (hn : cost n (prog t) ≤ (sched.map Prod.fst).count t) : (runW n nt prog L0 sched).thr t = .idle .ret :=
  wait_freeW_aux S (WInv.run S hL hsafe []) t ht sched (Nat.lt_succ_of_le hn)

/-- What is known when all threads have finished. -/
theorem weak_complete_spec {prog : ℕ → Prog} (S : Spec n C R) {L0 : ℕ → ℕ} (hL : LInv C R B L0)
    (hsafe : ∀ t < nt, Safe n C R B (prog t)) (sched : List (ℕ × Choice))
    (hc : CompleteW nt (runW n nt prog L0 sched)) :
    LInv C R B (runW n nt prog L0 sched).mem.L ∧
    ∀ t < nt, ∃ l, Path (prog t) l .ret ∧ ∀ e ∈ l, Fact C (runW n nt prog L0 sched).mem.L e := by
  have hI := WInv.run S hL hsafe sched
  refine ⟨hI.mem.labels, fun t ht => ?_⟩
  obtain ⟨l, hT, -, hF⟩ := hI.threads t ht
  rw [hc t ht] at hT
  exact ⟨l, hT.1, hF⟩

/-- Elements with the same representative before a run have the same one after it. -/
theorem weak_run_grow {prog : ℕ → Prog} (S : Spec n C R) {L0 : ℕ → ℕ} (hL : LInv C R B L0)
    (hsafe : ∀ t < nt, Safe n C R B (prog t)) (sched : List (ℕ × Choice)) (x y : ℕ) (hx : C x) (hy : C y)
    (h : root L0 x = root L0 y) :
    root (runW n nt prog L0 sched).mem.L x = root (runW n nt prog L0 sched).mem.L y := by
  have h0 := WInv.init (n := n) (nt := nt) (prog := prog) hL hsafe
  unfold UF.runW
  have key : ∀ (sched : List (ℕ × Choice)) (s : WState), WInv n nt C R B prog s →
      root s.mem.L x = root s.mem.L y →
      root (sched.foldl (stepW n nt) s).mem.L x = root (sched.foldl (stepW n nt) s).mem.L y := by
    intro sched
    induction sched with
    | nil => intro s _ h; exact h
    | cons e es ih =>
      intro s hI h
      have := hI.step S e
      exact ih _ this.1 (this.2.eqr x y hx hy h)
  exact key sched _ h0 h

section Main

variable (n nt : ℕ) (pairs : ℕ → List (ℕ × ℕ)) (hlt : ∀ t < nt, ∀ p ∈ pairs t, p.1 < n ∧ p.2 < n)

include hlt

/-- **C79.** The components are right although loads return any value which the label has ever
held and stores may be lost to earlier ones: when all threads have finished, two elements have
the same representative exactly if they are connected by the merged pairs, and the
representative is the smallest element of the component. -/
theorem weak_union_find_components (sched : List (ℕ × Choice))
    (hc : CompleteW nt (runW n nt (fun t => ofMerges (pairs t)) id sched)) :
    let L := (runW n nt (fun t => ofMerges (pairs t)) id sched).mem.L
    (∀ x < n, ∀ y < n, root L x = root L y ↔ Connected nt pairs x y) ∧
    (∀ x < n, L (root L x) = root L x ∧ Connected nt pairs x (root L x) ∧
      ∀ y < n, Connected nt pairs x y → root L x ≤ y) := by
  obtain ⟨S, hL, hsafe⟩ := merges_setup ⟨n, nt, false⟩ pairs hlt (by simp)
  obtain ⟨hI, hF⟩ := weak_complete_spec S hL hsafe sched hc
  exact components_of_facts hlt hI hF

/-- **C79.** Every merging thread finishes after boundedly many of its own steps, and without an access out of bounds. -/
theorem weak_union_find_wait_free (sched : List (ℕ × Choice)) (t : ℕ) (ht : t < nt) :
    (runW n nt (fun t => ofMerges (pairs t)) id sched).thr t ≠ .fault ∧
    (cost n (ofMerges (pairs t)) ≤ (sched.map Prod.fst).count t →
      (runW n nt (fun t => ofMerges (pairs t)) id sched).thr t = .idle .ret) := by
  obtain ⟨S, hL, hsafe⟩ := merges_setup ⟨n, nt, false⟩ pairs hlt (by simp)
  exact ⟨weak_no_fault S hL hsafe sched t ht, weak_wait_free S hL hsafe sched t ht⟩

end Main

/-- Strong memory is a special case: if all loads return the newest value and all stores become
the newest value, a step is a step of `Model.lean`. -/
theorem weak_contains_strong (n nt : ℕ) (prog : ℕ → Prog) (L0 : ℕ → ℕ) (sched : List ℕ) :
    (runW n nt prog L0 (sched.map (fun t => (t, ⟨none, true⟩)))).mem.L = (run ⟨n, nt, false⟩ prog L0 sched).L ∧
    (runW n nt prog L0 (sched.map (fun t => (t, ⟨none, true⟩)))).thr = (run ⟨n, nt, false⟩ prog L0 sched).thr := by
  have hact : ∀ (m : Labels) (x : TS), (actW m ⟨none, true⟩ x).1.L = (act false m.L x).1 ∧
      (actW m ⟨none, true⟩ x).2 = (act false m.L x).2 := by
    intro m x
    have hl : ∀ y, m.load y none = m.L y := fun y => rfl
    have hs : ∀ y v, (m.store y v true).L = Function.update m.L y v := fun y v => by simp [Labels.store]
    have hcas : ∀ y v, (m.cas y v none).1.L = (if m.L y = y then Function.update m.L y v else m.L) ∧
        (m.cas y v none).2 = m.L y := by
      intro y v
      unfold Labels.cas
      by_cases h : m.L y = y
      · rw [if_pos h, if_pos h]; exact ⟨rfl, h.symm⟩
      · rw [if_neg h, if_neg h]; exact ⟨rfl, by dsimp only; rw [hl, if_neg h]⟩
    cases x with
    | idle p => exact ⟨rfl, rfl⟩
    | fault => exact ⟨rfl, rfl⟩
    | store b r k => exact ⟨hs b r, rfl⟩
    | find f k =>
      cases f with
      | start y => simp only [actW, act, hl]; split_ifs <;> exact ⟨rfl, rfl⟩
      | read a b => simp only [actW, act, hl]; split_ifs <;> exact ⟨rfl, rfl⟩
      | write a b d => exact ⟨hs a d, rfl⟩
    | cas v o k =>
      simp only [actW, act, Bool.false_eq_true, if_false]
      by_cases h1 : v = o
      · rw [if_pos h1, if_pos h1]; exact ⟨rfl, rfl⟩
      · rw [if_neg h1, if_neg h1]
        by_cases h2 : v < o
        · rw [if_pos h2, if_pos h2]; exact ⟨(hcas o v).1, by dsimp only; rw [(hcas o v).2]⟩
        · rw [if_neg h2, if_neg h2]; exact ⟨(hcas v o).1, by dsimp only; rw [(hcas v o).2]⟩
  unfold runW run
  have key : ∀ (sched : List ℕ) (s : WState) (s' : State), s.mem.L = s'.L → s.thr = s'.thr →
      ((sched.map (fun t => (t, (⟨none, true⟩ : Choice)))).foldl (stepW n nt) s).mem.L
          = (sched.foldl (step ⟨n, nt, false⟩) s').L ∧
      ((sched.map (fun t => (t, (⟨none, true⟩ : Choice)))).foldl (stepW n nt) s).thr
          = (sched.foldl (step ⟨n, nt, false⟩) s').thr := by
    intro sched
    induction sched with
    | nil => intro s s' h1 h2; exact ⟨h1, h2⟩
    | cons t ts ih =>
      intro s s' h1 h2
      rw [List.map_cons, List.foldl_cons, List.foldl_cons]
      have ha := hact s.mem (s.thr t)
      refine ih _ _ ?_ ?_
      · unfold stepW step
        dsimp only
        rw [h1] at ha
        rw [h2] at ha ⊢
        split_ifs
        · exact h1
        · exact h1
        · exact ha.1
      · unfold stepW step
        dsimp only
        rw [h1] at ha
        rw [h2] at ha ⊢
        split_ifs
        · exact h2
        · rfl
        · dsimp only; rw [ha.2]
  exact key sched _ _ rfl rfl

set_option maxRecDepth 4000 in
/-- Two threads merge 2 with 0 and 2 with 1. Thread 0 is done before thread 1 starts, but thread
1 still reads the initial label of 2; all three elements are joined. -/
example :
    let s := runW 3 2 (fun t => ofMerges ([[(2, 0)], [(2, 1)]].getD t [])) id
      (List.replicate 8 (0, ⟨none, true⟩) ++ List.replicate 9 (1, ⟨some 1, false⟩) ++ List.replicate 4 (1, ⟨none, true⟩))
    s.thr 0 = .idle .ret ∧ s.thr 1 = .idle .ret ∧ (List.range 3).map (root s.mem.L) = [0, 0, 0] :=
  ⟨rfl, rfl, by decide +kernel⟩

/-- The atomic exchange is needed: if two threads use the variant for one thread (`DoSerial`),
which stores without comparing, a merge is lost. -/
theorem union_find_serial_two_threads :
    ∃ sched, Complete ⟨3, 2, true⟩ (run ⟨3, 2, true⟩ (fun t => ofMerges ([[(2, 0)], [(2, 1)]].getD t [])) id sched) ∧
      root (run ⟨3, 2, true⟩ (fun t => ofMerges ([[(2, 0)], [(2, 1)]].getD t [])) id sched).L 0 ≠
      root (run ⟨3, 2, true⟩ (fun t => ofMerges ([[(2, 0)], [(2, 1)]].getD t [])) id sched).L 2 := by
  refine ⟨[0, 0, 0, 1, 1, 1, 0, 1], ?_, by decide +kernel⟩
  intro t ht
  have ht : t < 2 := ht
  interval_cases t <;> rfl

end ArborX.UF
