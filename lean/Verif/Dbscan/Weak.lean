import Verif.Dbscan.WeakModel
import Verif.Dbscan.Theorems
import Verif.UnionFind.WeakTheorems

/-!
# FDBSCAN on a machine with weak memory (C79)
-/

namespace ArborX.Dbscan

open Traversal BVH UF
open Function (update)

section

variable {n : ℕ} {C : ℕ → Prop} {L0 : ℕ → ℕ}

lemma FInv.stepW (P : FPre n C L0) {s : FState} (h : FInv n C L0 s) (e : ℕ × Bool) :
    FInv n C L0 (fstepW n L0 s e) := by
  obtain ⟨i, c⟩ := e
  cases hs : s.thr i with
  | loop v old =>
    unfold fstepW
    dsimp only
    by_cases hi : n ≤ i
    · rw [if_pos hi]; exact h
    rw [if_neg hi]
    have hin : i < n := by omega
    have hT := h.thr i hin
    have h0 := FInv.init P
    have local_ : ∀ x : FThr, FT C L0 s.L i x → x ≠ .done →
        FInv n C L0 { s with thr := update s.thr i x } := by
      intro x hx h2
      refine ⟨h.core, h.out, ?_, ?_⟩
      · intro j hj
        by_cases e : j = i
        · subst e; simpa using hx
        · simpa [Function.update_of_ne e] using h.thr j hj
      · intro c
        rw [h.sizes c]
        apply countP_congr_done
        intro j _
        by_cases e : j = i
        · subst e; simp [hs, h2]
        · simp [Function.update_of_ne e]
    rw [hs] at hT ⊢
    obtain ⟨h1, h2, h3⟩ := hT
    have hv : v < n := by
      rcases h2 with h2 | h2
      · exact P.lt v h2
      · rw [h2.1]; exact hin
    rw [if_neg (by simp [faccess]; omega)]
    simp only [factW]
    -- what is known of the value read
    have hcore : C v → C (floadW L0 i s c v) ∧ floadW L0 i s c v ≤ v ∧
        tgt C L0 (floadW L0 i s c v) = tgt C L0 v ∧ (floadW L0 i s c v = v → tgt C L0 v = v) := by
      intro hC
      unfold floadW
      split_ifs
      · exact h0.core v hC
      · exact h.core v hC
    have hself : v = i → floadW L0 i s c v = s.L v := by
      intro e
      unfold floadW
      rw [if_neg (by simp [e])]
    by_cases hlt : v > floadW L0 i s c v
    · rw [if_pos hlt]
      refine local_ _ ?_ (by simp)
      rcases h2 with h2 | ⟨h2, h2', h2''⟩
      · have := hcore h2
        exact ⟨this.2.2.1.trans h1, Or.inl this.1, h3⟩
      · rw [hself h2] at hlt ⊢
        rw [h2] at hlt ⊢
        rcases h.out i h2' with h4 | h4
        · omega
        · exact ⟨h4.2, Or.inl h4.1, h3⟩
    · rw [if_neg hlt]
      have hvt : v = tgt C L0 i := by
        rcases h2 with h2 | ⟨h2, h2', h2''⟩
        · have := hcore h2
          have e' : floadW L0 i s c v = v := by omega
          rw [← h1, this.2.2.2 e']
        · rw [h2'', h2]
      split_ifs with hne
      · exact local_ _ hvt (by simp)
      · refine local_ _ ?_ (by simp)
        have : v = old := not_not.mp hne
        show s.L i = tgt C L0 i
        rw [← h3, ← this, hvt]
  | _ =>
    have e : fstepW n L0 s (i, c) = fstep n s i := by
      unfold fstepW fstep
      dsimp only
      rw [hs]
      rfl
    rw [e]
    exact FInv.step P h i

lemma FInv.runW (P : FPre n C L0) (sched : List (ℕ × Bool)) : FInv n C L0 (finalizeW n L0 sched) := by
  unfold finalizeW
  have h0 := FInv.init P
  generalize (⟨L0, fun _ => 0, fun _ => .start⟩ : FState) = s at h0
  induction sched generalizing s with
  | nil => exact h0
  | cons t ts ih => exact ih _ (FInv.stepW P h0 t)

theorem finalizeW_spec (P : FPre n C L0) (sched : List (ℕ × Bool)) (hd : FDone n (finalizeW n L0 sched)) :
    (∀ i < n, (finalizeW n L0 sched).L i = tgt C L0 i) ∧
    ∀ c, (finalizeW n L0 sched).sizes c = (List.range n).countP (fun i => decide (tgt C L0 i = c)) := by
  have h := FInv.runW P sched
  refine ⟨fun i hi => ?_, fun c => ?_⟩
  · have := h.thr i hi
    rw [hd i hi] at this
    exact this
  · rw [h.sizes c]
    apply List.countP_congr
    intro i hi
    simp [hd i (List.mem_range.mp hi)]

lemma fstepW_rank (P : FPre n C L0) {s : FState} (h : FInv n C L0 s) (e : ℕ × Bool) (j : ℕ) (hj : j < n) :
    frank n ((fstepW n L0 s e).thr j) + (if e.1 = j then 1 else 0) ≤ frank n (s.thr j) ∨
      (s.thr j = .done ∧ (fstepW n L0 s e).thr j = .done) := by
  obtain ⟨i, c⟩ := e
  dsimp only
  cases hs : s.thr i with
  | loop v old =>
    left
    have hinv := FInv.stepW P h (i, c)
    unfold fstepW at hinv ⊢
    dsimp only at hinv ⊢
    by_cases hi : n ≤ i
    · rw [if_pos hi, if_neg (by omega)]; omega
    rw [if_neg hi] at hinv ⊢
    by_cases ha : (faccess i (s.thr i)).any (fun x => decide (n ≤ x)) = true
    · rw [if_pos ha] at hinv
      have := hinv.thr i (by omega)
      simp [FT] at this
    rw [if_neg ha, hs]
    by_cases e : i = j
    · subst e
      rw [if_pos rfl, hs]
      simp only [factW]
      split_ifs <;> simp [frank] <;> omega
    · rw [if_neg e]
      simp only [factW]
      split_ifs <;> simp [Function.update_of_ne (Ne.symm e)]
  | _ =>
    have e : fstepW n L0 s (i, c) = fstep n s i := by
      unfold fstepW fstep
      dsimp only
      rw [hs]
      rfl
    rw [e]
    exact fstep_rank P h i j hj

theorem finalizeW_wait_free (P : FPre n C L0) (sched : List (ℕ × Bool)) (j : ℕ) (hj : j < n)
    (hc : n + 5 ≤ (sched.map Prod.fst).count j) : (finalizeW n L0 sched).thr j = .done := by
  have key : ∀ (sched : List (ℕ × Bool)) (s : FState), FInv n C L0 s →
      (frank n (s.thr j) ≤ (sched.map Prod.fst).count j ∨ s.thr j = .done) →
      (sched.foldl (fstepW n L0) s).thr j = .done := by
    intro sched
    induction sched with
    | nil =>
      intro s h hr
      rcases hr with hr | hr
      · have hf := h.thr j hj
        have hr' : frank n (s.thr j) = 0 := by simpa using hr
        show s.thr j = .done
        cases hs : s.thr j with
        | done => rfl
        | fault => rw [hs] at hf; exact hf.elim
        | _ => rw [hs] at hr'; simp [frank] at hr'
      · exact hr
    | cons t ts ih =>
      intro s h hr
      refine ih _ (FInv.stepW P h t) ?_
      rcases fstepW_rank P h t j hj with h' | h'
      · rcases hr with hr | hr
        · left
          rw [List.map_cons, List.count_cons] at hr
          by_cases e : t.1 = j
          · rw [if_pos e] at h'
            rw [if_pos (by simpa using e)] at hr
            omega
          · rw [if_neg e] at h'
            rw [if_neg (by simpa using e)] at hr
            omega
        · left
          rw [hr] at h'
          have : frank n (.done) = 0 := rfl
          omega
      · exact Or.inr h'.2
  refine key sched _ (FInv.init P) (Or.inl ?_)
  simpa [frank] using hc

end

lemma finishW_eq {n : ℕ} {core : ℕ → Bool} {near : ℕ → ℕ → Bool} {star : Bool} {L : ℕ → ℕ}
    (S : Stage n core near star L) (special : Bool) (schedF : List (ℕ × Bool)) :
    finishW n special core L schedF = .running ∨
    finishW n special core L schedF = .labels ((List.range n).map (lab n special core L)) := by
  unfold finishW
  dsimp only
  have hnf' : ((List.range n).any fun i => decide ((finalizeW n L schedF).thr i = .fault)) = false := by
    rw [List.any_eq_false]
    intro t ht hf
    rw [decide_eq_true_eq] at hf
    have := (FInv.runW S.pre schedF).thr t (List.mem_range.mp ht)
    rw [hf] at this
    exact this
  rw [hnf']
  simp only [Bool.false_eq_true, if_false]
  by_cases hd : ((List.range n).all fun i => decide ((finalizeW n L schedF).thr i = .done)) = true
  swap
  · left
    rw [Bool.not_eq_true] at hd
    rw [hd]; rfl
  right
  rw [hd]
  simp only [Bool.not_true, Bool.false_eq_true, if_false]
  have hd' : FDone n (finalizeW n L schedF) := by
    intro i hi
    have := List.all_eq_true.mp hd i (List.mem_range.mpr hi)
    simpa using this
  obtain ⟨f1, f2⟩ := finalizeW_spec S.pre schedF hd'
  congr 1
  apply List.map_congr_left
  intro i hi
  unfold markNoise lab
  rw [f2, f1 i (List.mem_range.mp hi)]

lemma finishW_terminates {n : ℕ} {core : ℕ → Bool} {near : ℕ → ℕ → Bool} {star : Bool} {L : ℕ → ℕ}
    (S : Stage n core near star L) (special : Bool) (schedF : List (ℕ × Bool))
    (hF : ∀ i < n, n + 5 ≤ (schedF.map Prod.fst).count i) : finishW n special core L schedF ≠ .running := by
  unfold finishW
  dsimp only
  have hall' : ((List.range n).all fun i => decide ((finalizeW n L schedF).thr i = .done)) = true := by
    rw [List.all_eq_true]
    intro i hi
    rw [decide_eq_true_eq]
    exact finalizeW_wait_free S.pre schedF i (List.mem_range.mp hi) (hF i (List.mem_range.mp hi))
  rw [hall']
  simp only [Bool.not_true, Bool.false_eq_true, if_false]
  split_ifs <;> simp

section

variable {V : Type} {w : ℕ} [SemilatticeSup V] [OrderBot V] (D : In V w) (hD : D.Valid)
  (schedB : List (ℕ × Option V))
  (hB : 2 ≤ D.n → ∀ t < D.n, (Construction.runW ⟨true, true⟩ D.tree.params schedB).base.thr t = .done)
  (fuel : ℕ) (hfuel : 2 * D.n ≤ fuel)

include hD hB

lemma finished_strong : D.tree.Finished (schedB.map Prod.fst) := by
  intro h2 t ht
  have h2 : 2 ≤ D.n := h2
  rw [← (weak_build D.tree hD.tree schedB).2 h2]
  have ht' : t ≤ D.n - 1 := ht
  exact hB h2 t (by omega)

include hfuel

lemma outcomeW_eq (schedU : List (ℕ × Choice)) (schedF : List (ℕ × Bool)) :
    (D.fdbscanW fuel schedB schedU schedF = .running ∨
    (∃ L, Stage D.n (D.isCore (D.tree.build (schedB.map Prod.fst)) fuel) D.near (D.star && !decide (D.minPts = 2)) L ∧
      D.fdbscanW fuel schedB schedU schedF = .labels ((List.range D.n).map
        (lab D.n (decide (D.minPts = 2)) (D.isCore (D.tree.build (schedB.map Prod.fst)) fuel) L)))) ∧
    ((∀ c < D.chunks.length, cost D.n (D.prog (D.tree.build (schedB.map Prod.fst)) fuel c) ≤ (schedU.map Prod.fst).count c) →
      (∀ i < D.n, D.n + 5 ≤ (schedF.map Prod.fst).count i) → D.fdbscanW fuel schedB schedU schedF ≠ .running) := by
  have hB' := finished_strong D hD schedB hB
  unfold In.fdbscanW
  rw [(weak_build D.tree hD.tree schedB).1]
  generalize schedB.map Prod.fst = sB at *
  dsimp only
  have hm := hD.minPts
  rw [if_neg (by omega), traversals_ok D hD sB hB' fuel hfuel]
  simp only [Bool.not_true, Bool.false_eq_true, if_false]
  have hsafe := fun t (_ : t < D.chunks.length) => prog_safe D hD sB hB' fuel hfuel t
  have hnf : ((List.range D.chunks.length).any fun t => isFault
      ((UF.runW D.n D.chunks.length (D.prog (D.tree.build sB) fuel) id schedU).thr t)) = false := by
    rw [List.any_eq_false]
    intro t ht hf
    rw [isFault_iff] at hf
    exact weak_no_fault (spec_cp D.n _ _) (linv_init _ _ _ _) hsafe schedU t (List.mem_range.mp ht) hf
  rw [hnf]
  simp only [Bool.false_eq_true, if_false]
  have hst : CompleteW D.chunks.length (UF.runW D.n D.chunks.length (D.prog (D.tree.build sB) fuel) id schedU) →
      Stage D.n (D.isCore (D.tree.build sB) fuel) D.near (D.star && !decide (D.minPts = 2))
        (UF.runW D.n D.chunks.length (D.prog (D.tree.build sB) fuel) id schedU).mem.L := by
    intro hU
    obtain ⟨hI, hF⟩ := weak_complete_spec (spec_cp D.n _ _) (linv_init _ _ _ _) hsafe schedU hU
    exact stage_of_facts D hD sB hB' fuel hfuel hI hF
  constructor
  · by_cases hc : ((List.range D.chunks.length).all fun t => isRet
        ((UF.runW D.n D.chunks.length (D.prog (D.tree.build sB) fuel) id schedU).thr t)) = true
    swap
    · left
      rw [Bool.not_eq_true] at hc
      rw [hc]; rfl
    rw [hc]
    simp only [Bool.not_true, Bool.false_eq_true, if_false]
    have S := hst (fun t ht => (isRet_iff _).mp (List.all_eq_true.mp hc t (List.mem_range.mpr ht)))
    rcases finishW_eq S (decide (D.minPts = 2)) schedF with h | h
    · exact Or.inl h
    · exact Or.inr ⟨_, S, h⟩
  · intro hU hF
    have hC : CompleteW D.chunks.length (UF.runW D.n D.chunks.length (D.prog (D.tree.build sB) fuel) id schedU) :=
      fun t ht => weak_wait_free (spec_cp D.n _ _) (linv_init _ _ _ _) hsafe schedU t ht (hU t ht)
    have hall : ((List.range D.chunks.length).all fun t => isRet
        ((UF.runW D.n D.chunks.length (D.prog (D.tree.build sB) fuel) id schedU).thr t)) = true := by
      rw [List.all_eq_true]
      intro t ht
      exact (isRet_iff _).mpr (hC t (List.mem_range.mp ht))
    rw [hall]
    simp only [Bool.not_true, Bool.false_eq_true, if_false]
    exact finishW_terminates (hst hC) _ schedF hF

/-- **C79.** `dbscan` on a machine with weak memory returns a DBSCAN clustering (or the DBSCAN*
clustering): the loads of the construction that no synchronisation orders return anything, the
loads of the labels return any value which the label has held, stores of labels are ordered
arbitrarily. Core points are labelled as on every other machine. -/
theorem weak_fdbscan_correct (schedU : List (ℕ × Choice)) (schedF : List (ℕ × Bool)) :
    D.fdbscanW fuel schedB schedU schedF = .running ∨
    ∃ l, D.fdbscanW fuel schedB schedU schedF = .labels l ∧ l.length = D.n ∧
      (D.star = false → IsDBSCAN D.n D.near D.minPts (labelOf l)) ∧
      (D.star = true → IsDBSCANStar D.n D.near D.minPts (labelOf l)) ∧
      Canonical D.n D.near D.minPts (labelOf l) := by
  have hB' := finished_strong D hD schedB hB
  rcases (outcomeW_eq D hD schedB hB fuel hfuel schedU schedF).1 with h | ⟨L, S, h⟩
  · exact Or.inl h
  right
  obtain ⟨h1, h2, h3⟩ := labels_correct hD.symm hD.refl (isCore_two D hD _ hB' fuel hfuel)
    (fun e i _ => isCore_many D hD _ hB' fuel hfuel e i) S
  exact ⟨_, h, by simp, h1, h2, h3⟩

/-- **C79.** It finishes if every thread gets a bounded number of steps. -/
theorem weak_fdbscan_terminates (schedU : List (ℕ × Choice)) (schedF : List (ℕ × Bool))
    (hU : ∀ c < D.chunks.length,
      cost D.n (D.prog (D.tree.build (schedB.map Prod.fst)) fuel c) ≤ (schedU.map Prod.fst).count c)
    (hF : ∀ i < D.n, D.n + 5 ≤ (schedF.map Prod.fst).count i) :
    D.fdbscanW fuel schedB schedU schedF ≠ .running :=
  (outcomeW_eq D hD schedB hB fuel hfuel schedU schedF).2 hU hF

end

/-- **C79.** It throws exactly if `core_min_size < 2`. -/
theorem weak_fdbscan_throws {V : Type} {w : ℕ} [SemilatticeSup V] [OrderBot V] (D : In V w) (fuel : ℕ) (schedB : List (ℕ × Option V))
    (schedU : List (ℕ × UF.Choice)) (schedF : List (ℕ × Bool)) : D.fdbscanW fuel schedB schedU schedF = .throw ↔ D.minPts < 2 := by
  unfold In.fdbscanW finishW
  dsimp only
  split_ifs <;> simp_all

/-- The points of `exampleIn`, with stale loads and lost stores in all kernels. -/
example : (exampleIn false).fdbscanW 14 ((List.replicate 20 [0, 1, 2, 3, 4, 5, 6]).flatten.map (fun t => (t, some false)))
      ((List.replicate 40 [0, 1]).flatten.map (fun t => (t, ⟨some 1, false⟩)))
      ((List.replicate 12 [0, 1, 2, 3, 4, 5, 6]).flatten.map (fun t => (t, true)))
      = .labels [1, 1, 1, 4, 4, 4, -1] := by
  decide +kernel

end ArborX.Dbscan
