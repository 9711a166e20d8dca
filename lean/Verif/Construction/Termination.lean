import Verif.Construction.Invariant

set_option linter.unusedSectionVars false

namespace ArborX.Construction

open Function (update)

variable {α V : Type} [SemilatticeSup V] [OrderBot V] {P : Params α V}

def rank (m : ℕ) : TS V → ℕ
  | .init => 3 * (m + 1) + 1
  | .loop _ l r _ _ _ => 3 * (m + 1 - (r - l))
  | .readR _ l r _ _ _ => 3 * (m + 1 - (r - l)) + 2
  | .readL l r _ _ _ => 3 * (m + 1 - (r - l)) + 2
  | .write l r _ _ _ _ => 3 * (m + 1 - (r - l)) + 1
  | .done => 0
  | .fault => 0

lemma step_thr_other (s : State α V) {t u : ℕ} (h : u ≠ t) : (step P s t).thr u = s.thr u := by
  unfold step
  split
  · rfl
  · cases s.thr t with
    | init => simp [h]
    | loop i l r dl dr bv =>
      dsimp only
      split_ifs
      · split <;> simp [setThr, h]
      · simp [setThr, h]
      · split <;> simp [setThr, h]
      · simp [setThr, h]
    | readR i l r dl bv p => dsimp only; split <;> simp [setThr, h]
    | readL l r dr bv p => dsimp only; split <;> simp [setThr, h]
    | write l r dl dr bv left => dsimp only; split_ifs <;> simp [setThr, h]
    | done => rfl
    | fault => rfl

lemma step_rank (g : Good P) {s : State α V} {blk} (h : Inv P s blk) {t : ℕ} (ht : t ≤ P.m) :
    rank P.m ((step P s t).thr t) ≤ rank P.m (s.thr t) - 1 := by
  have hI := h.thr t ht
  unfold ThrInv at hI
  rw [step, if_neg (by omega)]
  cases hs : s.thr t with
  | init => simp [rank]
  | loop i l r dl dr bv =>
    rw [hs] at hI
    obtain ⟨hb, hi, hdl, hdr, hroot, T, hT, hbv⟩ := hI
    have o := h.out _ _ _ hb
    have hp := par_lt g hroot o.2.2 o.2.1
    have hnd : s.thr t ≠ .done := by rw [hs]; simp
    dsimp only
    by_cases hl : dr < dl
    · have hl' : isLeft P l r := by unfold isLeft; rw [← hdl, ← hdr]; exact hl
      rw [if_pos hl, if_pos (isLeft_lt g hl')]
      cases hx : s.ranges r with
      | none => simp [rank]
      | some x =>
        obtain ⟨t', e, hd, hb', hnl, T', hT'⟩ := h.sibling_left g hnd hb hx
        have := hT'.le
        have := h.out _ _ _ hb'
        simp only [rank, setThr, Function.update_self]
        omega
    · have hl' : ¬ isLeft P l r := by unfold isLeft; rw [← hdl, ← hdr]; exact hl
      have hl0 := hp.2 hl'
      have hpar : par P l r = l - 1 := by simp [par, hl']
      rw [if_neg hl, if_pos ⟨hl0, hpar ▸ hp.1⟩]
      cases hx : s.ranges (l-1) with
      | none => simp [rank]
      | some x =>
        obtain ⟨t', e, hd, hb', hnl, T', hT'⟩ := h.sibling_right g hnd hb hl0 hx
        have := hT'.le
        simp only [rank, setThr, Function.update_self]
        omega
  | readR i l r dl bv p =>
    dsimp only; split <;> simp [setThr, rank]
  | readL l r dr bv p =>
    dsimp only; split <;> simp [setThr, rank]
  | write l r dl dr bv left =>
    dsimp only
    split_ifs <;> simp [setThr, rank]
  | done => simp [hs, rank]
  | fault => simp [hs, rank]

lemma run_rank (g : Good P) (t : ℕ) (ht : t ≤ P.m) (sched : List ℕ) (s : State α V) (blk)
    (h : Inv P s blk) :
    rank P.m ((sched.foldl (step P) s).thr t) ≤ rank P.m (s.thr t) - sched.count t := by
  induction sched generalizing s blk with
  | nil => simp
  | cons u l ih =>
    obtain ⟨blk', h'⟩ := inv_step g h u
    rw [List.foldl_cons]
    refine (ih _ _ h').trans ?_
    by_cases e : u = t
    · subst e
      have := step_rank g h ht
      rw [List.count_cons_self]
      omega
    · rw [step_thr_other s (Ne.symm e), List.count_cons_of_ne e]

lemma rank_zero_done {s : State α V} {blk} (h : Inv P s blk) {t : ℕ} (ht : t ≤ P.m)
    (hr : rank P.m (s.thr t) = 0) : s.thr t = .done := by
  have hI := h.thr t ht
  unfold ThrInv at hI
  cases hs : s.thr t with
  | init => rw [hs] at hr; simp [rank] at hr
  | loop i l r dl dr bv =>
    rw [hs] at hr hI
    have := h.out _ _ _ hI.1
    simp [rank] at hr; omega
  | readR i l r dl bv p => rw [hs] at hr; simp [rank] at hr
  | readL l r dr bv p => rw [hs] at hr; simp [rank] at hr
  | write l r dl dr bv left => rw [hs] at hr; simp [rank] at hr
  | done => rfl
  | fault => rw [hs] at hI; exact hI.elim

end ArborX.Construction
