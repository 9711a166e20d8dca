import Verif.UnionFind.Step

/-!
# The union-find operations are wait-free
-/

namespace ArborX.UF

open Function (update)

variable {n : ℕ} {C : ℕ → Prop} {R B : ℕ → ℕ → Prop}

/-- Steps left inside `representative`. -/
def findRank : Find → ℕ
  | .start x => 2 * x + 3
  | .read _ c => 2 * c + 2
  | .write _ _ m => 2 * m + 3

/-- Bound on the steps of `representative` with `n` labels. -/
def findMax (n : ℕ) : ℕ := 2 * n + 3

/-- Bound on the steps of the loop of `merge`. -/
def casMax (n : ℕ) : ℕ := 4 * n + 4

/-- Bound on the steps of a program. -/
def cost (n : ℕ) : Prog → ℕ
  | .ret => 0
  | .merge _ _ k => 1 + 2 * findMax n + casMax n + cost n k
  | .into _ _ k => 1 + findMax n + 1 + cost n k
  | .same _ _ k => 1 + 2 * findMax n + max (cost n (k true)) (cost n (k false))

/-- Steps left after `representative` returns. -/
def contRank (n : ℕ) : Cont → ℕ
  | .mergeI _ k => findMax n + casMax n + cost n k
  | .mergeJ _ k => casMax n + cost n k
  | .into _ k => 1 + cost n k
  | .sameI _ k => findMax n + max (cost n (k true)) (cost n (k false))
  | .sameJ _ k => max (cost n (k true)) (cost n (k false))

/-- Steps left to a thread. -/
def rank (n : ℕ) (L : ℕ → ℕ) : TS → ℕ
  | .idle p => cost n p
  | .find f c => findRank f + contRank n c
  | .cas v o k => 2 * (v + o) + (if L (max v o) = max v o then 1 else 0) + 1 + cost n k
  | .store _ _ k => 1 + cost n k
  | .fault => 0

lemma rank_grow {L L' : ℕ → ℕ} (g : Grow C L L') {sr : Bool} {p : Prog} {x : TS}
    (hx : Full n C R B sr L p x) : rank n L' x ≤ rank n L x := by
  cases x with
  | cas v o k =>
    obtain ⟨l, ⟨i, j, h1, h2, h3, -⟩, -, -⟩ := hx
    simp only [rank]
    have hm : C (max v o) := by
      rcases le_total v o with h | h
      · rw [max_eq_right h]; exact h3.2.1
      · rw [max_eq_left h]; exact h2.2.1
    have := g.nonroot _ hm
    split_ifs with ha hb
    · omega
    · exact absurd ha (this hb)
    · omega
    · omega
  | _ => exact le_rfl

lemma ret_rank {L : ℕ → ℕ} {r : ℕ} {c : Cont} (hr : r < n)
    (hc : ∀ v k, c = .mergeJ v k → v < n) (hj : ∀ j k, c = .mergeI j k → j < n)
    (hj' : ∀ j k, c = .sameI j k → j < n) :
    rank n L (ret r c) ≤ contRank n c := by
  cases c with
  | mergeI j k =>
    have := hj j k rfl
    simp only [ret, rank, contRank, findRank, findMax]
    omega
  | mergeJ v k =>
    have := hc v k rfl
    simp only [ret, rank, contRank, casMax]
    split_ifs <;> omega
  | into b k => simp [ret, rank, contRank]
  | sameI j k =>
    have := hj' j k rfl
    simp only [ret, rank, contRank, findRank, findMax]
    omega
  | sameJ r' k =>
    simp only [ret, rank, contRank]
    cases decide (r' = r)
    · exact le_max_right _ _
    · exact le_max_left _ _

/-- Every own step of an unfinished thread decreases its rank. -/
lemma rank_act (S : Spec n C R) {sr : Bool} {L : ℕ → ℕ} (h : LInv C R B L) {p : Prog} {x : TS}
    (hx : Full n C R B sr L p x) (hne : x ≠ .idle .ret) :
    rank n (act sr L x).1 (act sr L x).2 < rank n L x := by
  obtain ⟨l, hT, -, -⟩ := hx
  cases x with
  | fault => exact hT.elim
  | idle q =>
    obtain ⟨h1, h2⟩ := hT
    cases q with
    | ret => exact absurd rfl hne
    | merge i j k =>
      have := S.lt _ h2.1
      simp only [act, next, rank, findRank, contRank, cost, findMax]
      omega
    | into b j k =>
      have := S.lt _ h2.2.2.1
      simp only [act, next, rank, findRank, contRank, cost, findMax]
      omega
    | same i j k =>
      have := S.lt _ h2.1
      simp only [act, next, rank, findRank, contRank, cost, findMax]
      omega
  | find f c =>
    have hret : ∀ r, r < n → rank n L (ret r c) ≤ contRank n c := by
      intro r hr
      refine ret_rank hr ?_ ?_ ?_
      · rintro v k rfl
        obtain ⟨i, j, -, h2, -⟩ := hT
        exact S.lt _ h2.2.1
      · rintro j k rfl
        obtain ⟨i, -, -, h3, -⟩ := hT
        exact S.lt _ h3
      · rintro j k rfl
        obtain ⟨i, -, -, h3, -⟩ := hT
        exact S.lt _ h3
    obtain ⟨z, hz⟩ := hT.arg
    cases f with
    | start y =>
      obtain ⟨hz1, rfl⟩ := hz
      have hy := h.dec y hz1
      unfold act
      dsimp only
      split_ifs with he
      · have := hret (L y) (S.lt _ hy.1)
        dsimp only
        simp only [rank, findRank] at *
        omega
      · simp only [rank, findRank]
        omega
    | read a b =>
      have hb := hz.2.1.2.1
      unfold act
      dsimp only
      split_ifs with he
      · simp only [rank, findRank]
        omega
      · have := hret b (S.lt _ hb)
        dsimp only
        simp only [rank, findRank] at *
        omega
    | write a b m =>
      simp only [act, rank, findRank]
      omega
  | cas v o k =>
    obtain ⟨i, j, -, h2, h3, -⟩ := hT
    have hv := h.dec v h2.2.1
    have ho := h.dec o h3.2.1
    unfold act
    dsimp only
    split_ifs with h1 h4 h5 h6 h7 h8
    · simp only [rank]; omega
    · simp only [rank]; omega
    · simp only [rank]; omega
    · -- success on `o`
      simp only [rank, h7, max_eq_right h6.le, Function.update_self, if_true]
      rw [if_neg (by omega)]
      omega
    · simp only [rank, max_eq_right h6.le, if_neg h7]
      split_ifs <;> omega
    · have hov : o ≤ v := by omega
      simp only [rank, h8, max_eq_left hov, Function.update_self, if_true]
      rw [if_neg (by omega)]
      omega
    · have hov : o ≤ v := by omega
      simp only [rank, max_eq_left hov, if_neg h8]
      split_ifs <;> omega
  | store b r k => simp only [act, rank]; omega

lemma rank_step {P : Params} {prog : ℕ → Prog} (S : Spec P.n C R) (hser : P.serial = true → P.nt ≤ 1)
    {s : State} (h : Inv P C R B prog s) (t u : ℕ) (hu : u < P.nt) :
    rank P.n (step P s t).L ((step P s t).thr u) + (if u = t then 1 else 0) ≤
      rank P.n s.L (s.thr u) ∨ ((s.thr u) = .idle .ret ∧ (step P s t).thr u = .idle .ret) := by
  by_cases ht : t < P.nt
  · by_cases e : u = t
    · subst e
      by_cases hf : s.thr u = .idle .ret
      · right
        refine ⟨hf, ?_⟩
        rw [step_eq ht (accessed_lt S (h.threads u ht))]
        dsimp only
        rw [Function.update_self, hf]
        rfl
      · left
        have := rank_act S h.labels (h.threads u ht) hf
        rw [step_eq ht (accessed_lt S (h.threads u ht))]
        dsimp only
        rw [Function.update_self, if_pos rfl]
        omega
    · left
      have hg := (h.step S hser t).2
      have := rank_grow hg (h.threads u hu)
      rw [if_neg e]
      have hthr : (step P s t).thr u = s.thr u := by
        rw [step_eq ht (accessed_lt S (h.threads t ht))]
        dsimp only
        rw [Function.update_of_ne e]
      rw [hthr]
      omega
  · left
    have hs : step P s t = s := by unfold step; rw [if_pos (by omega)]
    rw [hs, if_neg (by omega)]
    omega

/-- A thread that has taken `cost` steps has finished, whatever the others did. -/
lemma wait_free_aux {P : Params} {prog : ℕ → Prog} (S : Spec P.n C R)
    (hser : P.serial = true → P.nt ≤ 1) {s : State} (h : Inv P C R B prog s) (u : ℕ) (hu : u < P.nt)
    (sched : List ℕ) (hn : rank P.n s.L (s.thr u) < sched.count u + 1) :
    (sched.foldl (step P) s).thr u = .idle .ret := by
  have hzero : ∀ s : State, Inv P C R B prog s → rank P.n s.L (s.thr u) = 0 → s.thr u = .idle .ret := by
    intro s h h0
    by_contra hne
    have := rank_act S h.labels (h.threads u hu) hne
    omega
  have hstay : ∀ (sched : List ℕ) (s : State), Inv P C R B prog s → s.thr u = .idle .ret →
      (sched.foldl (step P) s).thr u = .idle .ret := by
    intro sched
    induction sched with
    | nil => intro s _ h0; exact h0
    | cons t ts ih =>
      intro s h h0
      refine ih _ (h.step S hser t).1 ?_
      rcases rank_step S hser h t u hu with hr | hr
      · rw [h0] at hr
        have : rank P.n s.L (.idle .ret) = 0 := rfl
        exact hzero _ (h.step S hser t).1 (by omega)
      · exact hr.2
  induction sched generalizing s with
  | nil =>
    simp only [List.count_nil] at hn
    exact hzero s h (by omega)
  | cons t ts ih =>
    rw [List.count_cons] at hn
    rcases rank_step S hser h t u hu with hr | hr
    · refine ih (h.step S hser t).1 ?_
      by_cases e : u = t
      · subst e
        simp only [beq_self_eq_true, if_true] at hn hr
        omega
      · have : (t == u) = false := by simp; omega
        rw [this] at hn
        rw [if_neg e] at hr
        simp at hn
        omega
    · exact hstay ts _ (h.step S hser t).1 hr.2

end ArborX.UF
