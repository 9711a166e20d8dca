import Verif.Async.Model
import Mathlib.Tactic.Common

/-!
# Programs without conflicts are deterministic

`Safe q p`: if the operations `q` may still be in the queues, no operation of `p` conflicts with one that may be executed at the same time.
-/

namespace ArborX.Async

variable {L V : Type}

/-- No conflict: neither operation writes what the other one reads or writes. -/
def Indep (o o' : Op L V) : Prop := (∀ l ∈ o.writes, l ∉ o'.reads ∧ l ∉ o'.writes) ∧ ∀ l ∈ o'.writes, l ∉ o.reads

def Safe : List (ℕ × Op L V) → Prog L V → Prop
  | _, .done => True
  | q, .launch s o k => (∀ e ∈ q, e.1 ≠ s → Indep e.2 o) ∧ Safe (q ++ [(s, o)]) k
  | q, .wait w k => Safe (q.filter (fun e => !w e.1)) k
  | q, .host o k => (∀ e ∈ q, Indep e.2 o) ∧ Safe q k
  | q, .test r k => (∀ e ∈ q, ∀ l ∈ e.2.writes, l ∉ r) ∧ ∀ v, Safe q (k v)

lemma Safe.sublist {p : Prog L V} : ∀ {q q' : List (ℕ × Op L V)}, q'.Sublist q → Safe q p → Safe q' p := by
  induction p with
  | done => intros; trivial
  | launch s o k ih =>
    intro q q' hs h
    exact ⟨fun e he => h.1 e (hs.subset he), ih (hs.append (List.Sublist.refl _)) h.2⟩
  | wait w k ih => intro q q' hs h; exact ih (hs.filter _) h
  | host o k ih => intro q q' hs h; exact ⟨fun e he => h.1 e (hs.subset he), ih hs h.2⟩
  | test r k ih => intro q q' hs h; exact ⟨fun e he => h.1 e (hs.subset he), fun v => ih v hs (h.2 v)⟩

variable [DecidableEq L]

lemma Indep.comm {o o' : Op L V} (h : Indep o o') (m : L → V) : o.run (o'.run m) = o'.run (o.run m) := by
  have e1 : o.reads.map (o'.run m) = o.reads.map m := by
    apply List.map_congr_left
    intro l hl
    unfold Op.run
    rw [if_neg (fun hw => h.2 l hw hl)]
  have e2 : o'.reads.map (o.run m) = o'.reads.map m := by
    apply List.map_congr_left
    intro l hl
    unfold Op.run
    rw [if_neg (fun hw => (h.1 l hw).1 hl)]
  funext l
  by_cases h1 : l ∈ o.writes
  · have h2 := (h.1 l h1).2
    have a : o.run (o'.run m) l = o.effect (o.reads.map (o'.run m)) l := if_pos h1
    have b : o'.run (o.run m) l = o.run m l := if_neg h2
    have c : o.run m l = o.effect (o.reads.map m) l := if_pos h1
    rw [a, b, c, e1]
  · have a : o.run (o'.run m) l = o'.run m l := if_neg h1
    rw [a]
    by_cases h2 : l ∈ o'.writes
    · have b : o'.run (o.run m) l = o'.effect (o'.reads.map (o.run m)) l := if_pos h2
      have c : o'.run m l = o'.effect (o'.reads.map m) l := if_pos h2
      rw [b, c, e2]
    · have b : o'.run (o.run m) l = o.run m l := if_neg h2
      have c : o'.run m l = m l := if_neg h2
      have d : o.run m l = m l := if_neg h1
      rw [b, c, d]

/-- The queues are executed in the order of the launches. -/
def drain (q : List (ℕ × Op L V)) (m : L → V) : L → V := q.foldl (fun m e => e.2.run m) m

lemma drain_append (a b : List (ℕ × Op L V)) (m : L → V) : drain (a ++ b) m = drain b (drain a m) := List.foldl_append

lemma drain_comm {q : List (ℕ × Op L V)} {o : Op L V} (h : ∀ e ∈ q, Indep e.2 o) (m : L → V) : drain q (o.run m) = o.run (drain q m) := by
  induction q generalizing m with
  | nil => rfl
  | cons e q ih =>
    show drain q (e.2.run (o.run m)) = o.run (drain q (e.2.run m))
    rw [(h e (by simp)).comm, ih (fun x hx => h x (by simp [hx]))]

lemma drain_reads {q : List (ℕ × Op L V)} {r : List L} (h : ∀ e ∈ q, ∀ l ∈ e.2.writes, l ∉ r) (m : L → V) : r.map (drain q m) = r.map m := by
  induction q generalizing m with
  | nil => rfl
  | cons e q ih =>
    show r.map (drain q (e.2.run m)) = _
    rw [ih (fun x hx => h x (by simp [hx]))]
    apply List.map_congr_left
    intro l hl
    unfold Op.run
    rw [if_neg (fun hw => h e (by simp) l hw hl)]

/-- What holds in every state of an execution: operations of different queues do not conflict, the rest of the program is safe, and the result is `R`. -/
def Inv (R : L → V) (s : State L V) : Prop :=
  s.pending.Pairwise (fun e e' => e.1 ≠ e'.1 → Indep e.2 e'.2) ∧ Safe s.pending s.prog ∧ seq s.prog (drain s.pending s.mem) = R

lemma Inv.step {R : L → V} {s s' : State L V} (h : Inv R s) (hs : Step s s') : Inv R s' := by
  obtain ⟨h1, h2, h3⟩ := h
  cases hs with
  | retire m a b st o p hne =>
    simp only at h1 h2 h3
    have hsub : (a ++ b).Sublist (a ++ (st, o) :: b) := (List.Sublist.refl a).append (List.sublist_cons_self _ _)
    refine ⟨h1.sublist hsub, h2.sublist hsub, ?_⟩
    rw [← h3]
    simp only [drain_append]
    have hind : ∀ e ∈ a, Indep e.2 o := by
      intro e he
      exact (List.pairwise_append.mp h1).2.2 e he (st, o) (by simp) (hne e he)
    rw [drain_comm hind]
    rfl
  | launch m q st o k =>
    refine ⟨?_, h2.2, ?_⟩
    · rw [List.pairwise_append]
      refine ⟨h1, List.pairwise_singleton _ _, ?_⟩
      intro e he e' he' hne
      rw [List.mem_singleton] at he'
      subst he'
      exact h2.1 e he hne
    · rw [← h3]
      simp only [drain_append]
      rfl
  | wait m q w k hw =>
    refine ⟨h1, ?_, h3⟩
    have h2' : Safe (q.filter (fun e => !w e.1)) k := h2
    rwa [List.filter_eq_self.mpr (fun e he => by simp [hw e he])] at h2'
  | host m q o k =>
    refine ⟨h1, h2.2, ?_⟩
    rw [← h3]
    simp only
    rw [drain_comm h2.1]
    rfl
  | test m q r k =>
    refine ⟨h1, h2.2 _, ?_⟩
    rw [← h3]
    simp only
    show _ = seq (k (r.map (drain q m))) (drain q m)
    rw [drain_reads h2.1]

omit [DecidableEq L] in
lemma exists_first (q : List (ℕ × Op L V)) (h : q ≠ []) : ∃ e b, q = e :: b := by
  cases q with
  | nil => exact absurd rfl h
  | cons e b => exact ⟨e, b, rfl⟩

/-- No execution gets stuck: as long as an operation is in a queue, the first one can be executed. -/
lemma progress (s : State L V) : (s.prog = .done ∧ s.pending = []) ∨ ∃ s', Step s s' := by
  obtain ⟨m, q, p⟩ := s
  rcases q with _ | ⟨⟨st, o⟩, b⟩
  · cases p with
    | done => exact Or.inl ⟨rfl, rfl⟩
    | launch s o k => exact Or.inr ⟨_, .launch m [] s o k⟩
    | wait w k => exact Or.inr ⟨_, .wait m [] w k (by simp)⟩
    | host o k => exact Or.inr ⟨_, .host m [] o k⟩
    | test r k => exact Or.inr ⟨_, .test m [] r k⟩
  · exact Or.inr ⟨_, .retire m [] b st o p (by simp)⟩

/-- Every execution ends. -/
lemma terminates (p : Prog L V) : ∀ (m : L → V) (q : List (ℕ × Op L V)), Acc (fun a b : State L V => Step b a) ⟨m, q, p⟩ := by
  induction p with
  | done =>
    intro m q
    induction hq : q.length generalizing m q with
    | zero =>
      refine ⟨_, fun s hs => ?_⟩
      have : q = [] := List.length_eq_zero_iff.mp hq
      subst this
      generalize hst : (⟨m, [], .done⟩ : State L V) = st at hs
      cases hs <;> simp at hst
    | succ n ih =>
      refine ⟨_, fun s hs => ?_⟩
      cases hs with
      | retire m a b s o p h => exact ih _ _ (by simp at hq ⊢; omega)
  | launch s o k ih =>
    intro m q
    induction hq : q.length generalizing m q with
    | zero =>
      refine ⟨_, fun s' hs => ?_⟩
      have : q = [] := List.length_eq_zero_iff.mp hq
      subst this
      generalize hst : (⟨m, [], .launch s o k⟩ : State L V) = st at hs
      cases hs <;> simp at hst
      obtain ⟨rfl, rfl, rfl, rfl, rfl⟩ := hst
      exact ih _ _
    | succ n ihn =>
      refine ⟨_, fun s hs => ?_⟩
      cases hs with
      | retire m a b s o p h => exact ihn _ _ (by simp at hq ⊢; omega)
      | launch => exact ih _ _
  | wait w k ih =>
    intro m q
    induction hq : q.length generalizing m q with
    | zero =>
      refine ⟨_, fun s' hs => ?_⟩
      have : q = [] := List.length_eq_zero_iff.mp hq
      subst this
      generalize hst : (⟨m, [], .wait w k⟩ : State L V) = st at hs
      cases hs <;> simp at hst
      obtain ⟨rfl, rfl, rfl, rfl⟩ := hst
      exact ih _ _
    | succ n ihn =>
      refine ⟨_, fun s hs => ?_⟩
      cases hs with
      | retire m a b s o p h => exact ihn _ _ (by simp at hq ⊢; omega)
      | wait => exact ih _ _
  | host o k ih =>
    intro m q
    induction hq : q.length generalizing m q with
    | zero =>
      refine ⟨_, fun s' hs => ?_⟩
      have : q = [] := List.length_eq_zero_iff.mp hq
      subst this
      generalize hst : (⟨m, [], .host o k⟩ : State L V) = st at hs
      cases hs <;> simp at hst
      obtain ⟨rfl, rfl, rfl, rfl⟩ := hst
      exact ih _ _
    | succ n ihn =>
      refine ⟨_, fun s hs => ?_⟩
      cases hs with
      | retire m a b s o p h => exact ihn _ _ (by simp at hq ⊢; omega)
      | host => exact ih _ _
  | test r k ih =>
    intro m q
    induction hq : q.length generalizing m q with
    | zero =>
      refine ⟨_, fun s' hs => ?_⟩
      have : q = [] := List.length_eq_zero_iff.mp hq
      subst this
      generalize hst : (⟨m, [], .test r k⟩ : State L V) = st at hs
      cases hs <;> simp at hst
      obtain ⟨rfl, rfl, rfl, rfl⟩ := hst
      exact ih _ _ _
    | succ n ihn =>
      refine ⟨_, fun s hs => ?_⟩
      cases hs with
      | retire m a b s o p h => exact ihn _ _ (by simp at hq ⊢; omega)
      | test => exact ih _ _ _

/-- Programs without conflicts: every execution ends, does not get stuck, and has the result of the execution in order. -/
theorem safe_deterministic {p : Prog L V} (h : Safe [] p) : Deterministic p := by
  intro m
  refine ⟨terminates p m [], fun s _ => progress s, ?_⟩
  intro m' he
  have : ∀ s, Relation.ReflTransGen Step ⟨m, [], p⟩ s → Inv (seq p m) s := by
    intro s hs
    induction hs with
    | refl => exact ⟨List.Pairwise.nil, h, rfl⟩
    | tail _ hst ih => exact ih.step hst
  exact (this _ he).2.2

end ArborX.Async
