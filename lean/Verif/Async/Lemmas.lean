import Verif.Async.Safe
import Verif.Async.Functions

/-! # Lemmas for the functions -/

namespace ArborX.Async

variable {L V : Type}

lemma Indep.symm {o o' : Op L V} (h : Indep o o') : Indep o' o :=
  ⟨fun l hl => ⟨h.2 l hl, fun hw => (h.1 l hw).2 hl⟩, fun l hl => (h.1 l hl).1⟩

lemma safe_launchAll {l : List (Op L V)} : ∀ {q : List (ℕ × Op L V)} {k : Prog L V}, (∀ e ∈ q, e.1 = 0) →
    Safe (q ++ l.map (fun o => (0, o))) k → Safe q (launchAll l k) := by
  induction l with
  | nil => intro q k _ h; simpa [launchAll, receives, sends] using h
  | cons o l ih =>
    intro q k hq h
    refine ⟨fun e he hne => absurd (hq e he) hne, ih ?_ ?_⟩
    · intro e he
      rcases List.mem_append.mp he with he | he
      · exact hq e he
      · rw [List.mem_singleton] at he; rw [he]
    · simpa using h

lemma filter_zero {q : List (ℕ × Op L V)} (h : ∀ e ∈ q, e.1 = 0) : q.filter (fun e => !(e.1 == 0)) = [] := by
  rw [List.filter_eq_nil_iff]
  intro e he
  simp [h e he]

variable [DecidableEq L]

lemma seq_launchAll (l : List (Op L V)) (k : Prog L V) (m : L → V) : seq (launchAll l k) m = seq k (l.foldl (fun m o => o.run m) m) := by
  induction l generalizing m with
  | nil => rfl
  | cons o l ih => exact ih _

omit [DecidableEq L] in
/-- A program that only uses queue 0, and in which the host only looks at memory after a fence. -/
lemma safe_reduce {q : List (ℕ × Op L V)} (hq : ∀ e ∈ q, e.1 = 0) {o : Op L V} {host : L} {k : List V → Prog L V} (h : ∀ v, Safe [] (k v)) :
    Safe q (reduce o host k) := by
  refine ⟨fun e he hne => absurd (hq e he) hne, ?_⟩
  show Safe ((q ++ [(0, o)]).filter (fun e => !(e.1 == 0))) _
  rw [filter_zero]
  · exact ⟨by simp, h⟩
  · intro e he
    rcases List.mem_append.mp he with he | he
    · exact hq e he
    · rw [List.mem_singleton] at he; rw [he]

omit [DecidableEq L] in
lemma safe_fence {q : List (ℕ × Op L V)} (hq : ∀ e ∈ q, e.1 = 0) {k : Prog L V} (h : Safe [] k) : Safe q (fence k) := by
  show Safe (q.filter (fun e => !(e.1 == 0))) _
  rw [filter_zero hq]
  exact h

omit [DecidableEq L] in
lemma safe_launch {q : List (ℕ × Op L V)} (hq : ∀ e ∈ q, e.1 = 0) {o : Op L V} {k : Prog L V} (h : Safe (q ++ [(0, o)]) k) : Safe q (.launch 0 o k) :=
  ⟨fun e he hne => absurd (hq e he) hne, h⟩

/-- A particular execution: `true` executes the first operation launched, `false` lets the host go on. -/
def exec : List Bool → State L V → Option (State L V)
  | [], s => some s
  | true :: c, ⟨m, (_, o) :: b, p⟩ => exec c ⟨o.run m, b, p⟩
  | true :: _, ⟨_, [], _⟩ => none
  | false :: _, ⟨_, _, .done⟩ => none
  | false :: c, ⟨m, q, .launch s o k⟩ => exec c ⟨m, q ++ [(s, o)], k⟩
  | false :: c, ⟨m, q, .wait w k⟩ => if q.all (fun e => !w e.1) then exec c ⟨m, q, k⟩ else none
  | false :: c, ⟨m, q, .host o k⟩ => exec c ⟨o.run m, q, k⟩
  | false :: c, ⟨m, q, .test r k⟩ => exec c ⟨m, q, k (r.map m)⟩

lemma exec_sound : ∀ {c : List Bool} {s s' : State L V}, exec c s = some s' → Relation.ReflTransGen Step s s' := by
  intro c
  induction c with
  | nil =>
    intro s s' h
    simp only [exec, Option.some.injEq] at h
    exact h ▸ .refl
  | cons b c ih =>
    intro s s' h
    obtain ⟨m, q, p⟩ := s
    cases b with
    | true =>
      cases q with
      | nil => simp [exec] at h
      | cons e q =>
        obtain ⟨st, o⟩ := e
        exact .head (.retire m [] q st o p (by simp)) (ih h)
    | false =>
      cases p with
      | done => simp [exec] at h
      | launch st o k => exact .head (.launch ..) (ih h)
      | wait w k =>
        simp only [exec] at h
        split at h
        · rename_i hq
          exact .head (.wait m q w k (by simpa [List.all_eq_true] using hq)) (ih h)
        · simp at h
      | host o k => exact .head (.host ..) (ih h)
      | test r k => exact .head (.test ..) (ih h)

/-! ## Messages -/

open MsgLoc

section
variable [Inhabited V]

def recvOp (C : Messages V) (into : ℕ → MsgLoc) (i : ℕ) : ℕ × Op MsgLoc V := (1 + 2 * i, ⟨[], [into i], fun _ _ => C.received i⟩)

def sendOp (C : Messages V) (data : MsgLoc) (i : ℕ) : ℕ × Op MsgLoc V := (2 + 2 * i, unary (C.sent i) data (wire i))

lemma safe_receives (C : Messages V) {into : ℕ → MsgLoc} (hinj : Function.Injective into) {src : List ℕ} :
    ∀ {q : List (ℕ × Op MsgLoc V)} {k}, (∀ e ∈ q, ∀ i ∈ src, e.1 = 1 + 2 * i ∨ Indep e.2 (recvOp C into i).2) →
      Safe (q ++ src.map (recvOp C into)) k → Safe q (receives C into src k) := by
  induction src with
  | nil => intro q k _ h; simpa [launchAll, receives, sends] using h
  | cons i l ih =>
    intro q k hq h
    refine ⟨fun e he hne => (hq e he i (by simp)).resolve_left hne, ih ?_ ?_⟩
    · intro e he j hj
      rcases List.mem_append.mp he with he | he
      · exact hq e he j (by simp [hj])
      · rw [List.mem_singleton] at he
        subst he
        by_cases hij : i = j
        · left; simp [hij]
        · right
          have : into i ≠ into j := fun hc => hij (hinj hc)
          refine ⟨?_, ?_⟩ <;> simp [recvOp, this]
    · simpa [recvOp] using h

lemma safe_sends (C : Messages V) {data : MsgLoc} (hd : ∀ i, data ≠ wire i) {dst : List ℕ} :
    ∀ {q : List (ℕ × Op MsgLoc V)} {k}, (∀ e ∈ q, ∀ i ∈ dst, e.1 = 2 + 2 * i ∨ Indep e.2 (sendOp C data i).2) →
      Safe (q ++ dst.map (sendOp C data)) k → Safe q (sends C data dst k) := by
  induction dst with
  | nil => intro q k _ h; simpa [launchAll, receives, sends] using h
  | cons i l ih =>
    intro q k hq h
    refine ⟨fun e he hne => (hq e he i (by simp)).resolve_left hne, ih ?_ ?_⟩
    · intro e he j hj
      rcases List.mem_append.mp he with he | he
      · exact hq e he j (by simp [hj])
      · rw [List.mem_singleton] at he
        subst he
        by_cases hij : i = j
        · left; simp [hij]
        · right
          refine ⟨?_, ?_⟩ <;> simp [sendOp, unary, hij, (hd _).symm]
    · simpa [sendOp] using h

lemma safe_copyImports {src : List ℕ} : ∀ {q : List (ℕ × Op MsgLoc V)} {k}, (∀ e ∈ q, e.1 = 0) → (∀ q', (∀ e ∈ q', e.1 = 0) → Safe q' k) →
    Safe q (copyImports src k) := by
  induction src with
  | nil => intro q k hq h; exact h q hq
  | cons i l ih =>
    intro q k hq h
    refine ⟨fun e he hne => absurd (hq e he) hne, ih ?_ h⟩
    intro e he
    rcases List.mem_append.mp he with he | he
    · exact hq e he
    · rw [List.mem_singleton] at he; rw [he]

lemma seq_receives (C : Messages V) {into : ℕ → MsgLoc} (hinj : Function.Injective into) (src : List ℕ) (k : Prog MsgLoc V) (m : MsgLoc → V) :
    ∃ m₂, seq (receives C into src k) m = seq k m₂ ∧ (∀ i ∈ src, m₂ (into i) = C.received i) ∧ ∀ x, (∀ i ∈ src, x ≠ into i) → m₂ x = m x := by
  induction src generalizing m with
  | nil => exact ⟨m, rfl, by simp, by simp⟩
  | cons i l ih =>
    obtain ⟨m₂, h1, h2, h3⟩ := ih ((recvOp C into i).2.run m)
    refine ⟨m₂, h1, ?_, ?_⟩
    · intro j hj
      by_cases hl : j ∈ l
      · exact h2 j hl
      · have : j = i := by simpa [hl] using hj
        subst this
        rw [h3 (into j) (fun a ha hc => hl (hinj hc ▸ ha))]
        simp [Op.run, recvOp]
    · intro x hx
      rw [h3 x (fun a ha => hx a (by simp [ha]))]
      simp [Op.run, recvOp, hx i (by simp)]

lemma seq_sends (C : Messages V) {data : MsgLoc} (hd : ∀ i, data ≠ wire i) (dst : List ℕ) (k : Prog MsgLoc V) (m : MsgLoc → V) :
    ∃ m₂, seq (sends C data dst k) m = seq k m₂ ∧ (∀ i ∈ dst, m₂ (wire i) = C.sent i (m data)) ∧ ∀ x, (∀ i ∈ dst, x ≠ wire i) → m₂ x = m x := by
  induction dst generalizing m with
  | nil => exact ⟨m, rfl, by simp, by simp⟩
  | cons i l ih =>
    obtain ⟨m₂, h1, h2, h3⟩ := ih ((sendOp C data i).2.run m)
    have hdata : (sendOp C data i).2.run m data = m data := by simp [Op.run, sendOp, unary, hd]
    rw [hdata] at h2
    refine ⟨m₂, h1, ?_, ?_⟩
    · intro j hj
      by_cases hl : j ∈ l
      · exact h2 j hl
      · have : j = i := by simpa [hl] using hj
        subst this
        rw [h3 (wire j) (fun a ha hc => hl (by injection hc with hc; exact hc ▸ ha))]
        simp [Op.run, sendOp, unary]
    · intro x hx
      rw [h3 x (fun a ha => hx a (by simp [ha]))]
      simp [Op.run, sendOp, unary, hx i (by simp)]

lemma seq_copyImports (src : List ℕ) (k : Prog MsgLoc V) (m : MsgLoc → V) :
    ∃ m₂, seq (copyImports src k) m = seq k m₂ ∧ (∀ i ∈ src, m₂ (imports i) = m (importsComm i)) ∧ ∀ x, (∀ i ∈ src, x ≠ imports i) → m₂ x = m x := by
  induction src generalizing m with
  | nil => exact ⟨m, rfl, by simp, by simp⟩
  | cons i l ih =>
    obtain ⟨m₂, h1, h2, h3⟩ := ih ((copy (importsComm i) (imports i)).run m)
    refine ⟨m₂, h1, ?_, ?_⟩
    · intro j hj
      by_cases hl : j ∈ l
      · rw [h2 j hl]; simp [Op.run, copy, unary]
      · have : j = i := by simpa [hl] using hj
        subst this
        rw [h3 (imports j) (fun a ha hc => hl (by injection hc with hc; exact hc ▸ ha))]
        simp [Op.run, copy, unary]
    · intro x hx
      rw [h3 x (fun a ha => hx a (by simp [ha]))]
      simp [Op.run, copy, unary, hx i (by simp)]

end

end ArborX.Async
