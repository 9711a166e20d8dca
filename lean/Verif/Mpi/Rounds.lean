import Verif.Mpi.Confluence
import Mathlib.Data.List.ProdSigma
import Mathlib.Data.List.Nodup

/-! # Programs that proceed in rounds

`Runs` is the meaning of programs whose processes take part in the same operations in the same order, executed operation by operation on all processes at once. Every execution of such programs ends with the same results. -/

namespace ArborX.Mpi

variable {C X M R : Type}

/-- The messages of a list that are sent to `r`. -/
def messagesTo (r : ℕ) (msgs : List (ℕ × M)) : List M := (msgs.filter fun y => y.1 = r).map Prod.snd

/-- `Runs P p res`: executed operation by operation, the programs `p` of `P` processes end with results `res`. -/
inductive Runs (P : ℕ) : (ℕ → Prog C X M R) → (ℕ → R) → Prop
  | done {p res} (h : ∀ s < P, p s = .done (res s)) : Runs P p res
  | coll {p res} (c : C) (x : ℕ → X) (k : ℕ → List X → Prog C X M R) (h : ∀ s < P, p s = .enter c (x s) (k s))
      (hr : Runs P (fun s => k s ((List.range P).map x)) res) : Runs P p res
  | exch {p res} (src : ℕ → List ℕ) (msgs : ℕ → List (ℕ × M)) (k : ℕ → (ℕ → List M) → Prog C X M R) (h : ∀ s < P, p s = exchange (src s) (msgs s) (k s))
      (hsrc : ∀ r < P, ∀ s ∈ src r, s < P) (hdst : ∀ s < P, ∀ y ∈ msgs s, y.1 < P)
      (hmatch : ∀ s < P, ∀ r < P, (src r).count s = (messagesTo r (msgs s)).length)
      (hr : Runs P (fun r => k r fun s => if s < P then messagesTo r (msgs s) else []) res) : Runs P p res

variable [DecidableEq C] {P : ℕ} {eager : ℕ → ℕ → M → Bool}

abbrev Reach (P : ℕ) (eager : ℕ → ℕ → M → Bool) : State C X M R → State C X M R → Prop := Relation.ReflTransGen (Step P eager)

/-- No messages under way, all processes in the same round. -/
structure Clean (P n : ℕ) (p : ℕ → Prog C X M R) (σ : State C X M R) : Prop where
  prog : ∀ s < P, σ.prog s = p s
  chan : ∀ x, σ.chan x = []
  want : ∀ x, σ.want x = 0
  got : ∀ x, σ.got x = []
  hist : ∀ s < P, (σ.hist s).length = n

/-- All processes enter a collective operation. -/
lemma enter_all {σ : State C X M R} {c : C} {x : ℕ → X} {k : ℕ → List X → Prog C X M R} (h : ∀ s < P, σ.prog s = .enter c (x s) (k s)) :
    ∀ j ≤ P, ∃ τ, Reach P eager σ τ ∧ (∀ s < P, τ.prog s = if s < j then .leave c (k s) else .enter c (x s) (k s)) ∧ τ.chan = σ.chan ∧ τ.want = σ.want ∧ τ.got = σ.got ∧
      ∀ s < P, τ.hist s = if s < j then σ.hist s ++ [(c, x s)] else σ.hist s := by
  intro j
  induction j with
  | zero => intro _; exact ⟨σ, .refl, by simpa using h, rfl, rfl, rfl, by simp⟩
  | succ j ih =>
    intro hj
    obtain ⟨τ, h1, h2, h3, h4, h5, h6⟩ := ih (by omega)
    have hp : τ.prog j = .enter c (x j) (k j) := by rw [h2 j (by omega)]; simp
    refine ⟨{ τ with prog := Function.update τ.prog j (.leave c (k j)), hist := Function.update τ.hist j (τ.hist j ++ [(c, x j)]) },
      h1.tail (.act j (by omega) (by unfold act; rw [hp])), ?_, h3, h4, h5, ?_⟩
    · intro s hs
      by_cases hsj : s = j
      · subst hsj; simp
      · simp only [Function.update_of_ne hsj, h2 s hs, show s < j + 1 ↔ s < j by omega]
    · intro s hs
      by_cases hsj : s = j
      · subst hsj; simp [h6 s hs]
      · simp only [Function.update_of_ne hsj, h6 s hs, show s < j + 1 ↔ s < j by omega]

lemma gather_all {hist : ℕ → List (C × X)} {c : C} {x : ℕ → X} {n : ℕ} (h : ∀ s < P, ∃ l, hist s = l ++ [(c, x s)] ∧ l.length = n) :
    gather P hist c n = some ((List.range P).map x) := by
  unfold gather
  have : ∀ l : List ℕ, (∀ t ∈ l, t < P) → l.mapM (fun t => contribution c n (hist t)) = some (l.map x) := by
    intro l
    induction l with
    | nil => intro _; rfl
    | cons a l ih =>
      intro hl
      rw [List.mapM_cons, ih (fun t ht => hl t (by simp [ht]))]
      obtain ⟨m, hm, hn⟩ := h a (hl a (by simp))
      have : contribution c n (hist a) = some (x a) := by
        unfold contribution
        rw [hm, ← hn]
        simp
      rw [this]
      rfl
  exact this _ (fun t ht => List.mem_range.1 ht)

/-- All processes leave it. -/
lemma leave_all {σ : State C X M R} {c : C} {x : ℕ → X} {k : ℕ → List X → Prog C X M R} {n : ℕ} (h : ∀ s < P, σ.prog s = .leave c (k s))
    (hh : ∀ s < P, ∃ l, σ.hist s = l ++ [(c, x s)] ∧ l.length = n) :
    ∀ j ≤ P, ∃ τ, Reach P eager σ τ ∧ (∀ s < P, τ.prog s = if s < j then k s ((List.range P).map x) else .leave c (k s)) ∧ τ.chan = σ.chan ∧ τ.want = σ.want ∧ τ.got = σ.got ∧
      τ.hist = σ.hist := by
  intro j
  induction j with
  | zero => intro _; exact ⟨σ, .refl, by simpa using h, rfl, rfl, rfl, rfl⟩
  | succ j ih =>
    intro hj
    obtain ⟨τ, h1, h2, h3, h4, h5, h6⟩ := ih (by omega)
    have hp : τ.prog j = .leave c (k j) := by rw [h2 j (by omega)]; simp
    have hlen : (τ.hist j).length - 1 = n := by
      obtain ⟨l, hl, hn⟩ := hh j (by omega)
      rw [h6, hl]; simp [hn]
    refine ⟨{ τ with prog := Function.update τ.prog j (k j ((List.range P).map x)) },
      h1.tail (.act j (by omega) (by unfold act; simp only [hp, hlen]; rw [h6, gather_all hh]; rfl)), ?_, h3, h4, h5, h6⟩
    intro s hs
    by_cases hsj : s = j
    · subst hsj; simp
    · simp only [Function.update_of_ne hsj, h2 s hs, show s < j + 1 ↔ s < j by omega]

lemma coll_round {σ : State C X M R} {n : ℕ} {p : ℕ → Prog C X M R} (hc : Clean P n p σ) {c : C} {x : ℕ → X} {k : ℕ → List X → Prog C X M R}
    (h : ∀ s < P, p s = .enter c (x s) (k s)) : ∃ τ, Reach P eager σ τ ∧ Clean P (n + 1) (fun s => k s ((List.range P).map x)) τ := by
  obtain ⟨τ, h1, h2, h3, h4, h5, h6⟩ := enter_all (P := P) (eager := eager) (σ := σ) (fun s hs => (hc.prog s hs).trans (h s hs)) P le_rfl
  obtain ⟨υ, g1, g2, g3, g4, g5, g6⟩ := leave_all (P := P) (eager := eager) (σ := τ) (c := c) (x := x) (k := k) (n := n)
    (fun s hs => by rw [h2 s hs, if_pos hs]) (fun s hs => ⟨σ.hist s, by rw [h6 s hs, if_pos hs], hc.hist s hs⟩) P le_rfl
  refine ⟨υ, h1.trans g1, ?_, ?_, ?_, ?_, ?_⟩
  · intro s hs; rw [g2 s hs, if_pos hs]
  · intro y; rw [g3, h3]; exact hc.chan y
  · intro y; rw [g4, h4]; exact hc.want y
  · intro y; rw [g5, h5]; exact hc.got y
  · intro s hs
    rw [g6, h6 s hs, if_pos hs]
    simp [hc.hist s hs]

/-- A process posts its receives. -/
lemma post_recvs {s : ℕ} (hs : s < P) {k : Prog C X M R} : ∀ (l : List ℕ) {σ : State C X M R}, σ.prog s = irecvs l k → (∀ t ∈ l, t < P) →
    ∃ τ, Reach P eager σ τ ∧ τ.prog = Function.update σ.prog s k ∧ τ.chan = σ.chan ∧ (∀ x, τ.want x = if x.2 = s then σ.want x + l.count x.1 else σ.want x) ∧ τ.got = σ.got ∧ τ.hist = σ.hist
  | [], σ, h, _ => ⟨σ, .refl, by rw [show k = σ.prog s from h.symm]; simp, rfl, by simp, rfl, rfl⟩
  | t :: l, σ, h, hl => by
    obtain ⟨τ, h1, h2, h3, h4, h5, h6⟩ := post_recvs hs (k := k) l
      (σ := { σ with prog := Function.update σ.prog s (irecvs l k), want := Function.update σ.want (t, s) (σ.want (t, s) + 1) }) (by simp) (fun u hu => hl u (by simp [hu]))
    refine ⟨τ, .head (.act s hs (by unfold act; simp only [h, irecvs]; rw [if_pos (hl t (by simp))])) h1, by rw [h2]; simp, h3, ?_, h5, h6⟩
    rintro ⟨a, b⟩
    rw [h4]
    dsimp only
    by_cases hb : b = s
    · subst hb
      by_cases ha : a = t
      · subst ha; simp; omega
      · simp [ha, List.count_cons]; intro h; exact absurd h.symm ha
    · simp [hb]

lemma messagesTo_nil (r : ℕ) : messagesTo r ([] : List (ℕ × M)) = [] := rfl

lemma messagesTo_cons (r d : ℕ) (m : M) (l : List (ℕ × M)) : messagesTo r ((d, m) :: l) = if d = r then m :: messagesTo r l else messagesTo r l := by
  unfold messagesTo
  by_cases h : d = r <;> simp [h]

/-- It posts its sends. -/
lemma post_sends {s : ℕ} (hs : s < P) {k : Prog C X M R} : ∀ (l : List (ℕ × M)) {σ : State C X M R}, σ.prog s = isends l k → (∀ y ∈ l, y.1 < P) →
    ∃ τ, Reach P eager σ τ ∧ τ.prog = Function.update σ.prog s k ∧ (∀ x, τ.chan x = if x.1 = s then σ.chan x ++ messagesTo x.2 l else σ.chan x) ∧ τ.want = σ.want ∧ τ.got = σ.got ∧ τ.hist = σ.hist
  | [], σ, h, _ => ⟨σ, .refl, by rw [show k = σ.prog s from h.symm]; simp, by simp [messagesTo_nil], rfl, rfl, rfl⟩
  | (d, m) :: l, σ, h, hl => by
    obtain ⟨τ, h1, h2, h3, h4, h5, h6⟩ := post_sends hs (k := k) l
      (σ := { σ with prog := Function.update σ.prog s (isends l k), chan := Function.update σ.chan (s, d) (σ.chan (s, d) ++ [m]) }) (by simp) (fun u hu => hl u (by simp [hu]))
    refine ⟨τ, .head (.act s hs (by unfold act; simp only [h, isends]; rw [if_pos (hl (d, m) (by simp))])) h1, by rw [h2]; simp, ?_, h4, h5, h6⟩
    rintro ⟨a, b⟩
    rw [h3]
    dsimp only
    rw [messagesTo_cons]
    by_cases ha : a = s
    · subst ha
      by_cases hb : d = b
      · subst hb; simp
      · simp [hb, Ne.symm hb]
    · simp [ha]

/-- All processes post. -/
lemma post_all {σ : State C X M R} {src : ℕ → List ℕ} {msgs : ℕ → List (ℕ × M)} {k : ℕ → (ℕ → List M) → Prog C X M R} (h : ∀ s < P, σ.prog s = exchange (src s) (msgs s) (k s))
    (hsrc : ∀ r < P, ∀ s ∈ src r, s < P) (hdst : ∀ s < P, ∀ y ∈ msgs s, y.1 < P) (hchan : ∀ x, σ.chan x = []) (hwant : ∀ x, σ.want x = 0) :
    ∀ j ≤ P, ∃ τ, Reach P eager σ τ ∧ (∀ s < P, τ.prog s = if s < j then .wait (k s) else exchange (src s) (msgs s) (k s)) ∧
      (∀ x, τ.chan x = if x.1 < j then messagesTo x.2 (msgs x.1) else []) ∧ (∀ x, τ.want x = if x.2 < j then (src x.2).count x.1 else 0) ∧ τ.got = σ.got ∧ τ.hist = σ.hist := by
  intro j
  induction j with
  | zero => intro _; exact ⟨σ, .refl, by simpa using h, by simpa using hchan, by simpa using hwant, rfl, rfl⟩
  | succ j ih =>
    intro hj
    obtain ⟨τ, h1, h2, h3, h4, h5, h6⟩ := ih (by omega)
    have hp : τ.prog j = irecvs (src j) (isends (msgs j) (.wait (k j))) := by rw [h2 j (by omega)]; simp [exchange]
    obtain ⟨υ, g1, g2, g3, g4, g5, g6⟩ := post_recvs (P := P) (eager := eager) (s := j) (by omega) (src j) hp (hsrc j (by omega))
    obtain ⟨ω, f1, f2, f3, f4, f5, f6⟩ := post_sends (P := P) (eager := eager) (s := j) (by omega) (k := .wait (k j)) (msgs j) (σ := υ) (by rw [g2]; simp) (hdst j (by omega))
    refine ⟨ω, (h1.trans g1).trans f1, ?_, ?_, ?_, by rw [f5, g5, h5], by rw [f6, g6, h6]⟩
    · intro s hs
      rw [f2, g2]
      by_cases hsj : s = j
      · subst hsj; simp
      · simp only [Function.update_of_ne hsj, h2 s hs, show s < j + 1 ↔ s < j by omega]
    · rintro ⟨a, b⟩
      rw [f3, g3, h3]
      dsimp only
      by_cases ha : a = j
      · subst ha; simp
      · simp only [if_neg ha, show a < j + 1 ↔ a < j by omega]
    · rintro ⟨a, b⟩
      rw [f4, g4, h4]
      dsimp only
      by_cases hb : b = j
      · subst hb; simp
      · simp only [if_neg hb, show b < j + 1 ↔ b < j by omega]

/-- All messages of a channel are matched. -/
lemma deliver_channel {s r : ℕ} (hs : s < P) (hr : r < P) : ∀ (q : List M) {σ : State C X M R}, σ.chan (s, r) = q → σ.want (s, r) = q.length →
    ∃ τ, Reach P eager σ τ ∧ τ.prog = σ.prog ∧ τ.chan = Function.update σ.chan (s, r) [] ∧ τ.want = Function.update σ.want (s, r) 0 ∧
      τ.got = Function.update σ.got (s, r) (σ.got (s, r) ++ q) ∧ τ.hist = σ.hist
  | [], σ, h1, h2 => ⟨σ, .refl, rfl, by rw [← h1]; simp, by rw [show (0 : ℕ) = σ.want (s, r) from h2.symm]; simp, by simp, rfl⟩
  | m :: q, σ, h1, h2 => by
    have hd := deliver_of (C := C) (X := X) (R := R) (x := (s, r)) (σ := σ) (n := q.length) h2 h1
    obtain ⟨τ, g1, g2, g3, g4, g5, g6⟩ := deliver_channel hs hr q
      (σ := { σ with chan := Function.update σ.chan (s, r) q, want := Function.update σ.want (s, r) q.length, got := Function.update σ.got (s, r) (σ.got (s, r) ++ [m]) }) (by simp) (by simp)
    exact ⟨τ, .head (.deliver s r hs hr hd) g1, g2, by rw [g3]; simp, by rw [g4]; simp, by rw [g5]; simp, g6⟩

lemma deliver_all {σ : State C X M R} (hm : ∀ s < P, ∀ r < P, σ.want (s, r) = (σ.chan (s, r)).length) (hg : ∀ x, σ.got x = []) :
    ∀ l : List (ℕ × ℕ), (∀ x ∈ l, x.1 < P ∧ x.2 < P) → l.Nodup →
      ∃ τ, Reach P eager σ τ ∧ τ.prog = σ.prog ∧ (∀ x, τ.chan x = if x ∈ l then [] else σ.chan x) ∧ (∀ x, τ.want x = if x ∈ l then 0 else σ.want x) ∧
        (∀ x, τ.got x = if x ∈ l then σ.chan x else []) ∧ τ.hist = σ.hist
  | [], _, _ => ⟨σ, .refl, rfl, by simp, by simp, by simpa using hg, rfl⟩
  | (s, r) :: l, hl, hn => by
    obtain ⟨τ, g1, g2, g3, g4, g5, g6⟩ := deliver_all hm hg l (fun x hx => hl x (by simp [hx])) (List.nodup_cons.1 hn).2
    have hnl := (List.nodup_cons.1 hn).1
    obtain ⟨hs, hr⟩ := hl (s, r) (by simp)
    obtain ⟨υ, f1, f2, f3, f4, f5, f6⟩ := deliver_channel (P := P) (eager := eager) hs hr (σ.chan (s, r)) (σ := τ) (by rw [g3, if_neg hnl]) (by rw [g4, if_neg hnl]; exact hm s hs r hr)
    refine ⟨υ, g1.trans f1, f2.trans g2, ?_, ?_, ?_, f6.trans g6⟩
    · intro x
      rw [f3]
      by_cases hx : x = (s, r)
      · subst hx; simp
      · simp [hx, g3]
    · intro x
      rw [f4]
      by_cases hx : x = (s, r)
      · subst hx; simp
      · simp [hx, g4]
    · intro x
      rw [f5]
      by_cases hx : x = (s, r)
      · subst hx; simp [g5, hnl]
      · simp [hx, g5]

/-- All processes return from the wait. -/
lemma wait_all {σ : State C X M R} {k : ℕ → (ℕ → List M) → Prog C X M R} (h : ∀ s < P, σ.prog s = .wait (k s)) (hw : ∀ x, x.1 < P → x.2 < P → σ.want x = 0)
    (hc : ∀ x, x.1 < P → x.2 < P → σ.chan x = []) :
    ∀ j ≤ P, ∃ τ, Reach P eager σ τ ∧ (∀ s < P, τ.prog s = if s < j then k s (fun t => σ.got (t, s)) else .wait (k s)) ∧ τ.chan = σ.chan ∧ τ.want = σ.want ∧
      (∀ x, τ.got x = if x.2 < j then [] else σ.got x) ∧ τ.hist = σ.hist := by
  intro j
  induction j with
  | zero => intro _; exact ⟨σ, .refl, by simpa using h, rfl, rfl, by simp, rfl⟩
  | succ j ih =>
    intro hj
    obtain ⟨τ, h1, h2, h3, h4, h5, h6⟩ := ih (by omega)
    have hp : τ.prog j = .wait (k j) := by rw [h2 j (by omega)]; simp
    have hcond : (∀ t < P, τ.want (t, j) = 0) ∧ ∀ d < P, ∀ m ∈ τ.chan (j, d), eager j d m = true := by
      constructor
      · intro t ht; rw [h4]; exact hw _ ht (by omega)
      · intro d hd m hm
        rw [h3, hc (j, d) (by omega) hd] at hm
        cases hm
    refine ⟨{ τ with prog := Function.update τ.prog j (k j fun t => τ.got (t, j)), got := fun x => if x.2 = j then [] else τ.got x },
      h1.tail (.act j (by omega) (by unfold act; simp only [hp]; rw [if_pos hcond])), ?_, h3, h4, ?_, h6⟩
    · intro s hs
      by_cases hsj : s = j
      · subst hsj
        simp [h5]
      · simp only [Function.update_of_ne hsj, h2 s hs, show s < j + 1 ↔ s < j by omega]
    · intro x
      by_cases hx : x.2 = j
      · simp [hx]
      · simp only [if_neg hx, h5, show x.2 < j + 1 ↔ x.2 < j by omega]

lemma exch_round {σ : State C X M R} {n : ℕ} {p : ℕ → Prog C X M R} (hc : Clean P n p σ) {src : ℕ → List ℕ} {msgs : ℕ → List (ℕ × M)} {k : ℕ → (ℕ → List M) → Prog C X M R}
    (h : ∀ s < P, p s = exchange (src s) (msgs s) (k s)) (hsrc : ∀ r < P, ∀ s ∈ src r, s < P) (hdst : ∀ s < P, ∀ y ∈ msgs s, y.1 < P)
    (hmatch : ∀ s < P, ∀ r < P, (src r).count s = (messagesTo r (msgs s)).length) :
    ∃ τ, Reach P eager σ τ ∧ Clean P n (fun r => k r fun s => if s < P then messagesTo r (msgs s) else []) τ := by
  obtain ⟨τ, h1, h2, h3, h4, h5, h6⟩ := post_all (P := P) (eager := eager) (σ := σ) (fun s hs => (hc.prog s hs).trans (h s hs)) hsrc hdst hc.chan hc.want P le_rfl
  obtain ⟨υ, g1, g2, g3, g4, g5, g6⟩ := deliver_all (P := P) (eager := eager) (σ := τ)
    (fun s hs r hr => by rw [h3, h4]; simp only [if_pos hs, if_pos hr]; exact hmatch s hs r hr) (fun x => by rw [h5]; exact hc.got x)
    ((List.range P).product (List.range P)) (fun x hx => by
      have := List.pair_mem_product.1 (show (x.1, x.2) ∈ _ from hx)
      simpa using this) (List.Nodup.product List.nodup_range List.nodup_range)
  have hmem : ∀ x : ℕ × ℕ, x ∈ (List.range P).product (List.range P) ↔ x.1 < P ∧ x.2 < P := fun x => by
    rw [show x = (x.1, x.2) from rfl, List.pair_mem_product]; simp
  simp only [hmem] at g3 g4 g5
  obtain ⟨ω, f1, f2, f3, f4, f5, f6⟩ := wait_all (P := P) (eager := eager) (σ := υ) (k := k) (fun s hs => by rw [g2, h2 s hs, if_pos hs])
    (fun x hx hx' => by rw [g4, if_pos ⟨hx, hx'⟩]) (fun x hx hx' => by rw [g3, if_pos ⟨hx, hx'⟩]) P le_rfl
  refine ⟨ω, (h1.trans g1).trans f1, ?_, ?_, ?_, ?_, ?_⟩
  · intro s hs
    rw [f2 s hs, if_pos hs]
    congr 1
    funext t
    rw [g5, h3]
    dsimp only
    by_cases ht : t < P
    · simp [ht, hs]
    · simp [ht]
  · intro x
    rw [f3, g3, h3]
    by_cases hx : x.1 < P
    · by_cases hy : x.2 < P
      · simp [hx, hy]
      · simp only [hx, hy, and_false, if_false, if_true]
        unfold messagesTo
        rw [List.map_eq_nil_iff, List.filter_eq_nil_iff]
        intro y hy' he
        have := hdst x.1 hx y hy'
        simp only [decide_eq_true_eq] at he
        omega
    · simp [hx]
  · intro x
    rw [f4, g4, h4]
    by_cases hy : x.2 < P
    · by_cases hx : x.1 < P
      · simp [hx, hy]
      · simp only [hx, hy, false_and, if_false, if_true]
        rw [List.count_eq_zero]
        intro hm
        exact hx (hsrc x.2 hy x.1 hm)
    · simp [hy]
  · intro x
    rw [f5, g5]
    by_cases hy : x.2 < P <;> simp [hy]
  · intro s hs
    rw [f6, g6, h6]
    exact hc.hist s hs

lemma runs_reach {p : ℕ → Prog C X M R} {res : ℕ → R} (h : Runs P p res) : ∀ {n : ℕ} {σ : State C X M R}, Clean P n p σ →
    ∃ m τ, Reach P eager σ τ ∧ Clean P m (fun s => .done (res s)) τ := by
  induction h with
  | @done p res h => intro n σ hc; exact ⟨n, σ, .refl, fun s hs => (hc.prog s hs).trans (h s hs), hc.chan, hc.want, hc.got, hc.hist⟩
  | coll c x k h _ ih =>
    intro n σ hc
    obtain ⟨τ, h1, h2⟩ := coll_round (eager := eager) hc h
    obtain ⟨m, υ, h3, h4⟩ := ih h2
    exact ⟨m, υ, h1.trans h3, h4⟩
  | exch src msgs k h hsrc hdst hm _ ih =>
    intro n σ hc
    obtain ⟨τ, h1, h2⟩ := exch_round (eager := eager) hc h hsrc hdst hm
    obtain ⟨m, υ, h3, h4⟩ := ih h2
    exact ⟨m, υ, h1.trans h3, h4⟩

lemma clean_final {n : ℕ} {res : ℕ → R} {σ : State C X M R} (hc : Clean P n (fun s => .done (res s)) σ) (τ : State C X M R) : ¬ Step P eager σ τ := by
  intro h
  cases h with
  | act s hs h => unfold act at h; rw [hc.prog s hs] at h; cases h
  | deliver s r hs hr h =>
    obtain ⟨n, m, q, h1, -⟩ := deliver_eq_some h
    rw [hc.want] at h1
    cases h1

/-- Every execution ends, can always be continued unless all processes have finished, and ends with the results `res`, with no message left over. -/
structure AllEnd (P : ℕ) (eager : ℕ → ℕ → M → Bool) (p : ℕ → Prog C X M R) (res : ℕ → R) : Prop where
  /-- There is no infinite execution. -/
  finite : Acc (fun a b => Step P eager b a) (start p)
  /-- No execution is stuck before the end. -/
  ends : ∀ σ, Reach P eager (start p) σ → (∃ τ, Step P eager σ τ) ∨ (∀ s < P, σ.prog s = .done (res s)) ∧ (∀ x, σ.chan x = []) ∧ ∀ x, σ.want x = 0
  /-- A process that has finished has its result. -/
  result : ∀ σ, Reach P eager (start p) σ → ∀ s < P, ∀ r, σ.prog s = .done r → r = res s

lemma done_stays {σ τ : State C X M R} (h : Reach P eager σ τ) {s : ℕ} {r : R} (hs : σ.prog s = .done r) : τ.prog s = .done r := by
  induction h with
  | refl => exact hs
  | @tail a b _ hstep ih =>
    cases hstep with
    | act t ht h =>
      have hne : s ≠ t := by
        rintro rfl
        unfold act at h; rw [ih] at h; cases h
      rw [act_eq, Option.map_eq_some_iff] at h
      obtain ⟨e, -, rfl⟩ := h
      simp [State.set, hne, ih]
    | deliver t r' _ _ h =>
      obtain ⟨_, _, _, _, _, rfl⟩ := deliver_eq_some h
      exact ih

theorem runs_allEnd {p : ℕ → Prog C X M R} {res : ℕ → R} (h : Runs P p res) (eager : ℕ → ℕ → M → Bool) : AllEnd P eager p res := by
  have hc : Clean P 0 p (start p) := ⟨fun _ _ => rfl, fun _ => rfl, fun _ => rfl, fun _ => rfl, fun _ _ => rfl⟩
  obtain ⟨m, τ, h1, h2⟩ := runs_reach (eager := eager) h hc
  obtain ⟨ha, hb⟩ := (diamond P eager).all h1 (clean_final h2)
  refine ⟨ha, ?_, ?_⟩
  · intro σ hσ
    rcases Relation.ReflTransGen.cases_head (hb σ hσ) with rfl | ⟨υ, hυ, -⟩
    · exact .inr ⟨h2.prog, h2.chan, h2.want⟩
    · exact .inl ⟨υ, hυ⟩
  · intro σ hσ s hs r hr
    have := done_stays (hb σ hσ) hr
    rw [h2.prog s hs] at this
    exact (Prog.done.inj this).symm

end ArborX.Mpi
