import Verif.Mpi.Model
import Mathlib.Tactic.Common
import Mathlib.Order.WellFounded

/-! # Steps of an execution commute -/

namespace ArborX.Mpi

/-! ## Abstract systems -/

section
variable {α : Type} {r : α → α → Prop}

/-- Two steps from the same state lead to the same state, or can be continued to one by one step each. -/
def Diamond (r : α → α → Prop) : Prop := ∀ a b c, r a b → r a c → b = c ∨ ∃ d, r b d ∧ r c d

/-- `n` steps. -/
inductive Steps (r : α → α → Prop) : ℕ → α → α → Prop
  | refl (a) : Steps r 0 a a
  | head {n a b c} (h : r a b) (h' : Steps r n b c) : Steps r (n + 1) a c

lemma Diamond.strip (hd : Diamond r) {n : ℕ} : ∀ {a b t}, Steps r (n + 1) a t → (∀ x, ¬ r t x) → r a b → Steps r n b t := by
  induction n with
  | zero =>
    intro a b t h ht hab
    cases h with
    | head h1 h2 =>
      cases h2
      rcases hd _ _ _ h1 hab with rfl | ⟨d, hd1, -⟩
      · exact .refl _
      · exact absurd hd1 (ht d)
  | succ n ih =>
    intro a b t h ht hab
    cases h with
    | @head _ _ c _ h1 h2 =>
      rcases hd _ _ _ h1 hab with rfl | ⟨d, hd1, hd2⟩
      · exact h2
      · exact .head hd2 (ih h2 ht hd1)

lemma steps_of_rtg {a b : α} (h : Relation.ReflTransGen r a b) : ∃ n, Steps r n a b := by
  induction h using Relation.ReflTransGen.head_induction_on with
  | refl => exact ⟨0, .refl _⟩
  | head h _ ih => obtain ⟨n, hn⟩ := ih; exact ⟨n + 1, .head h hn⟩

lemma Diamond.acc (hd : Diamond r) {n : ℕ} : ∀ {a t}, Steps r n a t → (∀ x, ¬ r t x) → Acc (fun x y => r y x) a := by
  induction n with
  | zero => intro a t h ht; cases h; exact ⟨_, fun y hy => absurd hy (ht y)⟩
  | succ n ih => intro a t h ht; exact ⟨_, fun y hy => ih (hd.strip h ht hy) ht⟩

/-- If one execution ends in `t`, then all executions end, and in `t`. -/
lemma Diamond.all (hd : Diamond r) {a t : α} (h : Relation.ReflTransGen r a t) (ht : ∀ x, ¬ r t x) :
    Acc (fun x y => r y x) a ∧ ∀ b, Relation.ReflTransGen r a b → Relation.ReflTransGen r b t := by
  obtain ⟨n, hn⟩ := steps_of_rtg h
  refine ⟨hd.acc hn ht, ?_⟩
  intro b hb
  suffices ∃ m, Steps r m b t by
    obtain ⟨m, hm⟩ := this
    clear hb hn h
    induction hm with
    | refl => exact .refl
    | head h _ ih => exact .head h (ih ht)
  induction hb with
  | refl => exact ⟨n, hn⟩
  | tail _ hs ih =>
    obtain ⟨m, hm⟩ := ih
    cases m with
    | zero => cases hm; exact absurd hs (ht _)
    | succ m => exact ⟨m, hd.strip hm ht hs⟩

end

/-! ## The system -/

variable {C X M R : Type} [DecidableEq C] {P : ℕ} {eager : ℕ → ℕ → M → Bool}

lemma contribution_append {c : C} {n : ℕ} {h h' : List (C × X)} {x : X} (hx : contribution c n h = some x) : contribution c n (h ++ h') = some x := by
  unfold contribution at *
  cases hn : h[n]? with
  | none => rw [hn] at hx; simp at hx
  | some y =>
    have hl : n < h.length := by
      by_contra hc
      rw [List.getElem?_eq_none (by omega)] at hn
      cases hn
    rw [List.getElem?_append_left hl]
    exact hx

lemma mapM_congr_some {α β : Type} {f g : α → Option β} : ∀ {l : List α} {ys : List β}, l.mapM f = some ys → (∀ a ∈ l, ∀ y, f a = some y → g a = some y) → l.mapM g = some ys
  | [], ys, h, _ => by simpa using h
  | a :: l, ys, h, hg => by
    rw [List.mapM_cons] at h ⊢
    cases ha : f a with
    | none => rw [ha] at h; simp at h
    | some y =>
      rw [ha] at h
      rw [hg a (by simp) y ha]
      cases hl : l.mapM f with
      | none => rw [hl] at h; simp at h
      | some zs =>
        rw [hl] at h
        rw [mapM_congr_some hl (fun b hb => hg b (by simp [hb]))]
        exact h

lemma gather_mono {hist hist' : ℕ → List (C × X)} {c : C} {n : ℕ} {xs : List X} (h : gather P hist c n = some xs) (hh : ∀ t, ∃ l, hist' t = hist t ++ l) :
    gather P hist' c n = some xs := by
  refine mapM_congr_some h fun t _ y hy => ?_
  obtain ⟨l, hl⟩ := hh t
  rw [hl]
  exact contribution_append hy

/-- What an action of process `s` changes. -/
structure Effect (C X M R : Type) where
  prog : Prog C X M R
  chan : ℕ → List M
  want : ℕ → ℕ
  got : ℕ → List M
  hist : List (C × X)

/-- The action of process `s` as a function of its own part of the state; `others`: histories of the other processes. -/
def actLocal (P : ℕ) (eager : ℕ → ℕ → M → Bool) (s : ℕ) (hists : ℕ → List (C × X)) (e : Effect C X M R) : Option (Effect C X M R) :=
  match e.prog with
  | .done _ => none
  | .enter c x k => some { e with prog := .leave c k, hist := e.hist ++ [(c, x)] }
  | .leave c k => (gather P hists c (e.hist.length - 1)).map fun xs => { e with prog := k xs }
  | .irecv t k => if t < P then some { e with prog := k, want := Function.update e.want t (e.want t + 1) } else none
  | .isend d m k => if d < P then some { e with prog := k, chan := Function.update e.chan d (e.chan d ++ [m]) } else none
  | .wait k =>
    if (∀ t < P, e.want t = 0) ∧ ∀ d < P, ∀ m ∈ e.chan d, eager s d m = true then some { e with prog := k e.got, got := fun _ => [] } else none

def State.part (σ : State C X M R) (s : ℕ) : Effect C X M R := ⟨σ.prog s, fun d => σ.chan (s, d), fun t => σ.want (t, s), fun t => σ.got (t, s), σ.hist s⟩

def State.set (σ : State C X M R) (s : ℕ) (e : Effect C X M R) : State C X M R where
  prog := Function.update σ.prog s e.prog
  chan := fun x => if x.1 = s then e.chan x.2 else σ.chan x
  want := fun x => if x.2 = s then e.want x.1 else σ.want x
  got := fun x => if x.2 = s then e.got x.1 else σ.got x
  hist := Function.update σ.hist s e.hist

lemma State.ext' {σ τ : State C X M R} (h1 : σ.prog = τ.prog) (h2 : σ.chan = τ.chan) (h3 : σ.want = τ.want) (h4 : σ.got = τ.got) (h5 : σ.hist = τ.hist) : σ = τ := by
  cases σ; cases τ; simp_all

lemma act_eq (s : ℕ) (σ : State C X M R) : act P eager s σ = (actLocal P eager s σ.hist (σ.part s)).map (σ.set s) := by
  unfold act actLocal
  show _ = Option.map _ (match σ.prog s with | .done _ => _ | .enter c x k => _ | .leave c k => _ | .irecv t k => _ | .isend d m k => _ | .wait k => _)
  have hchan : (fun x : ℕ × ℕ => if x.1 = s then σ.chan (s, x.2) else σ.chan x) = σ.chan := by
    funext ⟨a, b⟩; dsimp only; split
    · rename_i h; rw [h]
    · rfl
  have hwant : (fun x : ℕ × ℕ => if x.2 = s then σ.want (x.1, s) else σ.want x) = σ.want := by
    funext ⟨a, b⟩; dsimp only; split
    · rename_i h; rw [h]
    · rfl
  have hgot : (fun x : ℕ × ℕ => if x.2 = s then σ.got (x.1, s) else σ.got x) = σ.got := by
    funext ⟨a, b⟩; dsimp only; split
    · rename_i h; rw [h]
    · rfl
  have hhist : Function.update σ.hist s (σ.hist s) = σ.hist := Function.update_eq_self _ _
  cases σ.prog s with
  | done r => rfl
  | enter c x k =>
    simp only [Option.map_some, Option.some.injEq]
    exact State.ext' rfl hchan.symm hwant.symm hgot.symm rfl
  | leave c k =>
    simp only [Option.map_map]
    show Option.map _ (gather P σ.hist c ((σ.hist s).length - 1)) = Option.map _ (gather P σ.hist c ((σ.hist s).length - 1))
    congr 1
    funext xs
    exact State.ext' rfl hchan.symm hwant.symm hgot.symm hhist.symm
  | irecv t k =>
    dsimp only
    split
    · simp only [Option.map_some, Option.some.injEq]
      refine State.ext' rfl hchan.symm ?_ hgot.symm hhist.symm
      funext ⟨a, b⟩
      simp only [State.set, State.part, Function.update_apply, Prod.mk.injEq]
      by_cases hb : b = s
      · subst hb; by_cases ha : a = t <;> simp [ha]
      · simp [hb]
    · rfl
  | isend d m k =>
    dsimp only
    split
    · simp only [Option.map_some, Option.some.injEq]
      refine State.ext' rfl ?_ hwant.symm hgot.symm hhist.symm
      funext ⟨a, b⟩
      simp only [State.set, State.part, Function.update_apply, Prod.mk.injEq]
      by_cases hb : a = s
      · subst hb; by_cases ha : b = d <;> simp [ha]
      · simp [hb]
    · rfl
  | wait k =>
    dsimp only
    show (if _ then _ else _) = Option.map _ (if (∀ t < P, σ.want (t, s) = 0) ∧ ∀ d < P, ∀ m ∈ σ.chan (s, d), eager s d m = true then _ else _)
    split
    · simp only [Option.map_some, Option.some.injEq]
      exact State.ext' rfl hchan.symm hwant.symm rfl hhist.symm
    · rfl

/-- An action that is possible stays possible, with the same effect, if the histories grow. -/
lemma actLocal_mono {s : ℕ} {h h' : ℕ → List (C × X)} {e e' : Effect C X M R} (ha : actLocal P eager s h e = some e') (hh : ∀ t, ∃ l, h' t = h t ++ l) :
    actLocal P eager s h' e = some e' := by
  unfold actLocal at *
  cases hp : e.prog with
  | leave c k =>
    rw [hp] at ha
    simp only [Option.map_eq_some_iff] at ha ⊢
    obtain ⟨xs, h1, h2⟩ := ha
    exact ⟨xs, gather_mono h1 hh, h2⟩
  | _ => rw [hp] at ha; exact ha

/-- The history of a process only grows. -/
lemma actLocal_hist {s : ℕ} {h : ℕ → List (C × X)} {e e' : Effect C X M R} (ha : actLocal P eager s h e = some e') : ∃ l, e'.hist = e.hist ++ l := by
  unfold actLocal at ha
  cases hp : e.prog with
  | done r => rw [hp] at ha; cases ha
  | enter c x k => rw [hp] at ha; simp only [Option.some.injEq] at ha; subst ha; exact ⟨_, rfl⟩
  | leave c k =>
    rw [hp] at ha
    simp only [Option.map_eq_some_iff] at ha
    obtain ⟨_, _, rfl⟩ := ha
    exact ⟨[], by simp⟩
  | irecv t k =>
    rw [hp] at ha
    simp only at ha
    split at ha
    · simp only [Option.some.injEq] at ha; subst ha; exact ⟨[], by simp⟩
    · cases ha
  | isend d m k =>
    rw [hp] at ha
    simp only at ha
    split at ha
    · simp only [Option.some.injEq] at ha; subst ha; exact ⟨[], by simp⟩
    · cases ha
  | wait k =>
    rw [hp] at ha
    simp only at ha
    split at ha
    · simp only [Option.some.injEq] at ha; subst ha; exact ⟨[], by simp⟩
    · cases ha

lemma act_act {s t : ℕ} (hst : s ≠ t) {σ a b : State C X M R} (ha : act P eager s σ = some a) (hb : act P eager t σ = some b) :
    ∃ d, act P eager t a = some d ∧ act P eager s b = some d := by
  rw [act_eq, Option.map_eq_some_iff] at ha hb
  obtain ⟨e, he, rfl⟩ := ha
  obtain ⟨f, hf, rfl⟩ := hb
  have hgrow : ∀ (u : ℕ) (g : Effect C X M R), actLocal P eager u σ.hist (σ.part u) = some g → ∀ v, ∃ l, (σ.set u g).hist v = σ.hist v ++ l := by
    intro u g hg v
    obtain ⟨l, hl⟩ := actLocal_hist hg
    by_cases hv : v = u
    · subst hv; exact ⟨l, by simp only [State.set, Function.update_self]; exact hl⟩
    · exact ⟨[], by simp [State.set, hv]⟩
  have hpart : ∀ (u v : ℕ) (g : Effect C X M R), u ≠ v → (σ.set u g).part v = σ.part v := by
    intro u v g huv
    simp [State.part, State.set, huv.symm]
  refine ⟨(σ.set s e).set t f, ?_, ?_⟩
  · rw [act_eq, hpart s t e hst, actLocal_mono hf (hgrow s e he)]; rfl
  · rw [act_eq, hpart t s f hst.symm, actLocal_mono he (hgrow t f hf)]
    simp only [Option.map_some, Option.some.injEq]
    refine State.ext' ?_ ?_ ?_ ?_ ?_
    · exact Function.update_comm hst.symm _ _ _
    · funext ⟨x, y⟩
      simp only [State.set]
      by_cases h1 : x = s <;> by_cases h2 : x = t <;> simp [h1, h2] <;> omega
    · funext ⟨x, y⟩
      simp only [State.set]
      by_cases h1 : y = s <;> by_cases h2 : y = t <;> simp [h1, h2] <;> omega
    · funext ⟨x, y⟩
      simp only [State.set]
      by_cases h1 : y = s <;> by_cases h2 : y = t <;> simp [h1, h2] <;> omega
    · exact Function.update_comm hst.symm _ _ _

lemma deliver_eq_some {x : ℕ × ℕ} {σ τ : State C X M R} (h : deliver x σ = some τ) :
    ∃ n m q, σ.want x = n + 1 ∧ σ.chan x = m :: q ∧
      τ = { σ with chan := Function.update σ.chan x q, want := Function.update σ.want x n, got := Function.update σ.got x (σ.got x ++ [m]) } := by
  unfold deliver at h
  split at h
  · rename_i n m q h1 h2
    simp only [Option.some.injEq] at h
    exact ⟨n, m, q, h1, h2, h.symm⟩
  · cases h

lemma deliver_of {x : ℕ × ℕ} {σ : State C X M R} {n : ℕ} {m : M} {q : List M} (h1 : σ.want x = n + 1) (h2 : σ.chan x = m :: q) :
    deliver x σ = some { σ with chan := Function.update σ.chan x q, want := Function.update σ.want x n, got := Function.update σ.got x (σ.got x ++ [m]) } := by
  unfold deliver
  rw [h1, h2]

lemma deliver_deliver {x y : ℕ × ℕ} (hxy : x ≠ y) {σ a b : State C X M R} (ha : deliver x σ = some a) (hb : deliver y σ = some b) :
    ∃ d, deliver y a = some d ∧ deliver x b = some d := by
  obtain ⟨n, m, q, h1, h2, rfl⟩ := deliver_eq_some ha
  obtain ⟨n', m', q', h1', h2', rfl⟩ := deliver_eq_some hb
  refine ⟨_, deliver_of (n := n') (m := m') (q := q') (by simp [hxy.symm, h1']) (by simp [hxy.symm, h2']), ?_⟩
  rw [deliver_of (n := n) (m := m) (q := q) (by simp [hxy, h1]) (by simp [hxy, h2])]
  simp only [Option.some.injEq]
  refine State.ext' rfl ?_ ?_ ?_ rfl
  · exact Function.update_comm hxy.symm _ _ _
  · exact Function.update_comm hxy.symm _ _ _
  · simp only [Function.update_of_ne hxy, Function.update_of_ne hxy.symm]
    exact Function.update_comm hxy.symm _ _ _

lemma act_deliver {s : ℕ} {x : ℕ × ℕ} (hx1 : x.1 < P) {σ a b : State C X M R} (ha : act P eager s σ = some a) (hb : deliver x σ = some b) :
    ∃ d, deliver x a = some d ∧ act P eager s b = some d := by
  obtain ⟨n, m, q, h1, h2, rfl⟩ := deliver_eq_some hb
  unfold act at ha
  cases hp : σ.prog s with
  | done r => rw [hp] at ha; cases ha
  | enter c y k =>
    rw [hp] at ha
    simp only [Option.some.injEq] at ha
    subst ha
    refine ⟨_, deliver_of (n := n) (m := m) (q := q) h1 h2, ?_⟩
    unfold act
    simp only [hp]
  | leave c k =>
    rw [hp] at ha
    simp only [Option.map_eq_some_iff] at ha
    obtain ⟨xs, hxs, rfl⟩ := ha
    refine ⟨_, deliver_of (n := n) (m := m) (q := q) h1 h2, ?_⟩
    unfold act
    simp only [hp, hxs, Option.map_some]
  | irecv t k =>
    rw [hp] at ha
    simp only at ha
    split at ha
    · rename_i ht
      simp only [Option.some.injEq] at ha
      subst ha
      by_cases hx : x = (t, s)
      · subst hx
        refine ⟨_, deliver_of (n := n + 1) (m := m) (q := q) (by simp [h1]) h2, ?_⟩
        unfold act
        simp [hp, ht]
      · refine ⟨_, deliver_of (n := n) (m := m) (q := q) (by simp [hx, h1]) h2, ?_⟩
        unfold act
        simp only [hp, if_pos ht, Option.some.injEq]
        refine State.ext' rfl rfl ?_ rfl rfl
        simp only [Function.update_of_ne (Ne.symm hx)]
        exact Function.update_comm hx _ _ _
    · cases ha
  | isend d' m' k =>
    rw [hp] at ha
    simp only at ha
    split at ha
    · rename_i ht
      simp only [Option.some.injEq] at ha
      subst ha
      by_cases hx : x = (s, d')
      · subst hx
        refine ⟨_, deliver_of (n := n) (m := m) (q := q ++ [m']) h1 (by simp [h2]), ?_⟩
        unfold act
        simp [hp, ht]
      · refine ⟨_, deliver_of (n := n) (m := m) (q := q) h1 (by simp [hx, h2]), ?_⟩
        unfold act
        simp only [hp, if_pos ht, Option.some.injEq]
        refine State.ext' rfl ?_ rfl rfl rfl
        simp only [Function.update_of_ne (Ne.symm hx)]
        exact Function.update_comm hx _ _ _
    · cases ha
  | wait k =>
    rw [hp] at ha
    simp only at ha
    split at ha
    · rename_i hw
      simp only [Option.some.injEq] at ha
      subst ha
      have hx : x.2 ≠ s := by
        intro hc
        have := hw.1 x.1 hx1
        rw [← hc] at this
        change σ.want x = 0 at this
        omega
      refine ⟨_, deliver_of (n := n) (m := m) (q := q) h1 h2, ?_⟩
      unfold act
      simp only [hp]
      have hw' : (∀ t < P, Function.update σ.want x n (t, s) = 0) ∧ ∀ d < P, ∀ m ∈ Function.update σ.chan x q (s, d), eager s d m = true := by
        constructor
        · intro t ht
          rw [Function.update_of_ne (by intro h; exact hx (by rw [← h]))]
          exact hw.1 t ht
        · intro d hd m1 hm1
          refine hw.2 d hd m1 ?_
          by_cases he : (s, d) = x
          · subst he
            rw [Function.update_self] at hm1
            rw [h2]; simp [hm1]
          · rwa [Function.update_of_ne he] at hm1
      rw [if_pos hw']
      simp only [Option.some.injEq]
      refine State.ext' ?_ rfl rfl ?_ rfl
      · have : (fun t => Function.update σ.got x (σ.got x ++ [m]) (t, s)) = fun t => σ.got (t, s) := by
          funext t
          rw [Function.update_of_ne (by intro h; exact hx (by rw [← h]))]
        rw [this]
      · funext y
        by_cases hy : y = x
        · subst hy; simp [hx]
        · simp [hy]
    · cases ha

/-- Steps commute. -/
theorem diamond (P : ℕ) (eager : ℕ → ℕ → M → Bool) : Diamond (Step (C := C) (X := X) (R := R) P eager) := by
  intro a b c hb hc
  cases hb with
  | act s hs hb =>
    cases hc with
    | act t ht hc =>
      by_cases hst : s = t
      · subst hst; rw [hb] at hc; exact .inl (Option.some.inj hc)
      · obtain ⟨d, h1, h2⟩ := act_act hst hb hc
        exact .inr ⟨d, .act t ht h1, .act s hs h2⟩
    | deliver t r ht hr hc =>
      obtain ⟨d, h1, h2⟩ := act_deliver (x := (t, r)) ht hb hc
      exact .inr ⟨d, .deliver t r ht hr h1, .act s hs h2⟩
  | deliver t r ht hr hb =>
    cases hc with
    | act s hs hc =>
      obtain ⟨d, h1, h2⟩ := act_deliver (x := (t, r)) ht hc hb
      exact .inr ⟨d, .act s hs h2, .deliver t r ht hr h1⟩
    | deliver t' r' ht' hr' hc =>
      by_cases h : (t, r) = (t', r')
      · rw [h, hc] at hb; exact .inl (Option.some.inj hb).symm
      · obtain ⟨d, h1, h2⟩ := deliver_deliver h hb hc
        exact .inr ⟨d, .deliver t' r' ht' hr' h1, .deliver t r ht hr h2⟩

end ArborX.Mpi
