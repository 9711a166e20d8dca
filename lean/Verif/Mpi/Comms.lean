import Verif.Mpi.Rounds

/-! # Processes that communicate on several communicators

Processes as in `Verif/Mpi/Model.lean`, with any number of communicators (and tags) `g : G`, which have nothing to do with each other: messages and receives are matched on the same communicator, and collective operations are counted for each communicator. -/

namespace ArborX.Mpi

/-- Program of a process; every operation names its communicator. -/
inductive CProg (G C X M R : Type) where
  | done (r : R)
  /-- The process never does anything again. -/
  | abort
  | enter (g : G) (c : C) (x : X) (k : List X → CProg G C X M R)
  | leave (g : G) (c : C) (k : List X → CProg G C X M R)
  | irecv (g : G) (source : ℕ) (k : CProg G C X M R)
  | isend (g : G) (dest : ℕ) (m : M) (k : CProg G C X M R)
  | wait (g : G) (k : (ℕ → List M) → CProg G C X M R)

variable {G C X M R : Type}

/-- As `State`; the first component of channels is the communicator. -/
structure CState (G C X M R : Type) where
  prog : ℕ → CProg G C X M R
  chan : G × ℕ × ℕ → List M
  want : G × ℕ × ℕ → ℕ
  got : G × ℕ × ℕ → List M
  hist : ℕ → G → List (C × X)

variable [DecidableEq G] [DecidableEq C]

/-- As `act`. -/
def cact (P : ℕ) (eager : G → ℕ → ℕ → M → Bool) (s : ℕ) (σ : CState G C X M R) : Option (CState G C X M R) :=
  match σ.prog s with
  | .done _ => none
  | .abort => none
  | .enter g c x k => some { σ with prog := Function.update σ.prog s (.leave g c k), hist := Function.update σ.hist s (Function.update (σ.hist s) g (σ.hist s g ++ [(c, x)])) }
  | .leave g c k => (gather P (fun t => σ.hist t g) c ((σ.hist s g).length - 1)).map fun xs => { σ with prog := Function.update σ.prog s (k xs) }
  | .irecv g t k => if t < P then some { σ with prog := Function.update σ.prog s k, want := Function.update σ.want (g, t, s) (σ.want (g, t, s) + 1) } else none
  | .isend g d m k => if d < P then some { σ with prog := Function.update σ.prog s k, chan := Function.update σ.chan (g, s, d) (σ.chan (g, s, d) ++ [m]) } else none
  | .wait g k =>
    if (∀ t < P, σ.want (g, t, s) = 0) ∧ ∀ d < P, ∀ m ∈ σ.chan (g, s, d), eager g s d m = true then
      some { σ with prog := Function.update σ.prog s (k fun t => σ.got (g, t, s)), got := fun x => if x.1 = g ∧ x.2.2 = s then [] else σ.got x }
    else none

/-- As `deliver`. -/
def cdeliver (x : G × ℕ × ℕ) (σ : CState G C X M R) : Option (CState G C X M R) :=
  match σ.want x, σ.chan x with
  | n + 1, m :: q => some { σ with chan := Function.update σ.chan x q, want := Function.update σ.want x n, got := Function.update σ.got x (σ.got x ++ [m]) }
  | _, _ => none

/-- As `Step`. -/
inductive CStep (P : ℕ) (eager : G → ℕ → ℕ → M → Bool) : CState G C X M R → CState G C X M R → Prop
  | act (s : ℕ) (hs : s < P) {σ σ'} (h : cact P eager s σ = some σ') : CStep P eager σ σ'
  | deliver (x : G × ℕ × ℕ) (hs : x.2.1 < P) (hr : x.2.2 < P) {σ σ'} (h : cdeliver x σ = some σ') : CStep P eager σ σ'

/-- The beginning. -/
def cstart (p : ℕ → CProg G C X M R) : CState G C X M R := ⟨p, fun _ => [], fun _ => 0, fun _ => [], fun _ _ => []⟩

abbrev CReach (P : ℕ) (eager : G → ℕ → ℕ → M → Bool) : CState G C X M R → CState G C X M R → Prop := Relation.ReflTransGen (CStep P eager)

/-- As `AllEnd`: every execution ends, is not stuck before all processes have finished, ends with the results `res`, with no message left over on any communicator. -/
structure CAllEnd (P : ℕ) (eager : G → ℕ → ℕ → M → Bool) (p : ℕ → CProg G C X M R) (res : ℕ → R) : Prop where
  finite : Acc (fun a b => CStep P eager b a) (cstart p)
  ends : ∀ σ, CReach P eager (cstart p) σ → (∃ τ, CStep P eager σ τ) ∨ (∀ s < P, σ.prog s = .done (res s)) ∧ (∀ x, σ.chan x = []) ∧ ∀ x, σ.want x = 0
  result : ∀ σ, CReach P eager (cstart p) σ → ∀ s < P, ∀ r, σ.prog s = .done r → r = res s

/-! ## Steps commute -/

variable {P : ℕ} {eager : G → ℕ → ℕ → M → Bool}

/-- What an action of process `s` reads and changes. -/
structure CEffect (G C X M R : Type) where
  prog : CProg G C X M R
  chan : G × ℕ → List M
  want : G × ℕ → ℕ
  got : G × ℕ → List M
  hist : G → List (C × X)

def cactLocal (P : ℕ) (eager : G → ℕ → ℕ → M → Bool) (s : ℕ) (hists : ℕ → G → List (C × X)) (e : CEffect G C X M R) : Option (CEffect G C X M R) :=
  match e.prog with
  | .done _ => none
  | .abort => none
  | .enter g c x k => some { e with prog := .leave g c k, hist := Function.update e.hist g (e.hist g ++ [(c, x)]) }
  | .leave g c k => (gather P (fun t => hists t g) c ((e.hist g).length - 1)).map fun xs => { e with prog := k xs }
  | .irecv g t k => if t < P then some { e with prog := k, want := Function.update e.want (g, t) (e.want (g, t) + 1) } else none
  | .isend g d m k => if d < P then some { e with prog := k, chan := Function.update e.chan (g, d) (e.chan (g, d) ++ [m]) } else none
  | .wait g k =>
    if (∀ t < P, e.want (g, t) = 0) ∧ ∀ d < P, ∀ m ∈ e.chan (g, d), eager g s d m = true then
      some { e with prog := k fun t => e.got (g, t), got := fun x => if x.1 = g then [] else e.got x }
    else none

def CState.part (σ : CState G C X M R) (s : ℕ) : CEffect G C X M R := ⟨σ.prog s, fun d => σ.chan (d.1, s, d.2), fun t => σ.want (t.1, t.2, s), fun t => σ.got (t.1, t.2, s), σ.hist s⟩

def CState.set (σ : CState G C X M R) (s : ℕ) (e : CEffect G C X M R) : CState G C X M R where
  prog := Function.update σ.prog s e.prog
  chan := fun x => if x.2.1 = s then e.chan (x.1, x.2.2) else σ.chan x
  want := fun x => if x.2.2 = s then e.want (x.1, x.2.1) else σ.want x
  got := fun x => if x.2.2 = s then e.got (x.1, x.2.1) else σ.got x
  hist := Function.update σ.hist s e.hist

omit [DecidableEq G] [DecidableEq C] in
lemma CState.ext' {σ τ : CState G C X M R} (h1 : σ.prog = τ.prog) (h2 : σ.chan = τ.chan) (h3 : σ.want = τ.want) (h4 : σ.got = τ.got) (h5 : σ.hist = τ.hist) : σ = τ := by
  cases σ; cases τ; simp_all

lemma cact_eq (s : ℕ) (σ : CState G C X M R) : cact P eager s σ = (cactLocal P eager s σ.hist (σ.part s)).map (σ.set s) := by
  unfold cact cactLocal
  show _ = Option.map _ (match σ.prog s with | .done _ => _ | .abort => _ | .enter g c x k => _ | .leave g c k => _ | .irecv g t k => _ | .isend g d m k => _ | .wait g k => _)
  have hchan : (fun x : G × ℕ × ℕ => if x.2.1 = s then σ.chan (x.1, s, x.2.2) else σ.chan x) = σ.chan := by
    funext ⟨g, a, b⟩; dsimp only; split
    · rename_i h; rw [h]
    · rfl
  have hwant : (fun x : G × ℕ × ℕ => if x.2.2 = s then σ.want (x.1, x.2.1, s) else σ.want x) = σ.want := by
    funext ⟨g, a, b⟩; dsimp only; split
    · rename_i h; rw [h]
    · rfl
  have hgot : (fun x : G × ℕ × ℕ => if x.2.2 = s then σ.got (x.1, x.2.1, s) else σ.got x) = σ.got := by
    funext ⟨g, a, b⟩; dsimp only; split
    · rename_i h; rw [h]
    · rfl
  have hhist : Function.update σ.hist s (σ.hist s) = σ.hist := Function.update_eq_self _ _
  cases σ.prog s with
  | done r => rfl
  | abort => rfl
  | enter g c x k =>
    simp only [Option.map_some, Option.some.injEq]
    exact CState.ext' rfl hchan.symm hwant.symm hgot.symm rfl
  | leave g c k =>
    simp only [Option.map_map]
    show Option.map _ (gather P (fun t => σ.hist t g) c ((σ.hist s g).length - 1)) = Option.map _ (gather P (fun t => σ.hist t g) c ((σ.hist s g).length - 1))
    congr 1
    funext xs
    exact CState.ext' rfl hchan.symm hwant.symm hgot.symm hhist.symm
  | irecv g t k =>
    dsimp only
    split
    · simp only [Option.map_some, Option.some.injEq]
      refine CState.ext' rfl hchan.symm ?_ hgot.symm hhist.symm
      funext ⟨f, a, b⟩
      simp only [CState.set, CState.part, Function.update_apply, Prod.mk.injEq]
      by_cases hb : b = s
      · subst hb; by_cases ha : a = t <;> by_cases hf : f = g <;> simp [ha, hf]
      · simp [hb]
    · rfl
  | isend g d m k =>
    dsimp only
    split
    · simp only [Option.map_some, Option.some.injEq]
      refine CState.ext' rfl ?_ hwant.symm hgot.symm hhist.symm
      funext ⟨f, a, b⟩
      simp only [CState.set, CState.part, Function.update_apply, Prod.mk.injEq]
      by_cases hb : a = s
      · subst hb; by_cases ha : b = d <;> by_cases hf : f = g <;> simp [ha, hf]
      · simp [hb]
    · rfl
  | wait g k =>
    dsimp only
    show (if _ then _ else _) = Option.map _ (if (∀ t < P, σ.want (g, t, s) = 0) ∧ ∀ d < P, ∀ m ∈ σ.chan (g, s, d), eager g s d m = true then _ else _)
    split
    · simp only [Option.map_some, Option.some.injEq]
      refine CState.ext' rfl hchan.symm hwant.symm ?_ hhist.symm
      funext ⟨f, a, b⟩
      simp only [CState.set, CState.part]
      by_cases hb : b = s
      · subst hb; by_cases hf : f = g <;> simp [hf]
      · simp [hb]
    · rfl

lemma cactLocal_mono {s : ℕ} {h h' : ℕ → G → List (C × X)} {e e' : CEffect G C X M R} (ha : cactLocal P eager s h e = some e') (hh : ∀ t g, ∃ l, h' t g = h t g ++ l) :
    cactLocal P eager s h' e = some e' := by
  unfold cactLocal at *
  cases hp : e.prog with
  | leave g c k =>
    rw [hp] at ha
    simp only [Option.map_eq_some_iff] at ha ⊢
    obtain ⟨xs, h1, h2⟩ := ha
    exact ⟨xs, gather_mono h1 (fun t => hh t g), h2⟩
  | _ => rw [hp] at ha; exact ha

lemma cactLocal_hist {s : ℕ} {h : ℕ → G → List (C × X)} {e e' : CEffect G C X M R} (ha : cactLocal P eager s h e = some e') (g' : G) : ∃ l, e'.hist g' = e.hist g' ++ l := by
  unfold cactLocal at ha
  cases hp : e.prog with
  | done r => rw [hp] at ha; cases ha
  | abort => rw [hp] at ha; cases ha
  | enter g c x k =>
    rw [hp] at ha; simp only [Option.some.injEq] at ha; subst ha
    by_cases hg : g' = g
    · subst hg; exact ⟨[(c, x)], by simp⟩
    · exact ⟨[], by simp [hg]⟩
  | leave g c k =>
    rw [hp] at ha
    simp only [Option.map_eq_some_iff] at ha
    obtain ⟨_, _, rfl⟩ := ha
    exact ⟨[], by simp⟩
  | irecv g t k =>
    rw [hp] at ha
    simp only at ha
    split at ha
    · simp only [Option.some.injEq] at ha; subst ha; exact ⟨[], by simp⟩
    · cases ha
  | isend g d m k =>
    rw [hp] at ha
    simp only at ha
    split at ha
    · simp only [Option.some.injEq] at ha; subst ha; exact ⟨[], by simp⟩
    · cases ha
  | wait g k =>
    rw [hp] at ha
    simp only at ha
    split at ha
    · simp only [Option.some.injEq] at ha; subst ha; exact ⟨[], by simp⟩
    · cases ha

lemma cact_cact {s t : ℕ} (hst : s ≠ t) {σ a b : CState G C X M R} (ha : cact P eager s σ = some a) (hb : cact P eager t σ = some b) :
    ∃ d, cact P eager t a = some d ∧ cact P eager s b = some d := by
  rw [cact_eq, Option.map_eq_some_iff] at ha hb
  obtain ⟨e, he, rfl⟩ := ha
  obtain ⟨f, hf, rfl⟩ := hb
  have hgrow : ∀ (u : ℕ) (g : CEffect G C X M R), cactLocal P eager u σ.hist (σ.part u) = some g → ∀ v w, ∃ l, (σ.set u g).hist v w = σ.hist v w ++ l := by
    intro u g hg v w
    obtain ⟨l, hl⟩ := cactLocal_hist hg w
    by_cases hv : v = u
    · subst hv; exact ⟨l, by simp only [CState.set, Function.update_self]; exact hl⟩
    · exact ⟨[], by simp [CState.set, hv]⟩
  have hpart : ∀ (u v : ℕ) (g : CEffect G C X M R), u ≠ v → (σ.set u g).part v = σ.part v := by
    intro u v g huv
    simp [CState.part, CState.set, huv.symm]
  refine ⟨(σ.set s e).set t f, ?_, ?_⟩
  · rw [cact_eq, hpart s t e hst, cactLocal_mono hf (hgrow s e he)]; rfl
  · rw [cact_eq, hpart t s f hst.symm, cactLocal_mono he (hgrow t f hf)]
    simp only [Option.map_some, Option.some.injEq]
    refine CState.ext' ?_ ?_ ?_ ?_ ?_
    · exact Function.update_comm hst.symm _ _ _
    · funext ⟨g, x, y⟩
      simp only [CState.set]
      by_cases h1 : x = s <;> by_cases h2 : x = t <;> simp [h1, h2] <;> omega
    · funext ⟨g, x, y⟩
      simp only [CState.set]
      by_cases h1 : y = s <;> by_cases h2 : y = t <;> simp [h1, h2] <;> omega
    · funext ⟨g, x, y⟩
      simp only [CState.set]
      by_cases h1 : y = s <;> by_cases h2 : y = t <;> simp [h1, h2] <;> omega
    · exact Function.update_comm hst.symm _ _ _

omit [DecidableEq C] in
lemma cdeliver_eq_some {x : G × ℕ × ℕ} {σ τ : CState G C X M R} (h : cdeliver x σ = some τ) :
    ∃ n m q, σ.want x = n + 1 ∧ σ.chan x = m :: q ∧
      τ = { σ with chan := Function.update σ.chan x q, want := Function.update σ.want x n, got := Function.update σ.got x (σ.got x ++ [m]) } := by
  unfold cdeliver at h
  split at h
  · rename_i n m q h1 h2
    simp only [Option.some.injEq] at h
    exact ⟨n, m, q, h1, h2, h.symm⟩
  · cases h

omit [DecidableEq C] in
lemma cdeliver_of {x : G × ℕ × ℕ} {σ : CState G C X M R} {n : ℕ} {m : M} {q : List M} (h1 : σ.want x = n + 1) (h2 : σ.chan x = m :: q) :
    cdeliver x σ = some { σ with chan := Function.update σ.chan x q, want := Function.update σ.want x n, got := Function.update σ.got x (σ.got x ++ [m]) } := by
  unfold cdeliver
  rw [h1, h2]

omit [DecidableEq C] in
lemma cdeliver_cdeliver {x y : G × ℕ × ℕ} (hxy : x ≠ y) {σ a b : CState G C X M R} (ha : cdeliver x σ = some a) (hb : cdeliver y σ = some b) :
    ∃ d, cdeliver y a = some d ∧ cdeliver x b = some d := by
  obtain ⟨n, m, q, h1, h2, rfl⟩ := cdeliver_eq_some ha
  obtain ⟨n', m', q', h1', h2', rfl⟩ := cdeliver_eq_some hb
  refine ⟨_, cdeliver_of (n := n') (m := m') (q := q') (by simp [hxy.symm, h1']) (by simp [hxy.symm, h2']), ?_⟩
  rw [cdeliver_of (n := n) (m := m) (q := q) (by simp [hxy, h1]) (by simp [hxy, h2])]
  simp only [Option.some.injEq]
  refine CState.ext' rfl ?_ ?_ ?_ rfl
  · exact Function.update_comm hxy.symm _ _ _
  · exact Function.update_comm hxy.symm _ _ _
  · simp only [Function.update_of_ne hxy, Function.update_of_ne hxy.symm]
    exact Function.update_comm hxy.symm _ _ _

lemma cact_cdeliver {s : ℕ} {x : G × ℕ × ℕ} (hx1 : x.2.1 < P) {σ a b : CState G C X M R} (ha : cact P eager s σ = some a) (hb : cdeliver x σ = some b) :
    ∃ d, cdeliver x a = some d ∧ cact P eager s b = some d := by
  obtain ⟨n, m, q, h1, h2, rfl⟩ := cdeliver_eq_some hb
  unfold cact at ha
  cases hp : σ.prog s with
  | done r => rw [hp] at ha; cases ha
  | abort => rw [hp] at ha; cases ha
  | enter g c y k =>
    rw [hp] at ha
    simp only [Option.some.injEq] at ha
    subst ha
    refine ⟨_, cdeliver_of (n := n) (m := m) (q := q) h1 h2, ?_⟩
    unfold cact
    simp only [hp]
  | leave g c k =>
    rw [hp] at ha
    simp only [Option.map_eq_some_iff] at ha
    obtain ⟨xs, hxs, rfl⟩ := ha
    refine ⟨_, cdeliver_of (n := n) (m := m) (q := q) h1 h2, ?_⟩
    unfold cact
    simp only [hp, hxs, Option.map_some]
  | irecv g t k =>
    rw [hp] at ha
    simp only at ha
    split at ha
    · rename_i ht
      simp only [Option.some.injEq] at ha
      subst ha
      by_cases hx : x = (g, t, s)
      · subst hx
        refine ⟨_, cdeliver_of (n := n + 1) (m := m) (q := q) (by simp [h1]) h2, ?_⟩
        unfold cact
        simp [hp, ht]
      · refine ⟨_, cdeliver_of (n := n) (m := m) (q := q) (by simp [hx, h1]) h2, ?_⟩
        unfold cact
        simp only [hp, if_pos ht, Option.some.injEq]
        refine CState.ext' rfl rfl ?_ rfl rfl
        simp only [Function.update_of_ne (Ne.symm hx)]
        exact Function.update_comm hx _ _ _
    · cases ha
  | isend g d' m' k =>
    rw [hp] at ha
    simp only at ha
    split at ha
    · rename_i ht
      simp only [Option.some.injEq] at ha
      subst ha
      by_cases hx : x = (g, s, d')
      · subst hx
        refine ⟨_, cdeliver_of (n := n) (m := m) (q := q ++ [m']) h1 (by simp [h2]), ?_⟩
        unfold cact
        simp [hp, ht]
      · refine ⟨_, cdeliver_of (n := n) (m := m) (q := q) h1 (by simp [hx, h2]), ?_⟩
        unfold cact
        simp only [hp, if_pos ht, Option.some.injEq]
        refine CState.ext' rfl ?_ rfl rfl rfl
        simp only [Function.update_of_ne (Ne.symm hx)]
        exact Function.update_comm hx _ _ _
    · cases ha
  | wait g k =>
    rw [hp] at ha
    simp only at ha
    split at ha
    · rename_i hw
      simp only [Option.some.injEq] at ha
      subst ha
      have hx : ¬ (x.1 = g ∧ x.2.2 = s) := by
        rintro ⟨hg, hc⟩
        have := hw.1 x.2.1 hx1
        rw [← hc, ← hg] at this
        change σ.want x = 0 at this
        omega
      refine ⟨_, cdeliver_of (n := n) (m := m) (q := q) h1 h2, ?_⟩
      unfold cact
      simp only [hp]
      have hne : ∀ t, (g, t, s) ≠ x := by rintro t rfl; exact hx ⟨rfl, rfl⟩
      have hw' : (∀ t < P, Function.update σ.want x n (g, t, s) = 0) ∧ ∀ d < P, ∀ m ∈ Function.update σ.chan x q (g, s, d), eager g s d m = true := by
        constructor
        · intro t ht
          rw [Function.update_of_ne (hne t)]
          exact hw.1 t ht
        · intro d hd m1 hm1
          refine hw.2 d hd m1 ?_
          by_cases he : (g, s, d) = x
          · subst he
            rw [Function.update_self] at hm1
            rw [h2]; simp [hm1]
          · rwa [Function.update_of_ne he] at hm1
      rw [if_pos hw']
      simp only [Option.some.injEq]
      refine CState.ext' ?_ rfl rfl ?_ rfl
      · have : (fun t => Function.update σ.got x (σ.got x ++ [m]) (g, t, s)) = fun t => σ.got (g, t, s) := by
          funext t
          rw [Function.update_of_ne (hne t)]
        rw [this]
      · funext y
        by_cases hy : y = x
        · subst hy; simp [hx]
        · simp [hy]
    · cases ha

/-- Steps commute. -/
theorem cdiamond (P : ℕ) (eager : G → ℕ → ℕ → M → Bool) : Diamond (CStep (C := C) (X := X) (R := R) P eager) := by
  intro a b c hb hc
  cases hb with
  | act s hs hb =>
    cases hc with
    | act t ht hc =>
      by_cases hst : s = t
      · subst hst; rw [hb] at hc; exact .inl (Option.some.inj hc)
      · obtain ⟨d, h1, h2⟩ := cact_cact hst hb hc
        exact .inr ⟨d, .act t ht h1, .act s hs h2⟩
    | deliver x hx hx' hc =>
      obtain ⟨d, h1, h2⟩ := cact_cdeliver hx hb hc
      exact .inr ⟨d, .deliver x hx hx' h1, .act s hs h2⟩
  | deliver x hx hx' hb =>
    cases hc with
    | act s hs hc =>
      obtain ⟨d, h1, h2⟩ := cact_cdeliver hx hc hb
      exact .inr ⟨d, .act s hs h2, .deliver x hx hx' h1⟩
    | deliver y hy hy' hc =>
      by_cases h : x = y
      · subst h; rw [hc] at hb; exact .inl (Option.some.inj hb).symm
      · obtain ⟨d, h1, h2⟩ := cdeliver_cdeliver h hb hc
        exact .inr ⟨d, .deliver y hy hy' h1, .deliver x hx hx' h2⟩

lemma cdone_stays {σ τ : CState G C X M R} (h : CReach P eager σ τ) {s : ℕ} {r : R} (hs : σ.prog s = .done r) : τ.prog s = .done r := by
  induction h with
  | refl => exact hs
  | @tail a b _ hstep ih =>
    cases hstep with
    | act t ht h =>
      have hne : s ≠ t := by
        rintro rfl
        unfold cact at h; rw [ih] at h; cases h
      rw [cact_eq, Option.map_eq_some_iff] at h
      obtain ⟨e, -, rfl⟩ := h
      simp [CState.set, hne, ih]
    | deliver x _ _ h =>
      obtain ⟨_, _, _, _, _, rfl⟩ := cdeliver_eq_some h
      exact ih

lemma cabort_stays {σ τ : CState G C X M R} (h : CReach P eager σ τ) {s : ℕ} (hs : σ.prog s = .abort) : τ.prog s = .abort := by
  induction h with
  | refl => exact hs
  | @tail a b _ hstep ih =>
    cases hstep with
    | act t ht h =>
      have hne : s ≠ t := by
        rintro rfl
        unfold cact at h; rw [ih] at h; cases h
      rw [cact_eq, Option.map_eq_some_iff] at h
      obtain ⟨e, -, rfl⟩ := h
      simp [CState.set, hne, ih]
    | deliver x _ _ h =>
      obtain ⟨_, _, _, _, _, rfl⟩ := cdeliver_eq_some h
      exact ih

/-- If one execution ends with all processes finished and no messages or receives left, all executions do. -/
lemma callEnd_of {p : ℕ → CProg G C X M R} {res : ℕ → R} {τ : CState G C X M R} (h : CReach P eager (cstart p) τ) (hp : ∀ s < P, τ.prog s = .done (res s)) (hc : ∀ x, τ.chan x = []) (hw : ∀ x, τ.want x = 0) :
    CAllEnd P eager p res := by
  have hfin : ∀ υ, ¬ CStep P eager τ υ := by
    intro υ hs
    cases hs with
    | act s hs h => unfold cact at h; rw [hp s hs] at h; cases h
    | deliver x _ _ h => obtain ⟨n, _, _, h1, -⟩ := cdeliver_eq_some h; rw [hw] at h1; cases h1
  obtain ⟨ha, hb⟩ := (cdiamond P eager).all h hfin
  refine ⟨ha, fun σ hσ => ?_, fun σ hσ s hs r hr => ?_⟩
  · rcases Relation.ReflTransGen.cases_head (hb σ hσ) with rfl | ⟨υ, hυ, -⟩
    · exact .inr ⟨hp, hc, hw⟩
    · exact .inl ⟨υ, hυ⟩
  · have := cdone_stays (hb σ hσ) hr
    rw [hp s hs] at this
    exact (CProg.done.inj this).symm

/-- An execution of `CAllEnd` programs ends. -/
lemma CAllEnd.exists_end {p : ℕ → CProg G C X M R} {res : ℕ → R} (h : CAllEnd P eager p res) :
    ∃ τ, CReach P eager (cstart p) τ ∧ (∀ s < P, τ.prog s = .done (res s)) ∧ (∀ x, τ.chan x = []) ∧ ∀ x, τ.want x = 0 := by
  have : ∀ σ, Acc (fun a b => CStep P eager b a) σ → CReach P eager (cstart p) σ → ∃ τ, CReach P eager σ τ ∧ (∀ s < P, τ.prog s = .done (res s)) ∧ (∀ x, τ.chan x = []) ∧ ∀ x, τ.want x = 0 := by
    intro σ ha
    induction ha with
    | intro σ _ ih =>
      intro hr
      rcases h.ends σ hr with ⟨τ, hτ⟩ | he
      · obtain ⟨υ, h1, h2⟩ := ih τ hτ (hr.tail hτ)
        exact ⟨υ, .head hτ h1, h2⟩
      · exact ⟨σ, .refl, he⟩
  exact this _ h.finite .refl

end ArborX.Mpi
