import Verif.Mpi.Library

/-! # Calls of the library behave as collective operations -/

namespace ArborX.Mpi

variable {G CU XU MU CL XL ML A B R : Type} {P : ℕ} {out : List A → Option (ℕ → B)} {body : ℕ → A → Prog CL XL ML B}

/-- Process `s`, which has entered `e` calls; `N` calls have been executed by the library; `args i s` are the arguments of call number `i`. -/
inductive ProcSim (P : ℕ) (out : List A → Option (ℕ → B)) (body : ℕ → A → Prog CL XL ML B) (N : ℕ) (args : ℕ → ℕ → A) (s : ℕ) :
    ℕ → CProg (Option G) (CU ⊕ Unit) (XU ⊕ A) MU R → CProg (Option G) (CU ⊕ CL) (XU ⊕ XL) (MU ⊕ ML) R → Prop
  | user (u : UProg G CU XU MU A B R) : ProcSim P out body N args s N (u.atomic out s) (u.real body s)
  | coll (g : G) (c : CU) (k : List XU → UProg G CU XU MU A B R) :
    ProcSim P out body N args s N (.leave (some g) (.inl c) fun xs => (k (lefts xs)).atomic out s) (.leave (some g) (.inl c) fun xs => (k (lefts xs)).real body s)
  | called (M : ℕ) (hM : N = M + 1) (b : ℕ → B) (hb : out ((List.range P).map (args M)) = some b) (k : B → UProg G CU XU MU A B R) :
    ProcSim P out body N args s N (.leave none (.inr ()) (afterCall out s fun b => (k b).atomic out s)) ((k (b s)).real body s)
  | calling (k : B → UProg G CU XU MU A B R) :
    ProcSim P out body N args s (N + 1) (.leave none (.inr ()) (afterCall out s fun b => (k b).atomic out s)) (embed (fun b => (k b).real body s) (body s (args N s)))

def callHist {CU XU A : Type} (args : ℕ → ℕ → A) (s e : ℕ) : List ((CU ⊕ Unit) × (XU ⊕ A)) := (List.range e).map fun i => (.inr (), .inr (args i s))

variable [DecidableEq G] [DecidableEq CU] [DecidableEq CL]

section

variable {C X M : Type} [DecidableEq C] {eager : G → ℕ → ℕ → M → Bool} {s : ℕ} {σ : CState G C X M R}

lemma cact_enter {g : G} {c : C} {x : X} {k : List X → CProg G C X M R} (h : σ.prog s = .enter g c x k) :
    cact P eager s σ = some { σ with prog := Function.update σ.prog s (.leave g c k), hist := Function.update σ.hist s (Function.update (σ.hist s) g (σ.hist s g ++ [(c, x)])) } := by
  unfold cact; rw [h]

lemma cact_leave {g : G} {c : C} {k : List X → CProg G C X M R} (h : σ.prog s = .leave g c k) {xs : List X} (hg : gather P (fun t => σ.hist t g) c ((σ.hist s g).length - 1) = some xs) :
    cact P eager s σ = some { σ with prog := Function.update σ.prog s (k xs) } := by
  unfold cact; rw [h]; simp only; rw [hg]; rfl

lemma cact_irecv {g : G} {t : ℕ} {k : CProg G C X M R} (h : σ.prog s = .irecv g t k) (ht : t < P) :
    cact P eager s σ = some { σ with prog := Function.update σ.prog s k, want := Function.update σ.want (g, t, s) (σ.want (g, t, s) + 1) } := by
  unfold cact; rw [h]; simp only; rw [if_pos ht]

lemma cact_isend {g : G} {t : ℕ} {m : M} {k : CProg G C X M R} (h : σ.prog s = .isend g t m k) (ht : t < P) :
    cact P eager s σ = some { σ with prog := Function.update σ.prog s k, chan := Function.update σ.chan (g, s, t) (σ.chan (g, s, t) ++ [m]) } := by
  unfold cact; rw [h]; simp only; rw [if_pos ht]

lemma cact_wait {g : G} {k : (ℕ → List M) → CProg G C X M R} (h : σ.prog s = .wait g k) (hw : (∀ t < P, σ.want (g, t, s) = 0) ∧ ∀ d < P, ∀ m ∈ σ.chan (g, s, d), eager g s d m = true) :
    cact P eager s σ = some { σ with prog := Function.update σ.prog s (k fun t => σ.got (g, t, s)), got := fun x => if x.1 = g ∧ x.2.2 = s then [] else σ.got x } := by
  unfold cact; rw [h]; simp only; rw [if_pos hw]

end

/-- Atomic state and state in which the library executes its operations. -/
structure Sim (P : ℕ) (out : List A → Option (ℕ → B)) (body : ℕ → A → Prog CL XL ML B) (N : ℕ) (args : ℕ → ℕ → A) (e : ℕ → ℕ)
    (σ : CState (Option G) (CU ⊕ Unit) (XU ⊕ A) MU R) (ρ : CState (Option G) (CU ⊕ CL) (XU ⊕ XL) (MU ⊕ ML) R) : Prop where
  quiet : Quiet (CL := CL) (XL := XL) P ρ
  none : ∀ x, σ.want (none, x) = 0
  chan : ∀ g x, ρ.chan (some g, x) = (σ.chan (some g, x)).map .inl
  want : ∀ g x, ρ.want (some g, x) = σ.want (some g, x)
  got : ∀ g x, ρ.got (some g, x) = (σ.got (some g, x)).map .inl
  hist : ∀ s g, ∃ l : List (CU × XU), σ.hist s (some g) = l.map inlPair ∧ ρ.hist s (some g) = l.map inlPair
  calls : ∀ s < P, σ.hist s Option.none = callHist args s (e s)
  proc : ∀ s < P, ProcSim P out body N args s (e s) (σ.prog s) (ρ.prog s)

omit [DecidableEq G] [DecidableEq CU] [DecidableEq CL] in
lemma ProcSim.count {N : ℕ} {args : ℕ → ℕ → A} {s e : ℕ} {p : CProg (Option G) (CU ⊕ Unit) (XU ⊕ A) MU R} {q : CProg (Option G) (CU ⊕ CL) (XU ⊕ XL) (MU ⊕ ML) R}
    (h : ProcSim P out body N args s e p q) : e = N ∨ e = N + 1 ∧ ∃ k : B → UProg G CU XU MU A B R, q = embed (fun b => (k b).real body s) (body s (args N s)) ∧ p = .leave none (.inr ()) (afterCall out s fun b => (k b).atomic out s) := by
  cases h with
  | user | coll | called => exact .inl rfl
  | calling k => exact .inr ⟨rfl, k, rfl, rfl⟩

omit [DecidableEq G] [DecidableEq CU] [DecidableEq CL] in
lemma proc_update {N : ℕ} {args : ℕ → ℕ → A} {e : ℕ → ℕ} {σ : CState (Option G) (CU ⊕ Unit) (XU ⊕ A) MU R} {ρ : CState (Option G) (CU ⊕ CL) (XU ⊕ XL) (MU ⊕ ML) R}
    (hp : ∀ s < P, ProcSim P out body N args s (e s) (σ.prog s) (ρ.prog s)) {s es : ℕ} (hes : e s = es) {p : CProg (Option G) (CU ⊕ Unit) (XU ⊕ A) MU R} {q : CProg (Option G) (CU ⊕ CL) (XU ⊕ XL) (MU ⊕ ML) R}
    (h : ProcSim P out body N args s es p q) : ∀ t < P, ProcSim P out body N args t (e t) (Function.update σ.prog s p t) (Function.update ρ.prog s q t) := by
  intro t ht
  by_cases hts : t = s
  · subst hts; subst hes; simpa using h
  · simpa [hts] using hp t ht

lemma contribution_callHist {args : ℕ → ℕ → A} {s e i : ℕ} : contribution (Sum.inr () : CU ⊕ Unit) i (callHist (XU := XU) args s e) = if i < e then some (.inr (args i s)) else none := by
  unfold contribution callHist
  rw [List.getElem?_map]
  by_cases h : i < e
  · simp [h]
  · simp [h]

lemma gather_calls {args : ℕ → ℕ → A} {e : ℕ → ℕ} {h : ℕ → List ((CU ⊕ Unit) × (XU ⊕ A))} (hh : ∀ s < P, h s = callHist args s (e s)) {i : ℕ} {xs : List (XU ⊕ A)}
    (hg : gather P h (.inr ()) i = some xs) : (∀ s < P, i < e s) ∧ xs = ((List.range P).map (args i)).map .inr := by
  unfold gather at hg
  rw [mapM_congr (g := fun t => if i < e t then some (.inr (args i t)) else none) (fun t ht => by rw [hh t (List.mem_range.1 ht), contribution_callHist])] at hg
  have key : ∀ (l : List ℕ) (xs : List (XU ⊕ A)), l.mapM (fun t => if i < e t then some (Sum.inr (args i t) : XU ⊕ A) else none) = some xs → (∀ s ∈ l, i < e s) ∧ xs = (l.map (args i)).map .inr := by
    intro l
    induction l with
    | nil => intro xs h; simp at h; simp [h]
    | cons a l ih =>
      intro xs h
      rw [List.mapM_cons] at h
      by_cases ha : i < e a
      · rw [if_pos ha] at h
        cases hl : l.mapM (fun t => if i < e t then some (Sum.inr (args i t) : XU ⊕ A) else none) with
        | none => rw [hl] at h; cases h
        | some ys =>
          rw [hl] at h
          have : xs = .inr (args i a) :: ys := (Option.some.inj h).symm
          obtain ⟨h1, h2⟩ := ih ys hl
          exact ⟨by simpa [ha] using h1, by rw [this, h2]; rfl⟩
      · rw [if_neg ha] at h; cases h
  obtain ⟨h1, h2⟩ := key _ _ hg
  exact ⟨fun s hs => h1 s (List.mem_range.2 hs), h2⟩

lemma sim_step (hlib : ∀ (as : ℕ → A) (b : ℕ → B), out ((List.range P).map as) = some b → Runs P (fun r => body r (as r)) b) {eager : Option G → ℕ → ℕ → MU ⊕ ML → Bool}
    {N : ℕ} {args : ℕ → ℕ → A} {e : ℕ → ℕ} {σ σ' : CState (Option G) (CU ⊕ Unit) (XU ⊕ A) MU R} {ρ : CState (Option G) (CU ⊕ CL) (XU ⊕ XL) (MU ⊕ ML) R}
    (hS : Sim P out body N args e σ ρ) (h : CStep P (fun g s d m => eager g s d (.inl m)) σ σ') (hab : ∀ s < P, σ'.prog s ≠ .abort) :
    ∃ N' args' e' ρ', CReach P eager ρ ρ' ∧ Sim P out body N' args' e' σ' ρ' := by
  cases h with
  | deliver x hx hx' h =>
    obtain ⟨n, m, q, h1, h2, rfl⟩ := cdeliver_eq_some h
    obtain ⟨g, y⟩ := x
    cases g with
    | none => rw [hS.none] at h1; cases h1
    | some g =>
      refine ⟨N, args, e, _, .single (.deliver (some g, y) hx hx' (cdeliver_of (n := n) (m := .inl m) (q := q.map .inl) (by rw [hS.want, h1]) (by rw [hS.chan, h2]; rfl))), ?_, ?_, ?_, ?_, ?_, hS.hist, hS.calls, hS.proc⟩
      · exact ⟨fun x => by simpa using hS.quiet.chan x, fun x => by simpa using hS.quiet.want x, fun x => by simpa using hS.quiet.got x, hS.quiet.hist⟩
      · intro x; simpa using hS.none x
      · intro f x
        by_cases hfx : (f, x) = (g, y)
        · obtain ⟨rfl, rfl⟩ := Prod.mk.inj hfx; simp
        · have : (some f, x) ≠ (some g, y) := fun hc => hfx (by simpa using hc)
          simp [this, hS.chan]
      · intro f x
        by_cases hfx : (f, x) = (g, y)
        · obtain ⟨rfl, rfl⟩ := Prod.mk.inj hfx; simp
        · have : (some f, x) ≠ (some g, y) := fun hc => hfx (by simpa using hc)
          simp [this, hS.want]
      · intro f x
        by_cases hfx : (f, x) = (g, y)
        · obtain ⟨rfl, rfl⟩ := Prod.mk.inj hfx; simp [hS.got]
        · have : (some f, x) ≠ (some g, y) := fun hc => hfx (by simpa using hc)
          simp [this, hS.got]
  | act s hs h =>
    have hps := hS.proc s hs
    have hcs := hS.calls s hs
    unfold cact at h
    generalize hpa : σ.prog s = pa at hps h
    generalize hpr : ρ.prog s = pr at hps
    generalize hes : e s = es at hps
    cases hps with
    | user u =>
      cases u with
      | done r => cases h
      | coll g c x k =>
        simp only [UProg.atomic, Option.some.injEq] at h
        subst h
        refine ⟨N, args, e, _, .single (.act s hs (cact_enter hpr)), ⟨hS.quiet.chan, hS.quiet.want, hS.quiet.got, ?_⟩, hS.none, hS.chan, hS.want, hS.got, ?_, ?_,
          proc_update hS.proc hes (.coll g c k)⟩
        · obtain ⟨n, l, h1, h2⟩ := hS.quiet.hist
          refine ⟨n, l, fun t => ?_, h2⟩
          by_cases ht : t = s
          · subst ht; simpa using h1 t
          · simpa [ht] using h1 t
        · intro t f
          by_cases ht : t = s
          · subst ht
            obtain ⟨l, h1, h2⟩ := hS.hist t f
            by_cases hf : f = g
            · subst hf; exact ⟨l ++ [(c, x)], by simp [h1, inlPair], by simp [h2, inlPair]⟩
            · exact ⟨l, by simp [hf, h1], by simp [hf, h2]⟩
          · simpa [ht] using hS.hist t f
        · intro t ht
          by_cases hts : t = s
          · subst hts; simpa using hcs
          · simpa [hts] using hS.calls t ht
      | irecv g t k =>
        simp only [UProg.atomic] at h
        split at h
        · rename_i ht
          simp only [Option.some.injEq] at h
          subst h
          refine ⟨N, args, e, _, .single (.act s hs (cact_irecv hpr ht)), ⟨hS.quiet.chan, ?_, hS.quiet.got, hS.quiet.hist⟩, ?_, hS.chan, ?_, hS.got, hS.hist, hS.calls,
            proc_update hS.proc hes (.user k)⟩
          · intro x; simpa using hS.quiet.want x
          · intro x; simpa using hS.none x
          · intro f x; simp only [Function.update_apply, hS.want]
        · cases h
      | isend g d m k =>
        simp only [UProg.atomic] at h
        split at h
        · rename_i ht
          simp only [Option.some.injEq] at h
          subst h
          refine ⟨N, args, e, _, .single (.act s hs (cact_isend hpr ht)), ⟨?_, hS.quiet.want, hS.quiet.got, hS.quiet.hist⟩, hS.none, ?_, hS.want, hS.got, hS.hist, hS.calls,
            proc_update hS.proc hes (.user k)⟩
          · intro x; simpa using hS.quiet.chan x
          · intro f x
            simp only [Function.update_apply, hS.chan]
            split
            · simp
            · rfl
        · cases h
      | wait g k =>
        simp only [UProg.atomic] at h
        split at h
        · rename_i hw
          simp only [Option.some.injEq] at h
          subst h
          have hw' : (∀ t < P, ρ.want (some g, t, s) = 0) ∧ ∀ d < P, ∀ m ∈ ρ.chan (some g, s, d), eager (some g) s d m = true := by
            refine ⟨fun t ht => by rw [hS.want]; exact hw.1 t ht, fun d hd m hm => ?_⟩
            rw [hS.chan] at hm
            obtain ⟨m', hm', rfl⟩ := List.mem_map.1 hm
            exact hw.2 d hd m' hm'
          refine ⟨N, args, e, _, .single (.act s hs (cact_wait hpr hw')), ⟨hS.quiet.chan, hS.quiet.want, ?_, hS.quiet.hist⟩, hS.none, hS.chan, hS.want, ?_, hS.hist, hS.calls, ?_⟩
          · intro x; simpa using hS.quiet.got x
          · intro f x
            simp only [hS.got]
            split
            · rfl
            · rfl
          · have : (fun t => lefts (ρ.got (some g, t, s))) = fun t => σ.got (some g, t, s) := by funext t; rw [hS.got]; simp
            simp only [this]
            exact proc_update hS.proc hes (.user _)
        · cases h
      | call a k =>
        simp only [UProg.atomic, Option.some.injEq] at h
        subst h
        let args' : ℕ → ℕ → A := fun i t => if i = N ∧ t = s then a else args i t
        refine ⟨N, args', Function.update e s (N + 1), ρ, .refl, hS.quiet, hS.none, hS.chan, hS.want, hS.got, ?_, ?_, ?_⟩
        · intro t f
          by_cases ht : t = s
          · subst ht; simpa using hS.hist t f
          · simpa [ht] using hS.hist t f
        · intro t ht
          by_cases hts : t = s
          · subst hts
            simp only [Function.update_self]
            rw [hcs, hes]
            unfold callHist
            rw [List.range_succ, List.map_append]
            congr 1
            · refine List.map_congr_left fun i hi => ?_
              have : i ≠ N := (List.mem_range.1 hi).ne
              simp [args', this]
            · simp [args']
          · simp only [Function.update_of_ne hts]
            rw [hS.calls t ht]
            unfold callHist
            refine List.map_congr_left fun i _ => ?_
            simp [args', hts]
        · intro t ht
          by_cases hts : t = s
          · subst hts
            simp only [Function.update_self]
            rw [hpr]
            have : (UProg.call a k).real body t = embed (fun b => (k b).real body t) (body t (args' N t)) := by simp [UProg.real, args']
            rw [this]
            exact .calling k
          · simp only [Function.update_of_ne hts]
            have hpt := hS.proc t ht
            generalize σ.prog t = pa at hpt
            generalize ρ.prog t = pr at hpt
            generalize e t = et at hpt
            cases hpt with
            | user u => exact .user u
            | coll g c k => exact .coll g c k
            | called M hM b hb k' =>
              refine .called M hM b ?_ k'
              rw [← hb]
              congr 1
              refine List.map_congr_left fun i _ => ?_
              have : M ≠ N := by omega
              simp [args', this]
            | calling k' =>
              have : args N t = args' N t := by simp [args', hts]
              rw [this]
              exact .calling k'
    | coll g c k =>
      simp only [Option.map_eq_some_iff] at h
      obtain ⟨xs, hxs, rfl⟩ := h
      choose l hl1 hl2 using hS.hist
      have ha := gather_map (P := P) (Sum.inl : CU → CU ⊕ Unit) Sum.inl_injective (Sum.inl : XU → XU ⊕ A) c ((σ.hist s (some g)).length - 1) (h := fun t => l t g) (h' := fun t => σ.hist t (some g)) (fun t _ => hl1 t g)
      have hr := gather_map (P := P) (Sum.inl : CU → CU ⊕ CL) Sum.inl_injective (Sum.inl : XU → XU ⊕ XL) c ((σ.hist s (some g)).length - 1) (h := fun t => l t g) (h' := fun t => ρ.hist t (some g)) (fun t _ => hl2 t g)
      rw [hxs] at ha
      obtain ⟨ys, hys, hxy⟩ := Option.map_eq_some_iff.1 ha.symm
      rw [hys] at hr
      have hlen : (ρ.hist s (some g)).length = (σ.hist s (some g)).length := by rw [hl1, hl2]; simp
      refine ⟨N, args, e, { ρ with prog := Function.update ρ.prog s ((k ys).real body s) }, .single (.act s hs (by unfold cact; rw [hpr]; simp only; rw [hlen, hr]; simp)), ⟨hS.quiet.chan, hS.quiet.want, hS.quiet.got, hS.quiet.hist⟩, hS.none, hS.chan, hS.want, hS.got, hS.hist, hS.calls, ?_⟩
      subst hxy
      simp only [lefts_map]
      exact proc_update hS.proc hes (.user (k ys))
    | called M hM b hb k =>
      simp only [Option.map_eq_some_iff] at h
      obtain ⟨xs, hxs, rfl⟩ := h
      have hi : (σ.hist s none).length - 1 = M := by rw [hcs, hes]; simp [callHist, hM]
      rw [hi] at hxs
      obtain ⟨-, h2⟩ := gather_calls (h := fun t => σ.hist t none) hS.calls hxs
      subst h2
      refine ⟨N, args, e, ρ, .refl, hS.quiet, hS.none, hS.chan, hS.want, hS.got, hS.hist, hS.calls, ?_⟩
      have hac : afterCall (G := G) (CU := CU) (MU := MU) out s (fun b => (k b).atomic out s) (((List.range P).map (args M)).map .inr) = (k (b s)).atomic out s := by
        unfold afterCall
        rw [rights_map, hb]
      simp only [hac]
      have := proc_update (σ := σ) (ρ := ρ) hS.proc hes (ProcSim.user (k (b s)))
      rwa [← hpr, Function.update_eq_self] at this
    | calling k =>
      simp only [Option.map_eq_some_iff] at h
      obtain ⟨xs, hxs, rfl⟩ := h
      have hi : (σ.hist s none).length - 1 = N := by rw [hcs, hes]; simp [callHist]
      rw [hi] at hxs
      obtain ⟨h1, h2⟩ := gather_calls (h := fun t => σ.hist t none) hS.calls hxs
      subst h2
      have hall : ∀ t < P, e t = N + 1 ∧ ∃ k : B → UProg G CU XU MU A B R, ρ.prog t = embed (fun b => (k b).real body t) (body t (args N t)) ∧ σ.prog t = .leave none (.inr ()) (afterCall out t fun b => (k b).atomic out t) := by
        intro t ht
        rcases (hS.proc t ht).count with h' | h'
        · have := h1 t ht; omega
        · exact h'
      cases hb : out ((List.range P).map (args N)) with
      | none =>
        refine absurd ?_ (hab s hs)
        simp only [Function.update_self]
        unfold afterCall
        rw [rights_map, hb]
      | some b =>
        have hk : ∀ t, ∃ k : B → UProg G CU XU MU A B R, t < P → ρ.prog t = embed (fun b => (k b).real body t) (body t (args N t)) ∧ σ.prog t = .leave none (.inr ()) (afterCall out t fun b => (k b).atomic out t) := by
          intro t
          by_cases ht : t < P
          · obtain ⟨_, k, h⟩ := hall t ht; exact ⟨k, fun _ => h⟩
          · exact ⟨k, fun h => absurd h ht⟩
        choose ks hks using hk
        obtain ⟨ρ', r1, r2, r3, r4, r5, r6, r7⟩ := library_call hS.quiet (f := fun t b => (ks t b).real body t) (p := fun t => body t (args N t)) (fun t ht => (hks t ht).1) (hlib (args N) b hb) eager
        refine ⟨N + 1, args, e, ρ', r1, r2, hS.none, fun g x => by rw [r4, hS.chan], fun g x => by rw [r5, hS.want], fun g x => by rw [r6, hS.got], fun t g => ?_, hS.calls, ?_⟩
        · rw [r7]; exact hS.hist t g
        · intro t ht
          rw [r3 t ht, (hall t ht).1]
          by_cases hts : t = s
          · subst hts
            simp only [Function.update_self]
            have hac : afterCall (G := G) (CU := CU) (MU := MU) out t (fun b => (k b).atomic out t) (((List.range P).map (args N)).map .inr) = (ks t (b t)).atomic out t := by
              have hsame := hpa.symm.trans (hks t ht).2
              simp only [CProg.leave.injEq, true_and] at hsame
              rw [congrFun hsame]
              unfold afterCall
              rw [rights_map, hb]
            rw [hac]
            exact .user _
          · simp only [Function.update_of_ne hts]
            rw [(hks t ht).2]
            exact .called N rfl b hb (ks t)

lemma sim_reach (hlib : ∀ (as : ℕ → A) (b : ℕ → B), out ((List.range P).map as) = some b → Runs P (fun r => body r (as r)) b) {eager : Option G → ℕ → ℕ → MU ⊕ ML → Bool}
    {σ τ : CState (Option G) (CU ⊕ Unit) (XU ⊕ A) MU R} (h : CReach P (fun g s d m => eager g s d (.inl m)) σ τ) (hτ : ∀ s < P, τ.prog s ≠ .abort) :
    ∀ {N : ℕ} {args : ℕ → ℕ → A} {e : ℕ → ℕ} {ρ : CState (Option G) (CU ⊕ CL) (XU ⊕ XL) (MU ⊕ ML) R}, Sim P out body N args e σ ρ →
      ∃ N' args' e' ρ', CReach P eager ρ ρ' ∧ Sim P out body N' args' e' τ ρ' := by
  induction h using Relation.ReflTransGen.head_induction_on with
  | refl => intro N args e ρ hS; exact ⟨N, args, e, ρ, .refl, hS⟩
  | head hstep hr ih =>
    intro N args e ρ hS
    obtain ⟨N1, args1, e1, ρ1, r1, hS1⟩ := sim_step hlib hS hstep (fun s hs ha => hτ s hs (cabort_stays hr ha))
    obtain ⟨N2, args2, e2, ρ2, r2, hS2⟩ := ih hS1
    exact ⟨N2, args2, e2, ρ2, r1.trans r2, hS2⟩

lemma sim_start (args : ℕ → ℕ → A) (u : ℕ → UProg G CU XU MU A B R) : Sim P out body 0 args (fun _ => 0) (cstart fun s => (u s).atomic out s) (cstart fun s => (u s).real body s) where
  quiet := ⟨fun _ => rfl, fun _ => rfl, fun _ => rfl, 0, fun _ => [], fun _ => rfl, fun _ _ => rfl⟩
  none := fun _ => rfl
  chan := fun _ _ => rfl
  want := fun _ _ => rfl
  got := fun _ _ => rfl
  hist := fun _ _ => ⟨[], rfl, rfl⟩
  calls := fun _ _ => rfl
  proc := fun s _ => .user (u s)

omit [DecidableEq G] [DecidableEq CU] [DecidableEq CL] in
lemma ProcSim.done {N : ℕ} {args : ℕ → ℕ → A} {s e : ℕ} {r : R} {q : CProg (Option G) (CU ⊕ CL) (XU ⊕ XL) (MU ⊕ ML) R}
    (h : ProcSim P out body N args s e (.done r : CProg (Option G) (CU ⊕ Unit) (XU ⊕ A) MU R) q) : q = .done r := by
  generalize hp : (CProg.done r : CProg (Option G) (CU ⊕ Unit) (XU ⊕ A) MU R) = p at h
  cases h with
  | user u => cases u <;> simp [UProg.atomic] at hp; subst hp; rfl
  | coll | called | calling => cases hp

end ArborX.Mpi
