import Verif.Mpi.Comms

/-! # A library that communicates on a communicator of its own

A distributed tree communicates on a duplicate of the communicator that is given to its constructor (`src/distributed/ArborX_DistributedTree.hpp` 177-184). The program of the user calls it and communicates on other communicators.

`UProg`: programs of the user. `atomic`: what the user relies on, each call is one collective operation. `real`: each call is executed operation by operation. -/

namespace ArborX.Mpi

variable {G CU XU MU CL XL ML A B R : Type}

/-- Program of a process of the user: operations on communicators `g : G` and calls with arguments `a`, which return `B`. -/
inductive UProg (G CU XU MU A B R : Type) where
  | done (r : R)
  | coll (g : G) (c : CU) (x : XU) (k : List XU → UProg G CU XU MU A B R)
  | irecv (g : G) (source : ℕ) (k : UProg G CU XU MU A B R)
  | isend (g : G) (dest : ℕ) (m : MU) (k : UProg G CU XU MU A B R)
  | wait (g : G) (k : (ℕ → List MU) → UProg G CU XU MU A B R)
  | call (a : A) (k : B → UProg G CU XU MU A B R)

def lefts {α β : Type} (l : List (α ⊕ β)) : List α := l.filterMap Sum.getLeft?
def rights {α β : Type} (l : List (α ⊕ β)) : List β := l.filterMap Sum.getRight?

@[simp] lemma lefts_map {α β : Type} (l : List α) : lefts (l.map (Sum.inl : α → α ⊕ β)) = l := by
  unfold lefts; rw [List.filterMap_map]; exact List.filterMap_some

@[simp] lemma rights_map {α β : Type} (l : List β) : rights (l.map (Sum.inr : β → α ⊕ β)) = l := by
  unfold rights; rw [List.filterMap_map]; exact List.filterMap_some

/-- The end of a call. -/
def afterCall (out : List A → Option (ℕ → B)) (s : ℕ) (k : B → CProg (Option G) (CU ⊕ Unit) (XU ⊕ A) MU R) (as : List (XU ⊕ A)) : CProg (Option G) (CU ⊕ Unit) (XU ⊕ A) MU R :=
  match out (rights as) with
  | some b => k (b s)
  | none => .abort

/-- Each call is one collective operation: no process returns before all processes have called; if the arguments of all processes are as they must be (`out` is defined for them), process `s` gets its result, otherwise nothing is known (the process never continues). -/
def UProg.atomic (out : List A → Option (ℕ → B)) (s : ℕ) : UProg G CU XU MU A B R → CProg (Option G) (CU ⊕ Unit) (XU ⊕ A) MU R
  | .done r => .done r
  | .coll g c x k => .enter (some g) (.inl c) (.inl x) fun xs => (k (lefts xs)).atomic out s
  | .irecv g t k => .irecv (some g) t (k.atomic out s)
  | .isend g d m k => .isend (some g) d m (k.atomic out s)
  | .wait g k => .wait (some g) fun ms => (k ms).atomic out s
  | .call a k => .enter none (.inr ()) (.inr a) (afterCall out s fun b => (k b).atomic out s)

/-- A program of the library, then `f`. -/
def embed (f : B → CProg (Option G) (CU ⊕ CL) (XU ⊕ XL) (MU ⊕ ML) R) : Prog CL XL ML B → CProg (Option G) (CU ⊕ CL) (XU ⊕ XL) (MU ⊕ ML) R
  | .done b => f b
  | .enter c x k => .enter none (.inr c) (.inr x) fun xs => embed f (k (rights xs))
  | .leave c k => .leave none (.inr c) fun xs => embed f (k (rights xs))
  | .irecv t k => .irecv none t (embed f k)
  | .isend d m k => .isend none d (.inr m) (embed f k)
  | .wait k => .wait none fun g => embed f (k fun t => rights (g t))

/-- Each call is executed operation by operation on the communicator of the library (`none`). -/
def UProg.real (body : ℕ → A → Prog CL XL ML B) (s : ℕ) : UProg G CU XU MU A B R → CProg (Option G) (CU ⊕ CL) (XU ⊕ XL) (MU ⊕ ML) R
  | .done r => .done r
  | .coll g c x k => .enter (some g) (.inl c) (.inl x) fun xs => (k (lefts xs)).real body s
  | .irecv g t k => .irecv (some g) t (k.real body s)
  | .isend g d m k => .isend (some g) d (.inl m) (k.real body s)
  | .wait g k => .wait (some g) fun ms => (k fun t => lefts (ms t)).real body s
  | .call a k => embed (fun b => (k b).real body s) (body s a)

/-! ## Executions of the library -/

def inrPair (y : CL × XL) : (CU ⊕ CL) × (XU ⊕ XL) := (.inr y.1, .inr y.2)
def inlPair {C' X' : Type} (y : CU × XU) : (CU ⊕ C') × (XU ⊕ X') := (.inl y.1, .inl y.2)

variable {P : ℕ}

lemma contribution_map {C X C' X' : Type} [DecidableEq C] [DecidableEq C'] (f : C → C') (hf : Function.Injective f) (i : X → X') (c : C) (n : ℕ) (h : List (C × X)) :
    contribution (f c) n (h.map fun y => (f y.1, i y.2)) = (contribution c n h).map i := by
  unfold contribution
  rw [List.getElem?_map]
  cases h[n]? with
  | none => rfl
  | some y =>
    obtain ⟨c', x⟩ := y
    simp only [Option.map_some]
    by_cases hc : c' = c
    · simp [hc]
    · simp [hc, hf.ne hc]

lemma mapM_congr {α β : Type} {l : List α} {f g : α → Option β} (h : ∀ a ∈ l, f a = g a) : l.mapM f = l.mapM g := by
  induction l with
  | nil => rfl
  | cons a l ih => rw [List.mapM_cons, List.mapM_cons, h a (by simp), ih fun b hb => h b (by simp [hb])]

lemma mapM_map {α β γ : Type} (l : List α) (f : α → Option β) (i : β → γ) : l.mapM (fun a => (f a).map i) = (l.mapM f).map (List.map i) := by
  induction l with
  | nil => rfl
  | cons a l ih =>
    rw [List.mapM_cons, List.mapM_cons, ih]
    cases f a <;> cases l.mapM f <;> rfl

lemma gather_map {C X C' X' : Type} [DecidableEq C] [DecidableEq C'] (f : C → C') (hf : Function.Injective f) (i : X → X') (c : C) (n : ℕ) {h : ℕ → List (C × X)} {h' : ℕ → List (C' × X')}
    (hh : ∀ t < P, h' t = (h t).map fun y => (f y.1, i y.2)) : gather P h' (f c) n = (gather P h c n).map (List.map i) := by
  unfold gather
  rw [← mapM_map]
  refine mapM_congr fun t ht => ?_
  rw [hh t (List.mem_range.1 ht), contribution_map f hf i]

variable [DecidableEq G] [DecidableEq CU] [DecidableEq CL]

/-- The library is in state `σ`, everything else as in `β`. -/
def place (P : ℕ) (β : CState (Option G) (CU ⊕ CL) (XU ⊕ XL) (MU ⊕ ML) R) (f : ℕ → B → CProg (Option G) (CU ⊕ CL) (XU ⊕ XL) (MU ⊕ ML) R) (σ : State CL XL ML B) :
    CState (Option G) (CU ⊕ CL) (XU ⊕ XL) (MU ⊕ ML) R where
  prog s := if s < P then embed (f s) (σ.prog s) else β.prog s
  chan x := if x.1 = none then (σ.chan x.2).map .inr else β.chan x
  want x := if x.1 = none then σ.want x.2 else β.want x
  got x := if x.1 = none then (σ.got x.2).map .inr else β.got x
  hist s g := if g = none then (σ.hist s).map inrPair else β.hist s g

lemma place_step {β : CState (Option G) (CU ⊕ CL) (XU ⊕ XL) (MU ⊕ ML) R} {f : ℕ → B → CProg (Option G) (CU ⊕ CL) (XU ⊕ XL) (MU ⊕ ML) R} {eager : Option G → ℕ → ℕ → MU ⊕ ML → Bool}
    {σ τ : State CL XL ML B} (h : Step P (fun s d m => eager none s d (.inr m)) σ τ) : CStep P eager (place P β f σ) (place P β f τ) := by
  cases h with
  | act s hs h =>
    refine .act s hs ?_
    unfold act at h
    unfold cact
    have hprog : (place P β f σ).prog s = embed (f s) (σ.prog s) := if_pos hs
    rw [hprog]
    have hupd : ∀ p, Function.update (place P β f σ).prog s (embed (f s) p) = fun t => if t < P then embed (f t) (Function.update σ.prog s p t) else β.prog t := by
      intro p
      funext t
      by_cases ht : t = s
      · subst ht; simp [hs]
      · simp [ht, place]
    cases hp : σ.prog s with
    | done r => rw [hp] at h; cases h
    | enter c x k =>
      rw [hp] at h
      simp only [Option.some.injEq] at h
      subst h
      simp only [embed, Option.some.injEq]
      refine CState.ext' (hupd (.leave c k)) rfl rfl rfl ?_
      funext t g
      by_cases ht : t = s
      · subst ht
        by_cases hg : g = none
        · subst hg; simp [place, inrPair]
        · simp [place, hg]
      · simp [place, ht]
    | leave c k =>
      rw [hp] at h
      simp only [Option.map_eq_some_iff] at h
      obtain ⟨xs, hxs, rfl⟩ := h
      have hg : gather P (fun t => (place P β f σ).hist t none) (.inr c) (((place P β f σ).hist s none).length - 1) = some (xs.map .inr) := by
        have := gather_map (P := P) (Sum.inr : CL → CU ⊕ CL) Sum.inr_injective (Sum.inr : XL → XU ⊕ XL) c ((σ.hist s).length - 1) (h := σ.hist) (h' := fun t => (place P β f σ).hist t none) (fun t _ => by simp only [place, if_true]; rfl)
        rw [hxs] at this
        rw [show ((place P β f σ).hist s none).length = (σ.hist s).length by simp [place]]
        exact this
      simp only [embed]
      rw [hg]
      simp only [Option.map_some, rights_map, Option.some.injEq]
      exact CState.ext' (hupd (k xs)) rfl rfl rfl rfl
    | irecv t k =>
      rw [hp] at h
      simp only at h
      split at h
      · rename_i ht
        simp only [Option.some.injEq] at h
        subst h
        simp only [embed, if_pos ht, Option.some.injEq]
        refine CState.ext' (hupd k) rfl ?_ rfl rfl
        funext ⟨g, a, b⟩
        cases g with
        | none => by_cases e : (a, b) = (t, s) <;> simp [place, Function.update_apply, e, Prod.mk.injEq]
        | some g => simp [place, Function.update_apply]
      · cases h
    | isend d m k =>
      rw [hp] at h
      simp only at h
      split at h
      · rename_i ht
        simp only [Option.some.injEq] at h
        subst h
        simp only [embed, if_pos ht, Option.some.injEq]
        refine CState.ext' (hupd k) ?_ rfl rfl rfl
        funext ⟨g, a, b⟩
        cases g with
        | none => 
          simp only [place, Function.update_apply, Prod.mk.injEq, true_and, if_true]
          by_cases e : a = s ∧ b = d
          · obtain ⟨rfl, rfl⟩ := e; simp
          · simp only [if_neg e]
        | some g => simp [place, Function.update_apply]
      · cases h
    | wait k =>
      rw [hp] at h
      simp only at h
      split at h
      · rename_i hw
        simp only [Option.some.injEq] at h
        subst h
        have hw' : (∀ t < P, (place P β f σ).want (none, t, s) = 0) ∧ ∀ d < P, ∀ m ∈ (place P β f σ).chan (none, s, d), eager none s d m = true := by
          refine ⟨fun t ht => by simpa [place] using hw.1 t ht, fun d hd m hm => ?_⟩
          simp only [place, if_true, List.mem_map] at hm
          obtain ⟨m', hm', rfl⟩ := hm
          exact hw.2 d hd m' hm'
        simp only [embed, if_pos hw', Option.some.injEq]
        refine CState.ext' ?_ rfl rfl ?_ rfl
        · have : (fun t => rights ((place P β f σ).got (none, t, s))) = fun t => σ.got (t, s) := by funext t; simp [place]
          simp only [this]
          exact hupd _
        · funext ⟨g, a, b⟩
          cases g with
          | none => by_cases e : b = s <;> simp [place, e]
          | some g => simp [place]
      · cases h
  | deliver s r hs hr h =>
    obtain ⟨n, m, q, h1, h2, rfl⟩ := deliver_eq_some h
    refine .deliver (none, s, r) hs hr ?_
    rw [cdeliver_of (n := n) (m := .inr m) (q := q.map .inr) (by simpa [place] using h1) (by simp [place, h2])]
    simp only [Option.some.injEq]
    refine CState.ext' rfl ?_ ?_ ?_ rfl
    · funext ⟨g, x⟩
      cases g with
      | none => by_cases e : x = (s, r) <;> simp [place, Function.update_apply, e]
      | some g => simp [place, Function.update_apply]
    · funext ⟨g, x⟩
      cases g with
      | none => by_cases e : x = (s, r) <;> simp [place, Function.update_apply, e]
      | some g => simp [place, Function.update_apply]
    · funext ⟨g, x⟩
      cases g with
      | none => by_cases e : x = (s, r) <;> simp [place, Function.update_apply, e]
      | some g => simp [place, Function.update_apply]

lemma place_reach {β : CState (Option G) (CU ⊕ CL) (XU ⊕ XL) (MU ⊕ ML) R} {f : ℕ → B → CProg (Option G) (CU ⊕ CL) (XU ⊕ XL) (MU ⊕ ML) R} {eager : Option G → ℕ → ℕ → MU ⊕ ML → Bool}
    {σ τ : State CL XL ML B} (h : Reach P (fun s d m => eager none s d (.inr m)) σ τ) : CReach P eager (place P β f σ) (place P β f τ) := by
  induction h with
  | refl => exact .refl
  | tail _ hab ih => exact ih.tail (place_step hab)

/-- Nothing of the library is under way. -/
structure Quiet (P : ℕ) (ρ : CState (Option G) (CU ⊕ CL) (XU ⊕ XL) (MU ⊕ ML) R) : Prop where
  chan : ∀ x, ρ.chan (none, x) = []
  want : ∀ x, ρ.want (none, x) = 0
  got : ∀ x, ρ.got (none, x) = []
  hist : ∃ (n : ℕ) (h : ℕ → List (CL × XL)), (∀ s, ρ.hist s none = (h s).map inrPair) ∧ ∀ s < P, (h s).length = n

/-- If all processes are at the beginning of a call, one execution goes on with the call on all of them. -/
lemma library_call {ρ : CState (Option G) (CU ⊕ CL) (XU ⊕ XL) (MU ⊕ ML) R} (hq : Quiet (CL := CL) (XL := XL) P ρ) {f : ℕ → B → CProg (Option G) (CU ⊕ CL) (XU ⊕ XL) (MU ⊕ ML) R} {p : ℕ → Prog CL XL ML B} {res : ℕ → B}
    (hp : ∀ s < P, ρ.prog s = embed (f s) (p s)) (hr : Runs P p res) (eager : Option G → ℕ → ℕ → MU ⊕ ML → Bool) :
    ∃ ρ', CReach P eager ρ ρ' ∧ Quiet (CL := CL) (XL := XL) P ρ' ∧ (∀ s < P, ρ'.prog s = f s (res s)) ∧ (∀ g x, ρ'.chan (some g, x) = ρ.chan (some g, x)) ∧ (∀ g x, ρ'.want (some g, x) = ρ.want (some g, x)) ∧
      (∀ g x, ρ'.got (some g, x) = ρ.got (some g, x)) ∧ ∀ s g, ρ'.hist s (some g) = ρ.hist s (some g) := by
  obtain ⟨n, h, hh, hn⟩ := hq.hist
  let σ : State CL XL ML B := ⟨p, fun _ => [], fun _ => 0, fun _ => [], h⟩
  have hσ : place P ρ f σ = ρ := by
    refine CState.ext' ?_ ?_ ?_ ?_ ?_
    · funext s
      by_cases hs : s < P
      · simp [place, hs, σ, hp s hs]
      · simp [place, hs]
    · funext ⟨g, x⟩; cases g <;> simp [place, σ, hq.chan]
    · funext ⟨g, x⟩; cases g <;> simp [place, σ, hq.want]
    · funext ⟨g, x⟩; cases g <;> simp [place, σ, hq.got]
    · funext s g; cases g <;> simp [place, σ, hh]
  have hc : Clean P n p σ := ⟨fun _ _ => rfl, fun _ => rfl, fun _ => rfl, fun _ => rfl, hn⟩
  obtain ⟨m, τ, h1, h2⟩ := runs_reach (eager := fun s d m => eager none s d (.inr m)) hr hc
  refine ⟨place P ρ f τ, ?_, ?_, ?_, ?_, ?_, ?_, ?_⟩
  · have : CReach P eager (place P ρ f σ) (place P ρ f τ) := place_reach h1
    rwa [hσ] at this
  · exact ⟨fun x => by simp [place, h2.chan], fun x => by simp [place, h2.want], fun x => by simp [place, h2.got], m, τ.hist, fun s => by simp [place], h2.hist⟩
  · intro s hs; simp [place, hs, h2.prog s hs, embed]
  · intro g x; simp [place]
  · intro g x; simp [place]
  · intro g x; simp [place]
  · intro s g; simp [place]

end ArborX.Mpi
