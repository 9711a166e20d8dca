import Verif.UnionFind.Theorems
import Mathlib.Data.List.Count

/-!
# The finalisation kernel of DBSCAN

Models `src/cluster/ArborX_DBSCAN.hpp` lines 489-518: the kernel that makes all labels point to
the representatives and counts the members (concurrent, every access is a step), and the
kernel that marks noise.
-/

namespace ArborX.Dbscan

open Function (update)

/-- Local state of the thread of point `i` in `finalize_labels` (lines 493-506): before reading
`labels(i)` (line 496); before reading `labels(vstat)` (line 498); before writing `labels(i)`
(line 503); before reading `labels(i)` (line 505); before the increment of `cluster_sizes(l)`
(line 505); finished; after an out-of-bounds access. -/
inductive FThr where
  | start
  | loop (vstat old : ℕ)
  | write (vstat : ℕ)
  | count
  | inc (l : ℕ)
  | done
  | fault
  deriving DecidableEq

/-- Shared arrays `labels` and `cluster_sizes`, and the threads. -/
structure FState where
  L : ℕ → ℕ
  sizes : ℕ → ℕ
  thr : ℕ → FThr

/-- The entry of an array of size `n` accessed by the next step of the thread of point `i`. -/
def faccess (i : ℕ) : FThr → Option ℕ
  | .start => some i
  | .loop v _ => some v
  | .write _ => some i
  | .count => some i
  | .inc l => some l
  | .done => none
  | .fault => none

/-- One step of the thread of point `i`. -/
def fact (i : ℕ) (s : FState) : FThr → FState
  | .start => { s with thr := update s.thr i (.loop (s.L i) (s.L i)) }
  | .loop v old =>
    if v > s.L v then { s with thr := update s.thr i (.loop (s.L v) old) }
    else if v ≠ old then { s with thr := update s.thr i (.write v) }
    else { s with thr := update s.thr i .count }
  | .write v => { s with L := update s.L i v, thr := update s.thr i .count }
  | .count => { s with thr := update s.thr i (.inc (s.L i)) }
  | .inc l => { s with sizes := update s.sizes l (s.sizes l + 1), thr := update s.thr i .done }
  | .done => s
  | .fault => s

/-- One step, with the check of the bounds. -/
def fstep (n : ℕ) (s : FState) (i : ℕ) : FState :=
  if n ≤ i then s
  else if (faccess i (s.thr i)).any (fun x => decide (n ≤ x)) then
    { s with thr := update s.thr i .fault }
  else fact i s (s.thr i)

/-- The kernel under a schedule; `cluster_sizes` is zero-initialised (lines 489-490). -/
def finalize (n : ℕ) (L : ℕ → ℕ) (sched : List ℕ) : FState :=
  sched.foldl (fstep n) ⟨L, fun _ => 0, fun _ => .start⟩

/-- `mark_noise` (lines 512-518): every thread reads and writes its own label only. -/
def markNoise (special : Bool) (core : ℕ → Bool) (L sizes : ℕ → ℕ) (i : ℕ) : ℤ :=
  if sizes (L i) = 1 ∧ (special = true ∨ core i = false) then -1 else L i

/-! ## Correctness -/

open UF

section

variable {n : ℕ} {C : ℕ → Prop} {L0 : ℕ → ℕ}

/-- What the kernel needs of the labels it is given. -/
structure FPre (n : ℕ) (C : ℕ → Prop) (L0 : ℕ → ℕ) : Prop where
  lt : ∀ x, C x → x < n
  dec : Dec C L0
  out : ∀ b, ¬ C b → L0 b = b ∨ C (L0 b)

open Classical in
/-- The final label of a point. -/
noncomputable def tgt (C : ℕ → Prop) (L0 : ℕ → ℕ) (x : ℕ) : ℕ :=
  if C x then root L0 x else if L0 x = x then x else root L0 (L0 x)

lemma tgt_core {x : ℕ} (h : C x) : tgt C L0 x = root L0 x := if_pos h

lemma tgt_self {x : ℕ} (h : ¬ C x) (e : L0 x = x) : tgt C L0 x = x := by
  unfold tgt; rw [if_neg h, if_pos e]

lemma tgt_border {x : ℕ} (h : ¬ C x) (e : C (L0 x)) : tgt C L0 x = root L0 (L0 x) := by
  unfold tgt
  rw [if_neg h]
  split_ifs with h'
  · rw [h'] at e; exact absurd e h
  · rfl

lemma root_root (hd : Dec C L0) {x : ℕ} (h : C x) : root L0 (root L0 x) = root L0 x := by
  exact root_of_fix (root_fixed hd h)

/-- State of the thread of point `i`. -/
def FT (C : ℕ → Prop) (L0 : ℕ → ℕ) (L : ℕ → ℕ) (i : ℕ) : FThr → Prop
  | .start => True
  | .loop v old => tgt C L0 v = tgt C L0 i ∧ (C v ∨ (v = i ∧ ¬ C i ∧ tgt C L0 i = i)) ∧ old = L i
  | .write v => v = tgt C L0 i
  | .count => L i = tgt C L0 i
  | .inc l => l = tgt C L0 i ∧ L i = tgt C L0 i
  | .done => L i = tgt C L0 i
  | .fault => False

structure FInv (n : ℕ) (C : ℕ → Prop) (L0 : ℕ → ℕ) (s : FState) : Prop where
  core : ∀ x, C x → C (s.L x) ∧ s.L x ≤ x ∧ tgt C L0 (s.L x) = tgt C L0 x ∧ (s.L x = x → tgt C L0 x = x)
  out : ∀ x, ¬ C x → (s.L x = x ∧ tgt C L0 x = x) ∨ (C (s.L x) ∧ tgt C L0 (s.L x) = tgt C L0 x)
  thr : ∀ i < n, FT C L0 s.L i (s.thr i)
  sizes : ∀ c, s.sizes c
    = (List.range n).countP (fun i => decide (s.thr i = .done) && decide (tgt C L0 i = c))

lemma tgt_mem (P : FPre n C L0) {x : ℕ} (h : C x) : C (tgt C L0 x) := by
  rw [tgt_core h]; exact root_mem P.dec h

lemma tgt_idem (P : FPre n C L0) {x : ℕ} (h : C x) : tgt C L0 (tgt C L0 x) = tgt C L0 x := by
  rw [tgt_core (tgt_mem P h), tgt_core h, root_root P.dec h]

lemma FInv.init (P : FPre n C L0) : FInv n C L0 ⟨L0, fun _ => 0, fun _ => .start⟩ := by
  refine ⟨?_, ?_, fun i _ => trivial, ?_⟩
  · intro x hx
    have := P.dec x hx
    refine ⟨this.1, this.2, ?_, ?_⟩
    · rw [tgt_core this.1, tgt_core hx]
      exact root_label P.dec hx
    · intro e
      rw [tgt_core hx]
      exact root_of_fix e
  · intro x hx
    rcases P.out x hx with h | h
    · exact Or.inl ⟨h, tgt_self hx h⟩
    · exact Or.inr ⟨h, by dsimp only; rw [tgt_core h, tgt_border hx h]⟩
  · intro c
    simp

/-- The threads of other points are not affected by a write of point `i`. -/
lemma FT.other {L : ℕ → ℕ} {i j v : ℕ} (h : j ≠ i) {x : FThr} (H : FT C L0 L j x) :
    FT C L0 (update L i v) j x := by
  cases x <;> simp only [FT, Function.update_of_ne h] at * <;> exact H

lemma countP_congr_done {n : ℕ} {C : ℕ → Prop} {L0 : ℕ → ℕ} {t t' : ℕ → FThr}
    (h : ∀ i < n, t i = .done ↔ t' i = .done) (c : ℕ) :
    (List.range n).countP (fun i => decide (t i = .done) && decide (tgt C L0 i = c))
      = (List.range n).countP (fun i => decide (t' i = .done) && decide (tgt C L0 i = c)) := by
  apply List.countP_congr
  intro i hi
  have := h i (List.mem_range.mp hi)
  simp [this]

lemma countP_update {n i : ℕ} (hi : i < n) (p q : ℕ → Bool) (hp : p i = false) (hq : q i = true)
    (h : ∀ j, j ≠ i → q j = p j) : (List.range n).countP q = (List.range n).countP p + 1 := by
  induction n with
  | zero => omega
  | succ n ih =>
    rw [List.range_succ, List.countP_append, List.countP_append]
    by_cases e : i = n
    · subst e
      have : (List.range i).countP q = (List.range i).countP p := by
        apply List.countP_congr
        intro j hj
        rw [h j (by have := List.mem_range.mp hj; omega)]
      rw [this]
      simp [hp, hq]
    · rw [ih (by omega)]
      have : q n = p n := h n (by omega)
      simp only [List.countP_singleton, this]
      omega

lemma FInv.step (P : FPre n C L0) {s : FState} (h : FInv n C L0 s) (i : ℕ) :
    FInv n C L0 (fstep n s i) := by
  unfold fstep
  by_cases hi : n ≤ i
  · rw [if_pos hi]; exact h
  rw [if_neg hi]
  have hin : i < n := by omega
  have hT := h.thr i hin
  have hcore := h.core
  have hout := h.out
  -- changes of the local state of `i` only
  have local_ : ∀ x : FThr, FT C L0 s.L i x → s.thr i ≠ .done → x ≠ .done →
      FInv n C L0 { s with thr := update s.thr i x } := by
    intro x hx h1 h2
    refine ⟨hcore, hout, ?_, ?_⟩
    · intro j hj
      by_cases e : j = i
      · subst e; simpa using hx
      · simpa [Function.update_of_ne e] using h.thr j hj
    · intro c
      rw [h.sizes c]
      apply countP_congr_done
      intro j _
      by_cases e : j = i
      · subst e; simp [h1, h2]
      · simp [Function.update_of_ne e]
  cases e : s.thr i with
  | done => simpa [faccess, fact] using h
  | fault => rw [e] at hT; exact hT.elim
  | start =>
    rw [if_neg (by simp [faccess]; omega)]
    refine local_ _ ?_ (by rw [e]; simp) (by simp)
    by_cases hC : C i
    · have := hcore i hC
      exact ⟨this.2.2.1, Or.inl this.1, rfl⟩
    · rcases hout i hC with ⟨h1, h2⟩ | ⟨h1, h2⟩
      · refine ⟨by rw [h1], Or.inr ⟨h1, hC, h2⟩, rfl⟩
      · exact ⟨h2, Or.inl h1, rfl⟩
  | loop v old =>
    rw [e] at hT
    obtain ⟨h1, h2, h3⟩ := hT
    have hv : v < n := by
      rcases h2 with h2 | h2
      · exact P.lt v h2
      · rw [h2.1]; exact hin
    rw [if_neg (by simp [faccess]; omega)]
    simp only [fact]
    by_cases hlt : v > s.L v
    · rw [if_pos hlt]
      refine local_ _ ?_ (by rw [e]; simp) (by simp)
      rcases h2 with h2 | ⟨h2, h2', h2''⟩
      · have := hcore v h2
        exact ⟨this.2.2.1.trans h1, Or.inl this.1, h3⟩
      · rw [h2] at hlt ⊢
        rcases hout i h2' with h4 | h4
        · omega
        · exact ⟨h4.2, Or.inl h4.1, h3⟩
    · rw [if_neg hlt]
      have hvt : v = tgt C L0 i := by
        rcases h2 with h2 | ⟨h2, h2', h2''⟩
        · have := hcore v h2
          have e' : s.L v = v := by omega
          rw [← h1, this.2.2.2 e']
        · rw [h2'', h2]
      split_ifs with hne
      · exact local_ _ hvt (by rw [e]; simp) (by simp)
      · refine local_ _ ?_ (by rw [e]; simp) (by simp)
        have : v = old := not_not.mp hne
        show s.L i = tgt C L0 i
        rw [← h3, ← this, hvt]
  | write v =>
    rw [e] at hT
    rw [if_neg (by simp [faccess]; omega)]
    simp only [fact]
    have hv : v = tgt C L0 i := hT
    refine ⟨?_, ?_, ?_, ?_⟩
    · intro x hx
      dsimp only
      by_cases ex : x = i
      · subst ex
        rw [Function.update_self, hv]
        refine ⟨tgt_mem P hx, ?_, tgt_idem P hx, fun h => h⟩
        rw [tgt_core hx]; exact root_le P.dec hx
      · rw [Function.update_of_ne ex]; exact hcore x hx
    · intro x hx
      dsimp only
      by_cases ex : x = i
      · subst ex
        rw [Function.update_self, hv]
        rcases P.out x hx with h' | h'
        · have := tgt_self hx h'
          exact Or.inl ⟨this, this⟩
        · right
          rw [tgt_border hx h', tgt_core (root_mem P.dec h'), root_root P.dec h']
          exact ⟨root_mem P.dec h', rfl⟩
      · rw [Function.update_of_ne ex]; exact hout x hx
    · intro j hj
      dsimp only
      by_cases ej : j = i
      · subst ej
        rw [Function.update_self]
        show update s.L j v j = _
        rw [Function.update_self, hv]
      · rw [Function.update_of_ne ej]
        exact FT.other ej (h.thr j hj)
    · intro c
      rw [h.sizes c]
      apply countP_congr_done
      intro j _
      by_cases ej : j = i
      · subst ej; simp [e]
      · simp [Function.update_of_ne ej]
  | count =>
    rw [e] at hT
    rw [if_neg (by simp [faccess]; omega)]
    refine local_ _ ⟨hT, hT⟩ (by rw [e]; simp) (by simp)
  | inc l =>
    rw [e] at hT
    obtain ⟨h1, h2⟩ := hT
    have hl : l < n := by
      rw [h1]
      by_cases hC : C i
      · exact P.lt _ (tgt_mem P hC)
      · rcases P.out i hC with h' | h'
        · rw [tgt_self hC h']; exact hin
        · rw [tgt_border hC h']; exact P.lt _ (root_mem P.dec h')
    rw [if_neg (by simp [faccess]; omega)]
    simp only [fact]
    refine ⟨hcore, hout, ?_, ?_⟩
    · intro j hj
      dsimp only
      by_cases ej : j = i
      · subst ej; rw [Function.update_self]; exact h2
      · rw [Function.update_of_ne ej]; exact h.thr j hj
    · intro c
      dsimp only
      by_cases ec : c = l
      · subst ec
        rw [Function.update_self, h.sizes c]
        symm
        refine countP_update hin _ _ (by simp [e]) (by simp [h1]) ?_
        intro j hj
        simp [Function.update_of_ne hj]
      · rw [Function.update_of_ne ec, h.sizes c]
        apply List.countP_congr
        intro j _
        by_cases ej : j = i
        · subst ej
          have : tgt C L0 j ≠ c := fun h => ec (h.symm.trans h1.symm)
          simp [e, this]
        · simp [Function.update_of_ne ej]

lemma FInv.run (P : FPre n C L0) (sched : List ℕ) : FInv n C L0 (finalize n L0 sched) := by
  unfold finalize
  have h0 := FInv.init P
  generalize (⟨L0, fun _ => 0, fun _ => .start⟩ : FState) = s at h0
  induction sched generalizing s with
  | nil => exact h0
  | cons t ts ih => exact ih _ (FInv.step P h0 t)

/-- The kernel is done. -/
def FDone (n : ℕ) (s : FState) : Prop := ∀ i < n, s.thr i = .done

instance (n : ℕ) (s : FState) : Decidable (FDone n s) := by unfold FDone; infer_instance

theorem finalize_no_fault (P : FPre n C L0) (sched : List ℕ) (i : ℕ) (hi : i < n) :
    (finalize n L0 sched).thr i ≠ .fault := by
  intro h
  have := (FInv.run P sched).thr i hi
  rw [h] at this
  exact this

theorem finalize_spec (P : FPre n C L0) (sched : List ℕ) (hd : FDone n (finalize n L0 sched)) :
    (∀ i < n, (finalize n L0 sched).L i = tgt C L0 i) ∧
    ∀ c, (finalize n L0 sched).sizes c = (List.range n).countP (fun i => decide (tgt C L0 i = c)) := by
  have h := FInv.run P sched
  refine ⟨fun i hi => ?_, fun c => ?_⟩
  · have := h.thr i hi
    rw [hd i hi] at this
    exact this
  · rw [h.sizes c]
    apply List.countP_congr
    intro i hi
    simp [hd i (List.mem_range.mp hi)]

/-- Steps left to a thread; only its own steps matter. -/
def frank (n : ℕ) : FThr → ℕ
  | .start => n + 5
  | .loop v _ => v + 4
  | .write _ => 3
  | .count => 2
  | .inc _ => 1
  | .done => 0
  | .fault => 0

lemma FInv.label_lt (P : FPre n C L0) {s : FState} (h : FInv n C L0 s) {x : ℕ} (hx : x < n) : s.L x < n := by
  by_cases hC : C x
  · exact P.lt _ (h.core x hC).1
  · rcases h.out x hC with h' | h'
    · rw [h'.1]; exact hx
    · exact P.lt _ h'.1

lemma fstep_rank (P : FPre n C L0) {s : FState} (h : FInv n C L0 s) (i j : ℕ) (hj : j < n) :
    frank n ((fstep n s i).thr j) + (if i = j then 1 else 0) ≤ frank n (s.thr j) ∨
      (s.thr j = .done ∧ (fstep n s i).thr j = .done) := by
  have hinv := FInv.step P h i
  unfold fstep at hinv ⊢
  by_cases hi : n ≤ i
  · rw [if_pos hi, if_neg (by omega)]; left; omega
  rw [if_neg hi] at hinv ⊢
  by_cases ha : (faccess i (s.thr i)).any (fun x => decide (n ≤ x)) = true
  · rw [if_pos ha] at hinv
    have := hinv.thr i (by omega)
    simp [FT] at this
  rw [if_neg ha]
  by_cases e : i = j
  · subst e
    rw [if_pos rfl]
    cases hs : s.thr i with
    | start =>
      left
      have := h.label_lt P hj
      simp [fact, frank]; omega
    | loop v old =>
      left
      simp only [fact]
      split_ifs <;> simp [frank] <;> omega
    | write v => left; simp [fact, frank]
    | count => left; simp [fact, frank]
    | inc l => left; simp [fact, frank]
    | done => right; exact ⟨rfl, by simp [fact, hs]⟩
    | fault =>
      have := h.thr i (by omega)
      rw [hs] at this
      exact this.elim
  · left
    rw [if_neg e]
    have : (fact i s (s.thr i)).thr j = s.thr j := by
      cases hs : s.thr i with
      | loop v old =>
        simp only [fact]
        split_ifs <;> simp [Function.update_of_ne (Ne.symm e)]
      | _ => simp [fact, Function.update_of_ne (Ne.symm e)]
    rw [this]; omega

/-- Every thread of the kernel finishes after `n + 5` of its own steps. -/
theorem finalize_wait_free (P : FPre n C L0) (sched : List ℕ) (j : ℕ) (hj : j < n)
    (hc : n + 5 ≤ sched.count j) : (finalize n L0 sched).thr j = .done := by
  have key : ∀ (sched : List ℕ) (s : FState), FInv n C L0 s → (frank n (s.thr j) ≤ sched.count j ∨ s.thr j = .done) →
      (sched.foldl (fstep n) s).thr j = .done := by
    intro sched
    induction sched with
    | nil =>
      intro s h hr
      rcases hr with hr | hr
      · have hf := h.thr j hj
        have hr' : frank n (s.thr j) = 0 := by simpa using hr
        show s.thr j = .done
        cases hs : s.thr j with
        | done => rfl
        | fault => rw [hs] at hf; exact hf.elim
        | _ => rw [hs] at hr'; simp [frank] at hr'
      · exact hr
    | cons t ts ih =>
      intro s h hr
      refine ih _ (FInv.step P h t) ?_
      rcases fstep_rank P h t j hj with h' | h'
      · rcases hr with hr | hr
        · left
          rw [List.count_cons] at hr
          by_cases e : t = j
          · simp only [e, beq_self_eq_true, if_true] at hr h' ⊢
            omega
          · have : (t == j) = false := by simpa using e
            rw [this] at hr
            rw [if_neg e] at h'
            simp at hr
            omega
        · left
          rw [hr] at h'
          have : frank n .done = 0 := rfl
          omega
      · exact Or.inr h'.2
  exact key sched _ (FInv.init P) (Or.inl hc)

end

end ArborX.Dbscan
