import Verif.DenseBox.Count

/-!
# The union-find kernels of the dense box implementation
-/

namespace ArborX.DenseBox

open Traversal BVH Dbscan Perm UF

variable {V : Type} {w : ℕ}

lemma path_same {i j : ℕ} {k : Bool → Prog} {l : List Ev} (h : Path (.same i j k) l .ret) :
    ∃ r l', l = .same i j r :: l' ∧ Path (k r) l' .ret := by
  rcases h.head with ⟨-, h2⟩ | ⟨_, _, _, _, h1, -, -⟩ | ⟨_, _, _, _, h1, -, -⟩ | ⟨_, _, _, r, l', h1, h2, h3⟩
  · simp at h2
  · simp at h1
  · simp at h1
  · simp only [Prog.same.injEq] at h1
    obtain ⟨rfl, rfl, rfl⟩ := h1
    exact ⟨r, l', h2, h3⟩

lemma path_merge {i j : ℕ} {k : Prog} {l : List Ev} (h : Path (.merge i j k) l .ret) :
    ∃ l', l = .merge i j :: l' ∧ Path k l' .ret := by
  rcases h.head with ⟨-, h2⟩ | ⟨_, _, _, l', h1, h2, h3⟩ | ⟨_, _, _, _, h1, -, -⟩ | ⟨_, _, _, _, _, h1, -, -⟩
  · simp at h2
  · simp only [Prog.merge.injEq] at h1
    obtain ⟨rfl, rfl, rfl⟩ := h1
    exact ⟨l', h2, h3⟩
  · simp at h1
  · simp at h1

lemma path_into {i j : ℕ} {k : Prog} {l : List Ev} (h : Path (.into i j k) l .ret) :
    ∃ l', l = .into i j :: l' ∧ Path k l' .ret := by
  rcases h.head with ⟨-, h2⟩ | ⟨_, _, _, _, h1, -, -⟩ | ⟨_, _, _, l', h1, h2, h3⟩ | ⟨_, _, _, _, _, h1, -, -⟩
  · simp at h2
  · simp at h1
  · simp only [Prog.into.injEq] at h1
    obtain ⟨rfl, rfl, rfl⟩ := h1
    exact ⟨l', h2, h3⟩
  · simp at h1

section Paths

variable {C : ℕ → Prop} {L : ℕ → ℕ}

/-- The effect of the loop over a dense cell. -/
lemma denseLoop_path {near : ℕ → Bool} {i : ℕ} {k : Prog} (js : List ℕ) {l : List Ev}
    (hF : ∀ e ∈ l, Fact C L e) (h : Path (denseLoop near i js k) l .ret) :
    ∃ l', (∀ e ∈ l', Fact C L e) ∧ Path k l' .ret ∧
      ((∃ j ∈ js, root L i = root L j) ∨ ∀ j ∈ js, near j = false) := by
  induction js generalizing l with
  | nil => exact ⟨l, hF, h, Or.inr (by simp)⟩
  | cons j js ih =>
    unfold denseLoop at h
    obtain ⟨r, l', rfl, h'⟩ := path_same h
    have hF' : ∀ e ∈ l', Fact C L e := fun e he => hF e (List.mem_cons_of_mem _ he)
    cases r
    · simp only [Bool.false_eq_true, if_false] at h'
      cases hn : near j
      · rw [hn] at h'
        simp only [Bool.false_eq_true, if_false] at h'
        obtain ⟨l'', a, b, c⟩ := ih hF' h'
        refine ⟨l'', a, b, ?_⟩
        rcases c with ⟨j', hj', e⟩ | c
        · exact Or.inl ⟨j', List.mem_cons_of_mem _ hj', e⟩
        · refine Or.inr ?_
          intro j' hj'
          rcases List.mem_cons.mp hj' with rfl | hj'
          · exact hn
          · exact c j' hj'
      · rw [hn] at h'
        simp only [if_true] at h'
        obtain ⟨l'', rfl, h''⟩ := path_merge h'
        exact ⟨l'', fun e he => hF' e (List.mem_cons_of_mem _ he), h'',
          Or.inl ⟨j, List.mem_cons_self, hF' _ List.mem_cons_self⟩⟩
    · simp only [if_true] at h'
      exact ⟨l', hF', h', Or.inl ⟨j, List.mem_cons_self, hF _ List.mem_cons_self rfl⟩⟩

/-- What one call of the callback achieves. -/
def Done (D : DIn V w) (l : Lay) (core : ℕ → Bool) (star : Bool) (C : ℕ → Prop) (L : ℕ → ℕ) (i p : ℕ) : Prop :=
  (p < l.m → (root L i = root L (l.perm (l.off p)) ∨ ∃ j ∈ l.block p, root L i = root L j) ∨
    ∀ j ∈ l.block p, D.near i j = false) ∧
  (¬ p < l.m → (core (l.sparse p) = true → i > l.sparse p → root L i = root L (l.sparse p)) ∧
    (star = false → core (l.sparse p) = false → C (L (l.sparse p))))

lemma callback_path {D : DIn V w} {l : Lay} {core : ℕ → Bool} {star : Bool} {i p : ℕ} {k : Prog}
    {ev : List Ev} (hF : ∀ e ∈ ev, Fact C L e) (h : Path (D.callback l core star i p k) ev .ret) :
    ∃ ev', (∀ e ∈ ev', Fact C L e) ∧ Path k ev' .ret ∧ Done D l core star C L i p := by
  unfold DIn.callback at h
  unfold Done
  split_ifs at h with hp
  · obtain ⟨r, l', rfl, h'⟩ := path_same h
    have hF' : ∀ e ∈ l', Fact C L e := fun e he => hF e (List.mem_cons_of_mem _ he)
    cases r
    · simp only [Bool.false_eq_true, if_false] at h'
      obtain ⟨l'', a, b, c⟩ := denseLoop_path _ hF' h'
      exact ⟨l'', a, b, fun _ => c.imp Or.inr id, fun hh => absurd hp hh⟩
    · simp only [if_true] at h'
      exact ⟨l', hF', h', fun _ => Or.inl (Or.inl (hF _ List.mem_cons_self rfl)), fun hh => absurd hp hh⟩
  · dsimp only at h
    split_ifs at h with h1 h2
    · obtain ⟨l', rfl, h'⟩ := path_merge h
      rw [Bool.and_eq_true] at h1
      refine ⟨l', fun e he => hF e (List.mem_cons_of_mem _ he), h', fun hh => absurd hh hp, fun _ => ⟨?_, ?_⟩⟩
      · intro _ _; exact hF _ List.mem_cons_self
      · intro _ h; rw [h1.1] at h; simp at h
    · obtain ⟨l', rfl, h'⟩ := path_into h
      rw [Bool.and_eq_true] at h2
      refine ⟨l', fun e he => hF e (List.mem_cons_of_mem _ he), h', fun hh => absurd hh hp, fun _ => ⟨?_, ?_⟩⟩
      · intro hc _; rw [hc] at h2; simp at h2
      · intro _ _; exact hF _ List.mem_cons_self
    · refine ⟨ev, hF, h, fun hh => absurd hh hp, fun _ => ⟨?_, ?_⟩⟩
      · intro hc hi; exact absurd (by simp [hc, hi]) h1
      · intro hs hc; exact absurd (by simp [hs, hc]) h2

lemma callbacks_path {D : DIn V w} {l : Lay} {core : ℕ → Bool} {star : Bool} {i : ℕ} {k : Prog}
    (ps : List ℕ) {ev : List Ev} (hF : ∀ e ∈ ev, Fact C L e)
    (h : Path (D.callbacks l core star i k ps) ev .ret) :
    ∃ ev', (∀ e ∈ ev', Fact C L e) ∧ Path k ev' .ret ∧ ∀ p ∈ ps, Done D l core star C L i p := by
  induction ps generalizing ev with
  | nil => exact ⟨ev, hF, h, by simp⟩
  | cons p ps ih =>
    unfold DIn.callbacks at h
    obtain ⟨ev', a, b, c⟩ := callback_path hF h
    obtain ⟨ev'', a', b', c'⟩ := ih a b
    refine ⟨ev'', a', b', ?_⟩
    intro q hq
    rcases List.mem_cons.mp hq with rfl | hq
    · exact c
    · exact c' q hq

lemma queries_path {D : DIn V w} {mem : Mem ℕ V} {l : Lay} {core : ℕ → Bool} {star : Bool} {fuel : ℕ}
    (is : List ℕ) (hok : ∀ i ∈ is, ∃ calls, D.main mem l core fuel i = .done calls) {ev : List Ev}
    (hF : ∀ e ∈ ev, Fact C L e) (h : Path (D.queries mem l core star fuel is) ev .ret) :
    ∀ i ∈ is, core i = true → ∀ calls, D.main mem l core fuel i = .done calls →
      ∀ p ∈ calls, Done D l core star C L i p := by
  induction is generalizing ev with
  | nil => simp
  | cons a is ih =>
    obtain ⟨calls, hc⟩ := hok a List.mem_cons_self
    have hok' : ∀ i ∈ is, ∃ calls, D.main mem l core fuel i = .done calls :=
      fun i hi => hok i (List.mem_cons_of_mem _ hi)
    unfold DIn.queries at h
    rw [hc] at h
    dsimp only at h
    split_ifs at h with hca
    · obtain ⟨ev', a', b', c'⟩ := callbacks_path calls hF h
      have := ih hok' a' b'
      intro i hi hci calls' hc'
      rcases List.mem_cons.mp hi with rfl | hi
      · rw [hc] at hc'
        simp only [Res.done.injEq] at hc'
        rw [← hc']; exact c'
      · exact this i hi hci calls' hc'
    · have := ih hok' hF h
      intro i hi hci
      rcases List.mem_cons.mp hi with rfl | hi
      · exact absurd hci hca
      · exact this i hi hci

end Paths

section Safe

variable {n : ℕ} {C : ℕ → Prop} {R B : ℕ → ℕ → Prop}

lemma safe_denseLoop {near : ℕ → Bool} {i : ℕ} {k : Prog} (js : List ℕ) (hi : C i) (hjs : ∀ j ∈ js, C j)
    (hR : ∀ j ∈ js, near j = true → R i j) (hk : Safe n C R B k) : Safe n C R B (denseLoop near i js k) := by
  induction js with
  | nil => exact hk
  | cons j js ih =>
    have ih := ih (fun j hj => hjs j (List.mem_cons_of_mem _ hj)) (fun j hj => hR j (List.mem_cons_of_mem _ hj))
    unfold denseLoop
    refine ⟨hi, hjs j List.mem_cons_self, ?_, ?_⟩
    · simp only [if_true]; exact hk
    · simp only [Bool.false_eq_true, if_false]
      cases hn : near j
      · simp only [Bool.false_eq_true, if_false]; exact ih
      · simp only [if_true]
        exact ⟨hi, hjs j List.mem_cons_self, hR j List.mem_cons_self hn, hk⟩

end Safe

section Main

variable [SemilatticeSup V] [OrderBot V]
variable {D : DIn V w} {l : Lay} (hl : LayOk D l) (hD : D.Valid)
  (sched : List ℕ) (hB : (D.tree l).Finished sched) (fuel : ℕ) (hfuel : 2 * D.n ≤ fuel)
include hl hD hB hfuel

/-- The main query of a point. -/
lemma main_spec (core : ℕ → Bool) (i : ℕ) : ∃ calls, D.main ((D.tree l).build sched) l core fuel i = .done calls ∧
    (∀ p ∈ calls, p < l.prims D.n ∧ D.hit l i p = true) ∧
    (core i = true → ∀ p < l.prims D.n, D.hit l i p = true → p ∈ calls) := by
  obtain ⟨order, hp, H⟩ := spatial_query (D.tree l) (tree_valid hl hD) (D.hit l i) (D.pv i) (hit_mono hl hD i)
  obtain ⟨calls, h1, h2, -, h4⟩ := H sched hB (fun _ => !core i) fuel
    (by have := prims_le hl; change 2 * l.prims D.n ≤ fuel; omega)
  have hst : (D.tree l).stored = List.range (l.prims D.n) := by simp [Input.stored, DIn.tree]
  rw [hst] at hp
  refine ⟨calls, h1, ?_, ?_⟩
  · intro p hpc
    have := List.mem_filter.mp (hp.subset (h2.subset hpc))
    exact ⟨List.mem_range.mp this.1, this.2⟩
  · intro hc p hpn hh
    rcases h4 with h4 | h4
    · rw [h4]
      exact hp.symm.subset (List.mem_filter.mpr ⟨List.mem_range.mpr hpn, hh⟩)
    · rw [hc] at h4; simp at h4

lemma queries_ok : D.queriesOk ((D.tree l).build sched) l fuel = true := by
  unfold DIn.queriesOk
  rw [List.all_eq_true]
  intro i hi
  obtain ⟨calls, h1, -⟩ := main_spec hl hD sched hB fuel hfuel (D.isCore ((D.tree l).build sched) l fuel) i
  obtain ⟨calls', h2, -⟩ := count_spec hl hD sched hB fuel hfuel (List.mem_range.mp hi)
  rw [h1, h2]
  simp

/-- The first kernel merges inside dense cells. -/
lemma prog1_safe {core : ℕ → Bool} (hcore : ∀ i, l.isDense i = true → core i = true) (B : ℕ → ℕ → Prop) (c : ℕ) :
    Safe D.n (CP D.n core) (Relation.EqvGen (Link D.n core D.near)) B (D.prog1 l c) := by
  have hmem : ∀ p ∈ ((D.chunks1 l.nd).getD c []).filterMap (fun i =>
      if l.scell i = l.scell (i - 1) then some (l.perm i, l.perm (i - 1)) else none),
      Link D.n core D.near p.1 p.2 := by
    intro p hp
    obtain ⟨i, hi, e⟩ := List.mem_filterMap.mp hp
    have hir : 1 ≤ i ∧ i < l.nd := by
      by_cases hc : c < (D.chunks1 l.nd).length
      · rw [List.getD_eq_getElem _ _ hc] at hi
        have : i ∈ (D.chunks1 l.nd).flatten := List.mem_flatten.mpr ⟨_, List.getElem_mem hc, hi⟩
        have := (hD.chunks1 l.nd).subset this
        rw [List.mem_range'] at this
        obtain ⟨x, hx, e⟩ := this
        omega
      · rw [List.getD_eq_default _ _ (by omega)] at hi
        simp at hi
    split_ifs at e with hs
    simp only [Option.some.injEq] at e
    subst e
    have hnd := hl.nd
    have hd : ∀ x < l.nd, CP D.n core (l.perm x) := by
      intro x hx
      refine ⟨hl.perm.lt (by omega), hcore _ ?_⟩
      unfold Lay.isDense
      rw [List.any_eq_true]
      exact ⟨x, List.mem_range.mpr hx, by simp⟩
    refine ⟨hd _ hir.2, hd _ (by omega), ?_⟩
    rw [hl.scell _ (by omega), hl.scell _ (by omega)] at hs
    exact hD.cellNear _ (hl.perm.lt (by omega)) _ (hl.perm.lt (by omega)) hs
  exact safe_ofMerges (fun p hp => ⟨(hmem p hp).1, (hmem p hp).2.1⟩) (fun p hp => .rel _ _ (hmem p hp))

lemma prog2_safe (c : ℕ) :
    Safe D.n (CP D.n (D.isCore ((D.tree l).build sched) l fuel))
      (Relation.EqvGen (Link D.n (D.isCore ((D.tree l).build sched) l fuel) D.near))
      (fun b j => (D.star && !decide (D.minPts = 2)) = false ∧ D.near b j = true)
      (D.prog2 ((D.tree l).build sched) l fuel c) := by
  have hdc : ∀ i, l.isDense i = true → D.isCore ((D.tree l).build sched) l fuel i = true :=
    fun i hi => isCore_dense sched fuel hi
  have hmain := main_spec hl hD sched hB fuel hfuel (D.isCore ((D.tree l).build sched) l fuel)
  unfold DIn.prog2
  generalize D.isCore ((D.tree l).build sched) l fuel = core at *
  generalize (D.star && !decide (D.minPts = 2)) = star
  have hch : ∀ i ∈ D.chunks2.getD c [], i < D.n := by
    intro i hi
    by_cases hc : c < D.chunks2.length
    · rw [List.getD_eq_getElem _ _ hc] at hi
      have : i ∈ D.chunks2.flatten := List.mem_flatten.mpr ⟨_, List.getElem_mem hc, hi⟩
      exact List.mem_range.mp (hD.chunks2.subset this)
    · rw [List.getD_eq_default _ _ (by omega)] at hi
      simp at hi
  generalize D.chunks2.getD c [] = is at *
  have hblk : ∀ p < l.m, ∀ j ∈ l.block p, CP D.n core j := fun p hp j hj =>
    ⟨(block_mem hl hp hj).1, hdc j (block_dense hl hp hj)⟩
  induction is with
  | nil => exact trivial
  | cons i is ih =>
    have ih := ih (fun j hj => hch j (List.mem_cons_of_mem _ hj))
    have hin := hch i List.mem_cons_self
    obtain ⟨calls, h1, h2, -⟩ := hmain i
    unfold DIn.queries
    rw [h1]
    dsimp only
    split_ifs with hc
    swap
    · exact ih
    have hCi : CP D.n core i := ⟨hin, hc⟩
    clear h1
    induction calls with
    | nil => exact ih
    | cons p ps ihp =>
      have ihp := ihp (fun q hq => h2 q (List.mem_cons_of_mem _ hq))
      obtain ⟨hp, hh⟩ := h2 p List.mem_cons_self
      unfold DIn.callbacks DIn.callback
      split_ifs with hm
      · refine ⟨hCi, hblk p hm _ (start_mem hl hm), ?_, ?_⟩
        · simp only [if_true]; exact ihp
        · simp only [Bool.false_eq_true, if_false]
          exact safe_denseLoop _ hCi (hblk p hm)
            (fun j hj hn => .rel _ _ ⟨hCi, hblk p hm j hj, hn⟩) ihp
      · have hsp := sparse_lt hl hp (by omega)
        unfold DIn.hit at hh
        rw [if_neg hm] at hh
        dsimp only
        split_ifs with c1 c2
        · rw [Bool.and_eq_true] at c1
          exact ⟨hCi, ⟨hsp, c1.1⟩, .rel _ _ ⟨hCi, ⟨hsp, c1.1⟩, hh⟩, ihp⟩
        · rw [Bool.and_eq_true] at c2
          refine ⟨hsp, fun hC => ?_, hCi, ⟨by simpa using c2.1, by rw [hD.symm]; exact hh⟩, ihp⟩
          rw [hC.2] at c2; simp at c2
        · exact ihp

/-- The labels after both kernels, from what is known of them. -/
lemma stage_of_facts {L1 L : ℕ → ℕ}
    (hF1 : ∀ c < (D.chunks1 l.nd).length, ∃ ev, Path (D.prog1 l c) ev .ret ∧
      ∀ e ∈ ev, Fact (CP D.n (D.isCore ((D.tree l).build sched) l fuel)) L1 e)
    (hgrow : ∀ x y, CP D.n (D.isCore ((D.tree l).build sched) l fuel) x →
      CP D.n (D.isCore ((D.tree l).build sched) l fuel) y → root L1 x = root L1 y → root L x = root L y)
    (hI : LInv (CP D.n (D.isCore ((D.tree l).build sched) l fuel))
      (Relation.EqvGen (Link D.n (D.isCore ((D.tree l).build sched) l fuel) D.near))
      (fun b j => (D.star && !decide (D.minPts = 2)) = false ∧ D.near b j = true) L)
    (hF : ∀ c < D.chunks2.length, ∃ ev, Path (D.prog2 ((D.tree l).build sched) l fuel c) ev .ret ∧
      ∀ e ∈ ev, Fact (CP D.n (D.isCore ((D.tree l).build sched) l fuel)) L e) :
    Stage D.n (D.isCore ((D.tree l).build sched) l fuel) D.near (D.star && !decide (D.minPts = 2)) L := by
  have hdc : ∀ i, l.isDense i = true → D.isCore ((D.tree l).build sched) l fuel i = true :=
    fun i hi => isCore_dense sched fuel hi
  have hmain := main_spec hl hD sched hB fuel hfuel (D.isCore ((D.tree l).build sched) l fuel)
  have hprog : ∀ c, D.prog2 ((D.tree l).build sched) l fuel c = D.queries ((D.tree l).build sched) l
      (D.isCore ((D.tree l).build sched) l fuel) (D.star && !decide (D.minPts = 2)) fuel (D.chunks2.getD c []) :=
    fun _ => rfl
  generalize D.isCore ((D.tree l).build sched) l fuel = core at *
  generalize (D.star && !decide (D.minPts = 2)) = star at *
  have hnd := hl.nd
  have hdense : ∀ x < l.nd, CP D.n core (l.perm x) := by
    intro x hx
    refine ⟨hl.perm.lt (by omega), hdc _ ?_⟩
    unfold Lay.isDense
    rw [List.any_eq_true]
    exact ⟨x, List.mem_range.mpr hx, by simp⟩
  -- consecutive points of a dense cell
  have hcons : ∀ i, 1 ≤ i → i < l.nd → l.scell i = l.scell (i - 1) →
      root L (l.perm i) = root L (l.perm (i - 1)) := by
    intro i hi1 hi2 hs
    refine hgrow _ _ (hdense _ hi2) (hdense _ (by omega)) ?_
    have : i ∈ (D.chunks1 l.nd).flatten := (hD.chunks1 l.nd).symm.subset (by
      rw [List.mem_range']
      exact ⟨i - 1, by omega, by omega⟩)
    obtain ⟨ch, hch, hich⟩ := List.mem_flatten.mp this
    obtain ⟨c, hc, rfl⟩ := List.getElem_of_mem hch
    obtain ⟨ev, hp, hf⟩ := hF1 c hc
    have := path_ofMerges hp (l.perm i, l.perm (i - 1)) (List.mem_filterMap.mpr
      ⟨i, by rw [List.getD_eq_getElem _ _ hc]; exact hich, by rw [if_pos hs]⟩)
    exact hf _ this
  -- points of one block
  have hblock : ∀ k < l.m, ∀ a ∈ l.block k, root L a = root L (l.perm (l.off k)) := by
    intro k hk a ha
    obtain ⟨-, -, x, hx, rfl, h3, h4⟩ := block_mem hl hk ha
    obtain ⟨o1, o2, o3⟩ := (off_facts hl).2.2 k hk
    clear ha
    induction x, h3 using Nat.le_induction with
    | base => rfl
    | succ x hx' ih =>
      have e := hcons (x + 1) (by omega) hx (by
        rw [Nat.add_sub_cancel, o3 (x + 1) (by omega) h4, o3 x hx' (by omega)])
      rw [Nat.add_sub_cancel] at e
      rw [e]
      exact ih (by omega) (by omega)
  -- the calls of the queries
  have hdone : ∀ i < D.n, core i = true → ∀ p < l.prims D.n, D.hit l i p = true →
      Done D l core star (CP D.n core) L i p := by
    intro i hi hc p hp hh
    have := hD.chunks2.symm.subset (List.mem_range.mpr hi)
    obtain ⟨ch, hch, hich⟩ := List.mem_flatten.mp this
    obtain ⟨c, hcl, rfl⟩ := List.getElem_of_mem hch
    obtain ⟨ev, hpath, hf⟩ := hF c hcl
    rw [hprog] at hpath
    obtain ⟨calls, m1, m2, m3⟩ := hmain i
    refine queries_path _ ?_ hf hpath i (by rw [List.getD_eq_getElem _ _ hcl]; exact hich) hc calls m1 p (m3 hc p hp hh)
    intro j _
    obtain ⟨calls, h, -⟩ := hmain j
    exact ⟨calls, h⟩
  have hprims : l.m ≤ l.prims D.n := by unfold Lay.prims; omega
  -- a core point and a point of a dense block
  have hdb : ∀ i < D.n, core i = true → ∀ k < l.m, ∀ j ∈ l.block k, D.near i j = true →
      root L i = root L j := by
    intro i hi hc k hk j hj hn
    rcases (hdone i hi hc k (by omega) (hit_of_near hl hD hi hk hj hn)).1 hk with (h | ⟨j', hj', h⟩) | h
    · rw [h, hblock k hk j hj]
    · rw [h, hblock k hk j hj, hblock k hk j' hj']
    · rw [h j hj] at hn; simp at hn
  refine ⟨hI, ?_, ?_⟩
  · rintro i j ⟨⟨hi, ci⟩, ⟨hj, cj⟩, hn⟩
    have hn' : D.near j i = true := by rw [hD.symm]; exact hn
    rcases point_cases hl hj with ⟨k, hk, hjk⟩ | ⟨k, hk1, hk2, hjk⟩
    · exact hdb i hi ci k hk j hjk hn
    · rcases point_cases hl hi with ⟨k', hk', hik⟩ | ⟨k', hk1', hk2', hik⟩
      · exact (hdb j hj cj k' hk' i hik hn').symm
      · rcases Nat.lt_trichotomy i j with h | h | h
        · have := ((hdone j hj cj k' hk2' (by unfold DIn.hit; rw [if_neg (by omega), hik]; exact hn')).2
            (by omega)).1
          rw [hik] at this
          exact (this ci h).symm
        · rw [h]
        · have := ((hdone i hi ci k hk2 (by unfold DIn.hit; rw [if_neg (by omega), hjk]; exact hn)).2
            (by omega)).1
          rw [hjk] at this
          exact this cj h
  · intro hs b j hb cb ⟨hj, cj⟩ hn
    rcases point_cases hl hb with ⟨k, hk, hbk⟩ | ⟨k, hk1, hk2, hbk⟩
    · rw [hdc b (block_dense hl hk hbk)] at cb; simp at cb
    · have := ((hdone j hj cj k hk2 (by
        unfold DIn.hit; rw [if_neg (by omega), hbk, hD.symm]; exact hn)).2 (by omega)).2 hs
      rw [hbk] at this
      exact this cb

/-- The labels after both kernels. -/
lemma stage_of_complete (S1 S2 : List ℕ)
    (h1 : Complete ⟨D.n, (D.chunks1 l.nd).length, D.serial⟩
      (UF.run ⟨D.n, (D.chunks1 l.nd).length, D.serial⟩ (D.prog1 l) id S1))
    (h2 : Complete ⟨D.n, D.chunks2.length, D.serial⟩
      (UF.run ⟨D.n, D.chunks2.length, D.serial⟩ (D.prog2 ((D.tree l).build sched) l fuel)
        (UF.run ⟨D.n, (D.chunks1 l.nd).length, D.serial⟩ (D.prog1 l) id S1).L S2)) :
    Stage D.n (D.isCore ((D.tree l).build sched) l fuel) D.near (D.star && !decide (D.minPts = 2))
      (UF.run ⟨D.n, D.chunks2.length, D.serial⟩ (D.prog2 ((D.tree l).build sched) l fuel)
        (UF.run ⟨D.n, (D.chunks1 l.nd).length, D.serial⟩ (D.prog1 l) id S1).L S2).L := by
  have hdc : ∀ i, l.isDense i = true → D.isCore ((D.tree l).build sched) l fuel i = true :=
    fun i hi => isCore_dense sched fuel hi
  obtain ⟨hI1, hF1⟩ := complete_spec (P := ⟨D.n, (D.chunks1 l.nd).length, D.serial⟩)
    (B := fun b j => (D.star && !decide (D.minPts = 2)) = false ∧ D.near b j = true)
    (spec_cp D.n (D.isCore ((D.tree l).build sched) l fuel) _) (hD.serial1 l.nd)
    (linv_init _ _ _ _) (fun t _ => prog1_safe hl hD sched hB fuel hfuel hdc _ t) S1 h1
  have hgrow := run_grow (P := ⟨D.n, D.chunks2.length, D.serial⟩) (spec_cp D.n _ _) hD.serial2 hI1
    (fun t _ => prog2_safe hl hD sched hB fuel hfuel t) S2
  obtain ⟨hI, hF⟩ := complete_spec (P := ⟨D.n, D.chunks2.length, D.serial⟩)
    (spec_cp D.n _ _) hD.serial2 hI1 (fun t _ => prog2_safe hl hD sched hB fuel hfuel t) S2 h2
  exact stage_of_facts hl hD sched hB fuel hfuel hF1 hgrow hI hF

end Main

end ArborX.DenseBox
