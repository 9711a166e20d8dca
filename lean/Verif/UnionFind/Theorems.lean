import Verif.UnionFind.Termination

/-!
# Property theorems: concurrent union-find (C18)
-/

namespace ArborX.UF

variable {C : ℕ → Prop} {R B : ℕ → ℕ → Prop}

/-- No access is out of bounds, under any schedule. -/
theorem no_fault {P : Params} {prog : ℕ → Prog} (S : Spec P.n C R)
    (hser : P.serial = true → P.nt ≤ 1) {L0 : ℕ → ℕ} (hL : LInv C R B L0)
    (hsafe : ∀ t < P.nt, Safe P.n C R B (prog t)) (sched : List ℕ) (t : ℕ) (ht : t < P.nt) :
    (run P prog L0 sched).thr t ≠ .fault := by
  intro hf
  obtain ⟨l, hT, -⟩ := (Inv.run S hser hL hsafe sched).threads t ht
  rw [hf] at hT
  exact hT

/-- Every thread finishes after a bounded number of its own steps, whatever the others do. -/
theorem wait_free {P : Params} {prog : ℕ → Prog} (S : Spec P.n C R)
    (hser : P.serial = true → P.nt ≤ 1) {L0 : ℕ → ℕ} (hL : LInv C R B L0)
    (hsafe : ∀ t < P.nt, Safe P.n C R B (prog t)) (sched : List ℕ) (t : ℕ) (ht : t < P.nt)
    (hn : cost P.n (prog t) ≤ sched.count t) : (run P prog L0 sched).thr t = .idle .ret :=
  wait_free_aux S hser (Inv.run S hser hL hsafe []) t ht sched (Nat.lt_succ_of_le hn)

/-- What is known when all threads have finished: all completed operations hold, and the
labels relate only what they should. -/
theorem complete_spec {P : Params} {prog : ℕ → Prog} (S : Spec P.n C R)
    (hser : P.serial = true → P.nt ≤ 1) {L0 : ℕ → ℕ} (hL : LInv C R B L0)
    (hsafe : ∀ t < P.nt, Safe P.n C R B (prog t)) (sched : List ℕ)
    (hc : Complete P (run P prog L0 sched)) :
    LInv C R B (run P prog L0 sched).L ∧
    ∀ t < P.nt, ∃ l, Path (prog t) l .ret ∧ ∀ e ∈ l, Fact C (run P prog L0 sched).L e := by
  have hI := Inv.run S hser hL hsafe sched
  refine ⟨hI.labels, fun t ht => ?_⟩
  obtain ⟨l, hT, -, hF⟩ := hI.threads t ht
  rw [hc t ht] at hT
  exact ⟨l, hT.1, hF⟩

/-- Elements with the same representative before a run have the same one after it. -/
theorem run_grow {P : Params} {prog : ℕ → Prog} (S : Spec P.n C R)
    (hser : P.serial = true → P.nt ≤ 1) {L0 : ℕ → ℕ} (hL : LInv C R B L0)
    (hsafe : ∀ t < P.nt, Safe P.n C R B (prog t)) (sched : List ℕ) (x y : ℕ) (hx : C x) (hy : C y)
    (h : root L0 x = root L0 y) :
    root (run P prog L0 sched).L x = root (run P prog L0 sched).L y := by
  have h0 : Inv P C R B prog ⟨L0, fun t => .idle (prog t)⟩ :=
    ⟨hL, fun t ht => ⟨[], ⟨Path.nil, hsafe t ht⟩, by simp, by simp⟩⟩
  unfold UF.run
  have key : ∀ (sched : List ℕ) (s : State), Inv P C R B prog s → root s.L x = root s.L y →
      root (sched.foldl (step P) s).L x = root (sched.foldl (step P) s).L y := by
    intro sched
    induction sched with
    | nil => intro s _ h; exact h
    | cons t ts ih =>
      intro s hI h
      have := hI.step S hser t
      exact ih _ this.1 (this.2.eqr x y hx hy h)
  exact key sched _ h0 h

lemma path_ofMerges {ps : List (ℕ × ℕ)} {l : List Ev} (h : Path (ofMerges ps) l .ret) :
    ∀ p ∈ ps, Ev.merge p.1 p.2 ∈ l := by
  induction ps generalizing l with
  | nil => simp
  | cons p ps ih =>
    rcases h.head with ⟨-, h2⟩ | ⟨i, j, k, l', h1, h2, h3⟩ | ⟨i, j, k, l', h1, -, -⟩ |
      ⟨i, j, k, r, l', h1, -, -⟩
    · exact absurd h2 (by simp [ofMerges])
    · simp only [ofMerges, Prog.merge.injEq] at h1
      obtain ⟨rfl, rfl, rfl⟩ := h1
      intro q hq
      rcases List.mem_cons.mp hq with rfl | hq
      · rw [h2]; exact List.mem_cons_self
      · rw [h2]; exact List.mem_cons_of_mem _ (ih h3 q hq)
    · exact absurd h1 (by simp [ofMerges])
    · exact absurd h1 (by simp [ofMerges])

lemma safe_ofMerges {n : ℕ} {ps : List (ℕ × ℕ)} (hC : ∀ p ∈ ps, C p.1 ∧ C p.2)
    (hR : ∀ p ∈ ps, R p.1 p.2) : Safe n C R B (ofMerges ps) := by
  induction ps with
  | nil => trivial
  | cons p ps ih =>
    exact ⟨(hC p List.mem_cons_self).1, (hC p List.mem_cons_self).2, hR p List.mem_cons_self,
      ih (fun q hq => hC q (List.mem_cons_of_mem _ hq)) (fun q hq => hR q (List.mem_cons_of_mem _ hq))⟩

/-- The pairs merged by the threads. -/
def Merged (nt : ℕ) (pairs : ℕ → List (ℕ × ℕ)) (i j : ℕ) : Prop := ∃ t < nt, (i, j) ∈ pairs t

/-- Connected by the merged pairs. -/
def Connected (nt : ℕ) (pairs : ℕ → List (ℕ × ℕ)) : ℕ → ℕ → Prop :=
  Relation.EqvGen (Merged nt pairs)

/-- What the invariant and the completed merges say about the labels. -/
lemma components_of_facts {n nt : ℕ} {pairs : ℕ → List (ℕ × ℕ)}
    (hlt : ∀ t < nt, ∀ p ∈ pairs t, p.1 < n ∧ p.2 < n) {L : ℕ → ℕ}
    (hI : LInv (· < n) (Connected nt pairs) (fun _ _ => False) L)
    (hF : ∀ t < nt, ∃ l, Path (ofMerges (pairs t)) l .ret ∧ ∀ e ∈ l, Fact (· < n) L e) :
    (∀ x < n, ∀ y < n, root L x = root L y ↔ Connected nt pairs x y) ∧
    (∀ x < n, L (root L x) = root L x ∧ Connected nt pairs x (root L x) ∧
      ∀ y < n, Connected nt pairs x y → root L x ≤ y) := by
  have hE : Equivalence (Connected nt pairs) := Relation.EqvGen.is_equivalence _
  have hconn : ∀ x y, Connected nt pairs x y → x = y ∨ (x < n ∧ y < n ∧ root L x = root L y) := by
    intro x y h
    induction h with
    | rel a b h =>
      obtain ⟨t, ht, hp⟩ := h
      obtain ⟨l, hl, hf⟩ := hF t ht
      have := hf _ (path_ofMerges hl _ hp)
      have hb := hlt t ht _ hp
      exact Or.inr ⟨hb.1, hb.2, this⟩
    | refl a => exact Or.inl rfl
    | symm a b _ ih =>
      rcases ih with rfl | ⟨h1, h2, h3⟩
      · exact Or.inl rfl
      · exact Or.inr ⟨h2, h1, h3.symm⟩
    | trans a b c _ _ ih1 ih2 =>
      rcases ih1 with rfl | ⟨h1, h2, h3⟩
      · exact ih2
      · rcases ih2 with rfl | ⟨h4, h5, h6⟩
        · exact Or.inr ⟨h1, h2, h3⟩
        · exact Or.inr ⟨h1, h5, h3.trans h6⟩
  have hroot : ∀ x < n, Connected nt pairs x (root L x) := fun x hx =>
    root_rel hI.dec hE hI.rel hx
  have hiff : ∀ x < n, ∀ y < n, root L x = root L y ↔ Connected nt pairs x y := by
    intro x hx y hy
    constructor
    · intro h
      have h2 := hroot y hy
      rw [← h] at h2
      exact hE.trans (hroot x hx) (hE.symm h2)
    · intro h
      rcases hconn x y h with rfl | ⟨-, -, h⟩
      · rfl
      · exact h
  refine ⟨hiff, fun x hx => ⟨root_fixed hI.dec hx, hroot x hx, fun y hy h => ?_⟩⟩
  rw [(hiff x hx y hy).mpr h]
  exact root_le hI.dec hy

section Main

variable (P : Params) (pairs : ℕ → List (ℕ × ℕ))
  (hlt : ∀ t < P.nt, ∀ p ∈ pairs t, p.1 < P.n ∧ p.2 < P.n)
  (hser : P.serial = true → P.nt ≤ 1)

include hlt hser

lemma merges_setup : Spec P.n (· < P.n) (Connected P.nt pairs) ∧
    LInv (· < P.n) (Connected P.nt pairs) (fun _ _ => False) id ∧
    ∀ t < P.nt, Safe P.n (· < P.n) (Connected P.nt pairs) (fun _ _ => False) (ofMerges (pairs t)) := by
  refine ⟨⟨Relation.EqvGen.is_equivalence _, fun _ h => h⟩, ⟨fun x hx => ⟨hx, le_rfl⟩,
    fun x _ => Relation.EqvGen.refl x, fun b _ => Or.inl rfl⟩, fun t ht => safe_ofMerges ?_ ?_⟩
  · intro p hp; exact hlt t ht p hp
  · intro p hp; exact Relation.EqvGen.rel _ _ ⟨t, ht, hp⟩

/-- **C18.** Whatever the number of threads, the pairs they merge and the interleaving of their
reads, compare-and-swaps and path-halving writes: when all threads have finished, two elements
have the same representative exactly if they are connected by the merged pairs, and the
representative is the smallest element of the component. -/
theorem union_find_components (sched : List ℕ)
    (hc : Complete P (run P (fun t => ofMerges (pairs t)) id sched)) :
    let L := (run P (fun t => ofMerges (pairs t)) id sched).L
    (∀ x < P.n, ∀ y < P.n, root L x = root L y ↔ Connected P.nt pairs x y) ∧
    (∀ x < P.n, L (root L x) = root L x ∧ Connected P.nt pairs x (root L x) ∧
      ∀ y < P.n, Connected P.nt pairs x y → root L x ≤ y) := by
  obtain ⟨S, hL, hsafe⟩ := merges_setup P pairs hlt hser
  obtain ⟨hI, hF⟩ := complete_spec S hser hL hsafe sched hc
  exact components_of_facts hlt hI hF

/-- **C18.** Every merging thread finishes after boundedly many of its own steps. -/
theorem union_find_wait_free (sched : List ℕ) (t : ℕ) (ht : t < P.nt)
    (hn : cost P.n (ofMerges (pairs t)) ≤ sched.count t) :
    (run P (fun t => ofMerges (pairs t)) id sched).thr t = .idle .ret := by
  obtain ⟨S, hL, hsafe⟩ := merges_setup P pairs hlt hser
  exact wait_free S hser hL hsafe sched t ht hn

/-- **C18.** The components found do not depend on the schedule. -/
theorem union_find_schedule_independent (s1 s2 : List ℕ)
    (h1 : Complete P (run P (fun t => ofMerges (pairs t)) id s1))
    (h2 : Complete P (run P (fun t => ofMerges (pairs t)) id s2)) (x : ℕ) (hx : x < P.n) :
    root (run P (fun t => ofMerges (pairs t)) id s1).L x
      = root (run P (fun t => ofMerges (pairs t)) id s2).L x := by
  obtain ⟨S, hL, hsafe⟩ := merges_setup P pairs hlt hser
  have a := (union_find_components P pairs hlt hser s1 h1).2 x hx
  have b := (union_find_components P pairs hlt hser s2 h2).2 x hx
  have a' := root_mem (complete_spec S hser hL hsafe s1 h1).1.dec hx
  have b' := root_mem (complete_spec S hser hL hsafe s2 h2).1.dec hx
  exact le_antisymm (a.2.2 _ b' b.2.1) (b.2.2 _ a' a.2.1)

end Main

/-- Three threads merging a chain 0-2, 2-4, 4-1 among five elements, with a schedule in which
they race: all finish and 3 stays alone. -/
example : ∃ sched, Complete ⟨5, 3, false⟩
    (run ⟨5, 3, false⟩ (fun t => ofMerges ([[(4, 2)], [(2, 0)], [(1, 4)]].getD t [])) id sched) := by
  refine ⟨List.replicate 100 [0, 1, 2] |>.flatten, ?_⟩
  have hlt : ∀ t < 3, ∀ p ∈ ([[(4, 2)], [(2, 0)], [(1, 4)]] : List (List (ℕ × ℕ))).getD t [],
      p.1 < 5 ∧ p.2 < 5 := by decide
  intro t ht
  refine union_find_wait_free ⟨5, 3, false⟩ _ hlt (by simp) _ t ht ?_
  revert t
  decide +kernel

end ArborX.UF
