import Verif.Hdbscan.Theorems
import Verif.Boruvka.Finite

/-!
# Property theorems: HDBSCAN of points some of whose distances are infinite (C94)
-/

namespace ArborX.Hdbscan

open Boruvka
open Mst (DirectedEdge WeightedEdge IsMst IsCore mutualReach FiniteSteps reachable)
open BVH (Input build_size)
open Graph (Conn)

variable {V W : Type} [LinearOrder W] [BoundedOrder W] [SemilatticeSup V] [OrderBot V] {w : ℕ}

/-! ## Lemmas -/

/-- Without a spanning tree of finite weights the constructor does not return. -/
lemma hmst_unlinked (P : Points V W) (bits : W → ℕ) (I : Input ℕ V w) (hI : I.Valid) (hn : 2 ≤ I.n)
    (hbig : I.n ≤ 2 ^ 30)
    (hval : ∀ p < I.n, I.values p = p)
    (hbox : ∀ p q v, I.vol q ≤ v → P.dv p v ≤ P.dp p q)
    (hmetric : ∀ p q, P.dp p q ≤ P.weight p q)
    (hsymm : ∀ p q, P.weight p q = P.weight q p)
    (hno : ¬ FiniteSteps I.n P.weight)
    (hcap : Nearest.StackFits I P.cap)
    (schedB : List ℕ) (hf : I.Finished schedB)
    (ordP : List ℕ) (hoP : ordP.Perm (List.range (2 * I.n - 2)))
    (sc : ℕ → HSched) (hsc : ∀ it, (sc it).Valid I.n) (ro : Reorder W)
    (fuel : ℕ) (hfuel : 2 * I.n ≤ fuel) (iters : ℕ) :
    (hmst P bits I schedB ordP sc ro fuel iters = .running ∨ hmst P bits I schedB ordP sc ro fuel iters = .fault) ∧
    ((∀ it, (sc it).toSched.Fair I.n) → I.n ≤ 2 ^ iters → hmst P bits I schedB ordP sc ro fuel iters = .fault) := by
  obtain ⟨inv, hi1, hi2⟩ := exists_inverse I hI hval
  have hset : Setting P (fun i => I.values (I.perm i)) I.n := ⟨by omega, hsymm⟩
  obtain ⟨par, hpar, -⟩ := Labels.findParents_correct I hI hn schedB hf ordP hoP
  have hvalinj : ∀ i < I.n, ∀ j < I.n, I.values (I.perm i) = I.values (I.perm j) → i = j := by
    intro i hi j hj e
    rw [← (hi2 i hi).2, ← (hi2 j hj).2]; exact congrArg inv e
  obtain ⟨hinit, hnum⟩ := init_hinv (P := P) (value := fun i => I.values (I.perm i)) I.n
  unfold hmst
  rw [if_neg (by omega)]
  dsimp only
  rw [hpar]
  dsimp only
  rcases hIterate_spec I hI hn ⟨hbox, hmetric⟩ hset hbig hcap (fun i hi => (hi2 i hi).1) hvalinj schedB hf hoP hfuel hpar hsc
    iters 0 _ _ _ _ hinit (by dsimp only; rw [hnum]; exact hn) with ⟨e, hnf⟩ | ⟨-, e⟩ | ⟨s, L, off, lab, α, e, hL, h, h1⟩
  · rw [e]
    exact ⟨.inl rfl, fun a b => absurd ⟨a, by dsimp only; rw [hnum]; exact b⟩ hnf⟩
  · rw [e]
    exact ⟨.inr rfl, fun _ _ => rfl⟩
  · exact absurd ((linked_iff P I hI hval).mp (h.base.linked hset (h.base.tree (by omega) h1))) hno

omit [SemilatticeSup V] [OrderBot V] in
lemma finite_attained {d : ℕ → ℕ → W} {n k : ℕ} (hn : 1 ≤ n) (hk : 1 ≤ k) (hself : ∀ p < n, d p p < ⊤) {core : ℕ → W}
    (hc : ∀ p < n, IsCore d n (min k (reachable d n p)) p (core p)) {p q : ℕ} (hp : p < n) (hq : q < n) :
    ∃ a < n, ∃ b < n, mutualReach d core p q = d a b := by
  have hpos : ∀ p < n, 1 ≤ min k (reachable d n p) := by
    intro p hp
    have : 1 ≤ reachable d n p := List.countP_pos_iff.mpr ⟨p, List.mem_range.mpr hp, decide_eq_true (hself p hp)⟩
    omega
  obtain ⟨x, hx, ex⟩ := core_attained hn (hpos p hp) (hc p hp)
  obtain ⟨y, hy, ey⟩ := core_attained hn (hpos q hq) (hc q hq)
  unfold mutualReach
  rcases max_choice (max (core p) (core q)) (d p q) with e | e
  · rw [e]
    rcases max_choice (core p) (core q) with e | e
    · rw [e]; exact ⟨p, hp, x, hx, ex⟩
    · rw [e]; exact ⟨q, hq, y, hy, ey⟩
  · rw [e]; exact ⟨p, hp, q, hq, rfl⟩

/-- The core distances of the constructor, and the distances made from them. -/
lemma hmstK_infinite (G : Geo V W) (bits : W → ℕ) (k : ℕ) (I : Input ℕ V w) (hI : I.Valid) (hn : 2 ≤ I.n)
    (hval : ∀ p < I.n, I.values p = p) (hbox : ∀ p q v, I.vol q ≤ v → G.dv p v ≤ G.dp p q)
    (hsymm : ∀ p q, G.dp p q = G.dp q p)
    (hself : ∀ p < I.n, G.dp p p < ⊤) (hcap : Nearest.StackFits I 64)
    (schedB : List ℕ) (hf : I.Finished schedB) (fuel : ℕ) (hfuel : 2 * I.n ≤ fuel) :
    ∃ core : Option (ℕ → W),
      (∀ ordP sc ro iters, hmstK G bits k I schedB ordP sc ro fuel iters = hmst (G.points core) bits I schedB ordP sc ro fuel iters) ∧
      (k ≤ 1 → (G.points core).weight = G.dp) ∧
      (1 < k → ∃ c, (∀ p < I.n, IsCore G.dp I.n (min k (reachable G.dp I.n p)) p (c p)) ∧ (G.points core).weight = mutualReach G.dp c) ∧
      (∀ p q, G.dp p q ≤ (G.points core).weight p q) ∧
      (∀ p q, (G.points core).weight p q = (G.points core).weight q p) ∧
      (∀ p < I.n, ∀ q < I.n, G.dp p q < ⊤ → (G.points core).weight p q < ⊤) ∧
      (∀ p < I.n, ∀ q < I.n, ∃ a < I.n, ∃ b < I.n, (G.points core).weight p q = G.dp a b) := by
  by_cases hk : 1 < k
  · have hc := core_distance_infinite G I hI hn hval hbox hself hcap schedB hf fuel hfuel k (by omega)
    have hcore : ∀ p < I.n, IsCore G.dp I.n (min k (reachable G.dp I.n p)) p (coreValue G (I.build schedB) fuel k p) ∧
        coreValue G (I.build schedB) fuel k p < ⊤ := by
      intro p hp
      obtain ⟨r, e, h⟩ := hc p hp
      unfold coreValue
      rw [e]; exact h
    have hall : (List.range I.n).all (coreDone G (I.build schedB) fuel k) = true := by
      rw [List.all_eq_true]
      intro p hp
      obtain ⟨r, e, h⟩ := hc p (List.mem_range.mp hp)
      unfold coreDone
      rw [e]
    refine ⟨some (coreValue G (I.build schedB) fuel k), fun ordP sc ro iters => ?_, fun h => by omega,
      fun _ => ⟨_, fun p hp => (hcore p hp).1, rfl⟩, fun p q => le_max_right _ _,
      (mutual_reachability G _).2.1 hsymm, fun p hp q hq h => max_lt (max_lt (hcore p hp).2 (hcore q hq).2) h,
      fun p hp q hq => finite_attained (by omega) (by omega) hself (fun p hp => (hcore p hp).1) hp hq⟩
    unfold hmstK
    rw [if_pos hk, if_pos hall]
  · refine ⟨none, fun ordP sc ro iters => ?_, fun _ => rfl, fun h => absurd h hk, fun _ _ => le_rfl, hsymm, fun p _ q _ h => h,
      fun p hp q hq => ⟨p, hp, q, hq, rfl⟩⟩
    unfold hmstK
    rw [if_neg hk]

/-! ## Property theorems -/

/-- **C94 (partial).** `hdbscan` on points at any distances, for any `k` and both implementations: with the distances, or, for `k > 1`, the mutual reachability
distances made from core distances that count only the points at finite distance, it computes a dendrogram of the single-linkage clusters if the points are
connected by finite distances, and accesses memory out of bounds if they are not.

Partial: assumes that the fixed stack of 64 entries is large enough for the tree. -/
theorem hdbscan_infinite_partial (boruvka : Bool) (G : Geo V W) (bits : W → ℕ) (k : ℕ) (I : Input ℕ V w) (hI : I.Valid) (hn : 2 ≤ I.n)
    (hbig : I.n ≤ 2 ^ 30)
    (hval : ∀ p < I.n, I.values p = p) (hbox : ∀ p q v, I.vol q ≤ v → G.dv p v ≤ G.dp p q)
    (hsymm : ∀ p q, G.dp p q = G.dp q p)
    (hself : ∀ p < I.n, G.dp p p < ⊤) (hbits : BitsOk I.n G.dp bits) (hcap : Nearest.StackFits I 64)
    (schedB : List ℕ) (hf : I.Finished schedB)
    (ordP : List ℕ) (hoP : ordP.Perm (List.range (2 * I.n - 2)))
    (sc : ℕ → HSched) (hsc : ∀ it, (sc it).Valid I.n) (ro : Reorder W) (hro : ro.Valid (I.n - 1))
    (fuel : ℕ) (hfuel : 2 * I.n ≤ fuel) (iters : ℕ) :
    ∃ weight : ℕ → ℕ → W,
      (k ≤ 1 → weight = G.dp) ∧
      (1 < k → ∃ core, (∀ p < I.n, IsCore G.dp I.n (min k (reachable G.dp I.n p)) p (core p)) ∧ weight = mutualReach G.dp core) ∧
      (FiniteSteps I.n G.dp →
        hdbscan boruvka G bits k I schedB ordP sc ro fuel iters = .running ∨
        ∃ parents heights, hdbscan boruvka G bits k I schedB ordP sc ro fuel iters = .ok (parents, heights) ∧
          IsDendrogram I.n weight parents heights) ∧
      (¬ FiniteSteps I.n G.dp →
        hdbscan boruvka G bits k I schedB ordP sc ro fuel iters = .running ∨
        hdbscan boruvka G bits k I schedB ordP sc ro fuel iters = .fault) ∧
      ((∀ it, (sc it).toSched.Fair I.n) → I.n ≤ 2 ^ iters →
        hdbscan boruvka G bits k I schedB ordP sc ro fuel iters ≠ .running) := by
  unfold hdbscan
  cases boruvka with
  | true =>
    rw [if_pos rfl]
    obtain ⟨core, e, h1, h2, h3, h4, h5, h6⟩ := hmstK_infinite G bits k I hI hn hval hbox hsymm hself hcap schedB hf fuel hfuel
    rw [e]
    refine ⟨(G.points core).weight, h1, h2, ?_⟩
    by_cases hfin : FiniteSteps I.n G.dp
    · obtain ⟨a, b⟩ := hmst_linked (G.points core) bits I hI hn hbig hval hbox h3 h4 (hbits.of_attained h6) hcap schedB hf
        ordP hoP sc hsc ro hro fuel hfuel iters
      rcases a with a | ⟨a, -⟩ | ⟨o, a, -, -, hd, -⟩
      · rw [a] at b ⊢
        exact ⟨fun _ => .inl rfl, fun h => absurd hfin h, fun x y => absurd rfl (b x y)⟩
      · exact absurd ((linked_iff _ I hI hval).mpr (hfin.mono h5)) a
      · rw [a]
        exact ⟨fun _ => .inr ⟨_, _, rfl, hd⟩, fun h => absurd hfin h, fun _ _ => by simp [Outcome.bind]⟩
    · obtain ⟨a, b⟩ := hmst_unlinked (G.points core) bits I hI hn hbig hval hbox h3 h4
        (fun h => hfin (h.mono (fun p _ q _ hlt => lt_of_le_of_lt (h3 p q) hlt))) hcap schedB hf ordP hoP sc hsc ro fuel hfuel iters
      refine ⟨fun h => absurd h hfin, fun _ => ?_, fun x y => by rw [b x y]; simp [Outcome.bind]⟩
      rcases a with a | a
      · rw [a]; exact .inl rfl
      · rw [a]; exact .inr rfl
  | false =>
    rw [if_neg (by simp)]
    obtain ⟨weight, h1, h2, h3, h4, h5⟩ := mst_k_infinite_partial G k I hI hn (by omega) hval hbox hsymm hself hcap schedB hf
      ordP hoP (fun it => (sc it).toSched) (fun it => (hsc it).base) fuel hfuel iters
    refine ⟨weight, h1, h2, fun hfin => ?_, fun hfin => ?_, fun x y => ?_⟩
    · rcases h3 hfin with h3 | ⟨E, e, hM, -⟩
      · rw [h3]; exact .inl rfl
      · obtain ⟨par, heights, hd, hD⟩ := unionFindDendrogram_correct hn hM hro.sortW
        rw [e]
        simp only [Outcome.bind]
        exact .inr ⟨par, heights, hd, hD⟩
    · rcases h4 hfin with h4 | h4
      · rw [h4]; exact .inl rfl
      · rw [h4]; exact .inr rfl
    · by_cases hfin : FiniteSteps I.n G.dp
      · rcases h3 hfin with h3 | ⟨E, e, hM, -⟩
        · exact absurd h3 (h5 x y)
        · obtain ⟨par, heights, hd, hD⟩ := unionFindDendrogram_correct hn hM hro.sortW
          rw [e]
          simp only [Outcome.bind]
          rw [hd]
          simp
      · rcases h4 hfin with h4 | h4
        · exact absurd h4 (h5 x y)
        · rw [h4]; simp [Outcome.bind]

end ArborX.Hdbscan
