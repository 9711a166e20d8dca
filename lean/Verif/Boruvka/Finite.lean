import Verif.Boruvka.Core
import Verif.Mst.FiniteSpec

/-!
# Property theorems: minimum spanning tree of points some of whose distances are infinite (C94)
-/

namespace ArborX.Boruvka

open Mst (DirectedEdge WeightedEdge IsMst IsCore mutualReach within FiniteSteps reachable)
open BVH (Input)

variable {V W : Type} [LinearOrder W] [BoundedOrder W] [SemilatticeSup V] [OrderBot V] {w : ℕ}

/-! ## Lemmas -/

omit [SemilatticeSup V] [OrderBot V] in
lemma linked_iff (P : Points V W) (I : Input ℕ V w) (hI : I.Valid) (hval : ∀ p < I.n, I.values p = p) :
    Linked P (fun i => I.values (I.perm i)) I.n ↔ FiniteSteps I.n P.weight := by
  obtain ⟨inv, hi1, hi2⟩ := exists_inverse I hI hval
  constructor
  · intro h p hp q hq
    by_contra hno
    obtain ⟨a, ha, b, hb, hSa, hSb, hlt⟩ := h
      (fun i => Relation.ReflTransGen (fun a b => a < I.n ∧ b < I.n ∧ P.weight a b < ⊤) p (I.values (I.perm i)))
      ⟨inv p, (hi1 p hp).1, by rw [(hi1 p hp).2]⟩ ⟨inv q, (hi1 q hq).1, by rw [(hi1 q hq).2]; exact hno⟩
    exact hSb (hSa.tail ⟨(hi2 a ha).1, (hi2 b hb).1, hlt⟩)
  · rintro h S ⟨a, ha, hSa⟩ ⟨b, hb, hSb⟩
    by_contra hno
    have key : ∀ x, Relation.ReflTransGen (fun a b => a < I.n ∧ b < I.n ∧ P.weight a b < ⊤) (I.values (I.perm a)) x → S (inv x) := by
      intro x hx
      induction hx with
      | refl => rw [(hi2 a ha).2]; exact hSa
      | tail _ hbc ih =>
        by_contra hS
        refine hno ⟨_, (hi1 _ hbc.1).1, _, (hi1 _ hbc.2.1).1, ih, hS, ?_⟩
        dsimp only
        rw [(hi1 _ hbc.1).2, (hi1 _ hbc.2.1).2]
        exact hbc.2.2
    have := key _ (h _ (hi2 a ha).1 _ (hi2 b hb).1)
    rw [(hi2 b hb).2] at this
    exact hSb this

omit [SemilatticeSup V] [OrderBot V] in
lemma _root_.ArborX.Mst.FiniteSteps.mono {n : ℕ} {d d' : ℕ → ℕ → W} (h : FiniteSteps n d) (hd : ∀ p < n, ∀ q < n, d p q < ⊤ → d' p q < ⊤) :
    FiniteSteps n d' := by
  intro p hp q hq
  have := h p hp q hq
  clear hq
  induction this with
  | refl => exact .refl
  | tail _ hab ih => exact ih.tail ⟨hab.1, hab.2.1, hd _ hab.1 _ hab.2.1 hab.2.2⟩

/-! ## Property theorems -/

/-- **C94 (core distances).** Whether or not the distances are finite: the value computed as the core distance of a point is the smallest radius
containing `k` points, or, if fewer than `k` points are at finite distance, all those that are. It is always finite. -/
theorem core_distance_infinite (G : Geo V W) (I : Input ℕ V w) (hI : I.Valid) (hn : 2 ≤ I.n)
    (hval : ∀ p < I.n, I.values p = p) (hbox : ∀ p q v, I.vol q ≤ v → G.dv p v ≤ G.dp p q)
    (hself : ∀ p < I.n, G.dp p p < ⊤) (hcap : Nearest.StackFits I 64)
    (schedB : List ℕ) (hf : I.Finished schedB) (fuel : ℕ) (hfuel : 2 * I.n ≤ fuel) (k : ℕ) (hk : 1 ≤ k)
    (p : ℕ) (hp : p < I.n) :
    ∃ r, coreDistance G (I.build schedB) fuel k p = .done r ∧ IsCore G.dp I.n (min k (reachable G.dp I.n p)) p r ∧ r < ⊤ := by
  obtain ⟨calls, e, hnear⟩ := Nearest.nearest_query I hI (by omega) (G.query k p)
    (fun q v h => hbox p q v h) (fun _ => bot_le) hcap schedB hf fuel hfuel
  have hlen := hnear.length
  obtain ⟨om, hperm, -, hfin, -, hle, -⟩ := hnear
  have hst : I.stored = List.range I.n := by
    unfold Input.stored
    conv_rhs => rw [← List.map_id (List.range I.n)]
    apply List.map_congr_left
    intro i hi
    exact hval i (List.mem_range.mp hi)
  rw [hst] at hperm hlen
  have hlen : calls.length = min k (reachable G.dp I.n p) := hlen
  have hpos : 1 ≤ reachable G.dp I.n p := by
    unfold reachable
    exact List.countP_pos_iff.mpr ⟨p, List.mem_range.mpr hp, decide_eq_true (hself p hp)⟩
  have hrn : reachable G.dp I.n p ≤ I.n := by
    unfold reachable
    exact List.countP_le_length.trans (by rw [List.length_range])
  refine ⟨_, by unfold coreDistance; rw [e], ?_⟩
  obtain ⟨m1, m2⟩ := maxDistance_spec G p calls
  have hne : calls ≠ [] := by
    intro h0
    rw [h0] at hlen
    simp only [List.length_nil] at hlen
    omega
  obtain ⟨a, ha, hae⟩ := m2 hne
  have hcount : ∀ r, within G.dp I.n p r = calls.countP (fun q => G.dp p q ≤ r) + om.countP (fun q => G.dp p q ≤ r) := by
    intro r
    unfold within
    rw [← hperm.countP_eq, List.countP_append]
  refine ⟨⟨?_, ?_⟩, by rw [hae]; exact hfin a ha⟩
  · rw [hcount, List.countP_eq_length.mpr (fun q hq => decide_eq_true (m1 q hq)), hlen]
    omega
  · intro r' hr'
    rw [hae] at hr'
    rw [hcount, (List.countP_eq_zero (l := om)).mpr, Nat.add_zero, show min (min k (reachable G.dp I.n p)) I.n = calls.length by omega]
    · refine lt_of_le_of_ne List.countP_le_length (fun h0 => ?_)
      have := List.countP_eq_length.mp h0 a ha
      exact absurd (of_decide_eq_true this) (not_le.mpr hr')
    · intro b hb h
      exact absurd (of_decide_eq_true h) (not_le.mpr (lt_of_lt_of_le hr' (hle a ha b hb)))

/-- **C94 (partial).** As `mst_correct_partial`, of points that are connected by finite weights, although some of the weights may be infinite. -/
theorem mst_connected_partial (P : Points V W) (I : Input ℕ V w) (hI : I.Valid) (hn : 2 ≤ I.n) (hbig : I.n ≤ 2 ^ 31)
    (hval : ∀ p < I.n, I.values p = p)
    (hbox : ∀ p q v, I.vol q ≤ v → P.dv p v ≤ P.dp p q)
    (hmetric : ∀ p q, P.dp p q ≤ P.weight p q)
    (hsymm : ∀ p q, P.weight p q = P.weight q p)
    (hfin : FiniteSteps I.n P.weight)
    (hcap : Nearest.StackFits I P.cap)
    (schedB : List ℕ) (hf : I.Finished schedB)
    (ordP : List ℕ) (hoP : ordP.Perm (List.range (2 * I.n - 2)))
    (sc : ℕ → Sched) (hsc : ∀ it, (sc it).Valid I.n) (fuel : ℕ) (hfuel : 2 * I.n ≤ fuel) (iters : ℕ) :
    (mst P I schedB ordP sc fuel iters = .running ∨
      ∃ E, mst P I schedB ordP sc fuel iters = .ok E ∧ IsMst I.n P.weight E ∧ ∀ e ∈ E, e.weight < ⊤) ∧
    ((∀ it, (sc it).Fair I.n) → I.n ≤ 2 ^ iters → mst P I schedB ordP sc fuel iters ≠ .running) := by
  rcases mst_run_linked P I hI hn hbig hbox hmetric hsymm hcap schedB hf ordP hoP sc hsc fuel hfuel iters with
    ⟨e, hnf⟩ | ⟨h, -⟩ | ⟨s, e, h, h1⟩
  · exact ⟨.inl e, fun a b => absurd ⟨a, b⟩ hnf⟩
  · exact absurd ((linked_iff P I hI hval).mpr hfin) h
  · rw [e]
    refine ⟨.inr ⟨_, rfl, h.isMst I hI (by omega) hval ⟨hbig, hsymm⟩ h1, fun x hx => ?_⟩, by simp⟩
    obtain ⟨y, hy, rfl⟩ := List.mem_map.mp hx
    exact h.finite y hy

/-- **C94 (defect).** Points that are not connected by finite weights: whatever the schedule, the constructor of `MinimumSpanningTree` does not return a
result. If every thread gets enough steps, it accesses memory out of bounds. -/
theorem mst_disconnected (P : Points V W) (I : Input ℕ V w) (hI : I.Valid) (hn : 2 ≤ I.n) (hbig : I.n < 2 ^ 31)
    (hval : ∀ p < I.n, I.values p = p)
    (hbox : ∀ p q v, I.vol q ≤ v → P.dv p v ≤ P.dp p q)
    (hmetric : ∀ p q, P.dp p q ≤ P.weight p q)
    (hsymm : ∀ p q, P.weight p q = P.weight q p)
    (hfin : ¬ FiniteSteps I.n P.weight)
    (hcap : Nearest.StackFits I P.cap)
    (schedB : List ℕ) (hf : I.Finished schedB)
    (ordP : List ℕ) (hoP : ordP.Perm (List.range (2 * I.n - 2)))
    (sc : ℕ → Sched) (hsc : ∀ it, (sc it).Valid I.n) (fuel : ℕ) (hfuel : 2 * I.n ≤ fuel) (iters : ℕ) :
    (mst P I schedB ordP sc fuel iters = .running ∨ mst P I schedB ordP sc fuel iters = .fault) ∧
    ((∀ it, (sc it).Fair I.n) → I.n ≤ 2 ^ iters → mst P I schedB ordP sc fuel iters = .fault) := by
  rcases mst_run_linked P I hI hn (by omega) hbox hmetric hsymm hcap schedB hf ordP hoP sc hsc fuel hfuel iters with
    ⟨e, hnf⟩ | ⟨-, e⟩ | ⟨s, e, h, h1⟩
  · exact ⟨.inl e, fun a b => absurd ⟨a, b⟩ hnf⟩
  · exact ⟨.inr (e hbig), fun _ _ => e hbig⟩
  · exact absurd ((linked_iff P I hI hval).mp (h.linked ⟨by omega, hsymm⟩ (h.tree (by omega) h1))) hfin

/-- The core distances of the constructor, and the distances made from them. -/
lemma mstK_infinite (G : Geo V W) (k : ℕ) (I : Input ℕ V w) (hI : I.Valid) (hn : 2 ≤ I.n)
    (hval : ∀ p < I.n, I.values p = p) (hbox : ∀ p q v, I.vol q ≤ v → G.dv p v ≤ G.dp p q)
    (hsymm : ∀ p q, G.dp p q = G.dp q p)
    (hself : ∀ p < I.n, G.dp p p < ⊤) (hcap : Nearest.StackFits I 64)
    (schedB : List ℕ) (hf : I.Finished schedB) (fuel : ℕ) (hfuel : 2 * I.n ≤ fuel) :
    ∃ core : Option (ℕ → W), (∀ ordP sc iters, mstK G k I schedB ordP sc fuel iters = mst (G.points core) I schedB ordP sc fuel iters) ∧
      (k ≤ 1 → (G.points core).weight = G.dp) ∧
      (1 < k → ∃ c, (∀ p < I.n, IsCore G.dp I.n (min k (reachable G.dp I.n p)) p (c p)) ∧ (G.points core).weight = mutualReach G.dp c) ∧
      (∀ p q, G.dp p q ≤ (G.points core).weight p q) ∧
      (∀ p q, (G.points core).weight p q = (G.points core).weight q p) ∧
      (∀ p < I.n, ∀ q < I.n, G.dp p q < ⊤ → (G.points core).weight p q < ⊤) := by
  by_cases hk : 1 < k
  · have hc := core_distance_infinite G I hI hn hval hbox hself hcap schedB hf fuel hfuel k (by omega)
    have hcore : ∀ p < I.n, IsCore G.dp I.n (min k (reachable G.dp I.n p)) p
        ((fun p => match coreDistance G (I.build schedB) fuel k p with | .done r => r | _ => ⊥) p) ∧
        ((fun p => match coreDistance G (I.build schedB) fuel k p with | .done r => r | _ => ⊥) p) < ⊤ := by
      intro p hp
      dsimp only
      obtain ⟨r, e, h⟩ := hc p hp
      rw [e]; exact h
    have hall : (List.range I.n).all (fun p => match coreDistance G (I.build schedB) fuel k p with
      | .done _ => true | _ => false) = true := by
      rw [List.all_eq_true]
      intro p hp
      obtain ⟨r, e, h⟩ := hc p (List.mem_range.mp hp)
      rw [e]
    refine ⟨some _, fun ordP sc iters => ?_, fun h => by omega, fun _ => ⟨_, fun p hp => (hcore p hp).1, rfl⟩, fun p q => le_max_right _ _,
      (mutual_reachability G _).2.1 hsymm, fun p hp q hq h => max_lt (max_lt (hcore p hp).2 (hcore q hq).2) h⟩
    exact (if_pos hk).trans (if_pos hall)
  · refine ⟨none, fun ordP sc iters => ?_, fun _ => rfl, fun h => absurd h hk, fun _ _ => le_rfl, hsymm, fun p _ q _ h => h⟩
    unfold mstK
    rw [if_neg hk]

/-- **C94 (partial).** For any `k`, on points at any distances: with the distances, or, for `k > 1`, the mutual reachability distances made from core distances
that count only the points at finite distance, the constructor computes a minimum spanning tree if the points are connected by finite distances, and accesses
memory out of bounds if they are not.

Partial: assumes that the fixed stack of 64 entries is large enough for the tree. -/
theorem mst_k_infinite_partial (G : Geo V W) (k : ℕ) (I : Input ℕ V w) (hI : I.Valid) (hn : 2 ≤ I.n) (hbig : I.n < 2 ^ 31)
    (hval : ∀ p < I.n, I.values p = p) (hbox : ∀ p q v, I.vol q ≤ v → G.dv p v ≤ G.dp p q)
    (hsymm : ∀ p q, G.dp p q = G.dp q p)
    (hself : ∀ p < I.n, G.dp p p < ⊤) (hcap : Nearest.StackFits I 64)
    (schedB : List ℕ) (hf : I.Finished schedB)
    (ordP : List ℕ) (hoP : ordP.Perm (List.range (2 * I.n - 2)))
    (sc : ℕ → Sched) (hsc : ∀ it, (sc it).Valid I.n) (fuel : ℕ) (hfuel : 2 * I.n ≤ fuel) (iters : ℕ) :
    ∃ weight : ℕ → ℕ → W,
      (k ≤ 1 → weight = G.dp) ∧
      (1 < k → ∃ core, (∀ p < I.n, IsCore G.dp I.n (min k (reachable G.dp I.n p)) p (core p)) ∧ weight = mutualReach G.dp core) ∧
      (FiniteSteps I.n G.dp →
        mstK G k I schedB ordP sc fuel iters = .running ∨
          ∃ E, mstK G k I schedB ordP sc fuel iters = .ok E ∧ IsMst I.n weight E ∧ ∀ e ∈ E, e.weight < ⊤) ∧
      (¬ FiniteSteps I.n G.dp →
        mstK G k I schedB ordP sc fuel iters = .running ∨ mstK G k I schedB ordP sc fuel iters = .fault) ∧
      ((∀ it, (sc it).Fair I.n) → I.n ≤ 2 ^ iters → mstK G k I schedB ordP sc fuel iters ≠ .running) := by
  obtain ⟨core, e, h1, h2, h3, h4, h5⟩ := mstK_infinite G k I hI hn hval hbox hsymm hself hcap schedB hf fuel hfuel
  rw [e]
  refine ⟨(G.points core).weight, h1, h2, ?_⟩
  by_cases hfin : FiniteSteps I.n G.dp
  · obtain ⟨a, b⟩ := mst_connected_partial (G.points core) I hI hn (by omega) hval hbox h3 h4 (hfin.mono h5) hcap schedB hf ordP hoP sc hsc
      fuel hfuel iters
    exact ⟨fun _ => a, fun h => absurd hfin h, b⟩
  · obtain ⟨a, b⟩ := mst_disconnected (G.points core) I hI hn hbig hval hbox h3 h4
      (fun h => hfin (h.mono (fun p _ q _ hlt => lt_of_le_of_lt (h3 p q) hlt))) hcap schedB hf ordP hoP sc hsc
      fuel hfuel iters
    exact ⟨fun h => absurd h hfin, fun _ => a, fun x y => by rw [b x y]; simp⟩

/-! ## Non-vacuity -/

open Traversal (exampleInput exampleInput_valid)

/-- The five values of the example, in two groups, `0, 1, 2` and `3, 4`, `gap` apart. -/
def splitGeo (gap : WithTop ℕ) (shared : Bool) : Geo (Finset ℕ) (WithTop ℕ) where
  dp := fun p q => if (p ≤ 2 ∧ q ≤ 2) ∨ (3 ≤ p ∧ 3 ≤ q) then ((p - q + (q - p) : ℕ) : WithTop ℕ) else gap
  dv := fun p v => v.inf (fun q => if (p ≤ 2 ∧ q ≤ 2) ∨ (3 ≤ p ∧ 3 ≤ q) then ((p - q + (q - p) : ℕ) : WithTop ℕ) else gap)
  shared := shared

/-- `mst_k_infinite_partial` applies to two groups infinitely far apart, and the program faults. -/
example (b : Bool) (k : ℕ) : ¬ FiniteSteps 5 (splitGeo ⊤ b).dp ∧ ∃ schedB ordP sc fuel iters,
    mstK (splitGeo ⊤ b) k exampleInput schedB ordP sc fuel iters = .fault := by
  have hno : ¬ FiniteSteps 5 (splitGeo ⊤ b).dp := by
    intro h
    have key : ∀ x, Relation.ReflTransGen (fun a c => a < 5 ∧ c < 5 ∧ (splitGeo ⊤ b).dp a c < ⊤) 0 x → x ≤ 2 := by
      intro x hx
      induction hx with
      | refl => omega
      | @tail y z _ hbc ih =>
        by_contra hz
        have := hbc.2.2
        simp only [splitGeo] at this
        rw [if_neg (by omega)] at this
        exact absurd this (lt_irrefl _)
    have := key 3 (h 0 (by omega) 3 (by omega))
    omega
  refine ⟨hno, ?_⟩
  obtain ⟨schedB, hB⟩ := Construction.exists_complete exampleInput.params (exampleInput_valid.keys (by decide))
  obtain ⟨sc, h1, h2⟩ := exists_sched exampleInput.n
  obtain ⟨weight, -, -, -, h, h'⟩ := mst_k_infinite_partial (splitGeo ⊤ b) k exampleInput exampleInput_valid (by decide) (by decide)
    (fun _ _ => rfl) (fun p q v h => Finset.inf_le
      (show q ∈ v from (show ({q} : Finset ℕ) ⊆ v from h) (Finset.mem_singleton_self q)))
    (fun p q => by
      simp only [splitGeo]
      rw [Nat.add_comm]
      exact if_congr (by omega) rfl rfl)
    (fun p _ => by
      simp only [splitGeo]
      rw [if_pos (by omega)]
      exact WithTop.coe_lt_top _)
    (mst_height_partial exampleInput exampleInput_valid (by decide) (.inl (by decide))) schedB (fun _ => hB)
    (List.range (2 * exampleInput.n - 2)) (List.Perm.refl _) (fun _ => sc) (fun _ => h1) (2 * exampleInput.n) le_rfl 4
  rcases h hno with h | h
  · exact absurd h (h' (fun _ => h2) (by decide))
  · exact ⟨_, _, _, _, _, h⟩

/-- A chain: neighbours are at distance 1, other points infinitely far apart. -/
def chainGeo (shared : Bool) : Geo (Finset ℕ) (WithTop ℕ) where
  dp := fun p q => if p - q + (q - p) ≤ 1 then ((p - q + (q - p) : ℕ) : WithTop ℕ) else ⊤
  dv := fun p v => v.inf (fun q => if p - q + (q - p) ≤ 1 then ((p - q + (q - p) : ℕ) : WithTop ℕ) else ⊤)
  shared := shared

/-- `mst_k_infinite_partial` applies to the chain, and the tree is found although most distances are infinite. -/
example (b : Bool) (k : ℕ) : ∃ schedB ordP sc fuel iters E weight,
    mstK (chainGeo b) k exampleInput schedB ordP sc fuel iters = .ok E ∧ IsMst 5 weight E ∧ ∀ e ∈ E, e.weight < ⊤ := by
  have hfin : FiniteSteps 5 (chainGeo b).dp := by
    have up : ∀ x < 5, Relation.ReflTransGen (fun a c => a < 5 ∧ c < 5 ∧ (chainGeo b).dp a c < ⊤) 0 x := by
      intro x
      induction x with
      | zero => intro _; exact .refl
      | succ x ih =>
        intro hx
        refine (ih (by omega)).tail ⟨by omega, by omega, ?_⟩
        simp only [chainGeo]
        rw [if_pos (by omega)]
        exact WithTop.coe_lt_top _
    have down : ∀ x < 5, Relation.ReflTransGen (fun a c => a < 5 ∧ c < 5 ∧ (chainGeo b).dp a c < ⊤) x 0 := by
      intro x
      induction x with
      | zero => intro _; exact .refl
      | succ x ih =>
        intro hx
        refine Relation.ReflTransGen.head ⟨by omega, by omega, ?_⟩ (ih (by omega))
        simp only [chainGeo]
        rw [if_pos (by omega)]
        exact WithTop.coe_lt_top _
    exact fun p hp q hq => (down p hp).trans (up q hq)
  obtain ⟨schedB, hB⟩ := Construction.exists_complete exampleInput.params (exampleInput_valid.keys (by decide))
  obtain ⟨sc, h1, h2⟩ := exists_sched exampleInput.n
  obtain ⟨weight, -, -, h, -, h'⟩ := mst_k_infinite_partial (chainGeo b) k exampleInput exampleInput_valid (by decide) (by decide)
    (fun _ _ => rfl) (fun p q v h => Finset.inf_le
      (show q ∈ v from (show ({q} : Finset ℕ) ⊆ v from h) (Finset.mem_singleton_self q)))
    (fun p q => by
      simp only [chainGeo]
      rw [Nat.add_comm])
    (fun p _ => by
      simp only [chainGeo]
      rw [if_pos (by omega)]
      exact WithTop.coe_lt_top _)
    (mst_height_partial exampleInput exampleInput_valid (by decide) (.inl (by decide))) schedB (fun _ => hB)
    (List.range (2 * exampleInput.n - 2)) (List.Perm.refl _) (fun _ => sc) (fun _ => h1) (2 * exampleInput.n) le_rfl 4
  rcases h hfin with h | ⟨E, h, hE⟩
  · exact absurd h (h' (fun _ => h2) (by decide))
  · exact ⟨_, _, _, _, _, E, weight, h, hE⟩

end ArborX.Boruvka
