import Verif.Boruvka.Theorems
import Verif.Mst.CoreSpec

/-!
# Core distances and the minimum spanning tree for mutual reachability (C46, C22)
-/

namespace ArborX.Boruvka

open Mst (WeightedEdge IsMst IsCore mutualReach within)
open BVH (Input build_size)
open Nearest (Query nearestQuery IsKNearest)

variable {V W : Type} [LinearOrder W] [BoundedOrder W] [SemilatticeSup V] [OrderBot V] {w : ℕ}

/-! ## Model -/

/-- Distances between points and from points to boxes, and the compile-time switch for the
execution space `Serial`. -/
structure Geo (V W : Type) where
  dp : ℕ → ℕ → W
  dv : ℕ → V → W
  shared : Bool

/-- The nearest predicate of point `p` (`ArborX_MinimumSpanningTree.hpp` 68-73); the nearest
traversal has a stack of 64 entries. -/
def Geo.query (G : Geo V W) (k p : ℕ) : Query ℕ V W where
  k := k
  dl := G.dp p
  dv := G.dv p
  zero := ⊥
  inf := ⊤
  cap := 64

/-- `MaxDistance::operator()` (`ArborX_MutualReachabilityDistance.hpp` 37-50) called on the values
found, for the query of point `p`; the view is initialised with zeros. -/
def maxDistance (G : Geo V W) (p : ℕ) (calls : List ℕ) : W := calls.foldl (fun m q => max m (G.dp p q)) ⊥

/-- The core distance of point `p` (`ArborX_MinimumSpanningTree.hpp` 66-73). Each entry is written
by the query of that point only. -/
def coreDistance (G : Geo V W) (mem : Mem ℕ V) (fuel k p : ℕ) : Res W :=
  match nearestQuery mem (G.query k p) fuel with
  | .done calls => .done (maxDistance G p calls)
  | .fault => .fault
  | .timeout => .timeout

/-- `MutualReachability` and `Euclidean` (`ArborX_MutualReachabilityDistance.hpp` 52-77). -/
def Geo.points (G : Geo V W) (core : Option (ℕ → W)) : Points V W where
  dp := G.dp
  dv := G.dv
  metric := match core with
    | none => fun _ _ d => d
    | some c => fun p q d => max (max (c p) (c q)) d
  cap := 64
  shared := G.shared

/-- The constructor of `MinimumSpanningTree` (`ArborX_MinimumSpanningTree.hpp` 44-96), `k` as given
by the user. -/
def mstK (G : Geo V W) (k : ℕ) (I : Input ℕ V w) (schedB ordP : List ℕ) (sc : ℕ → Sched) (fuel iters : ℕ) :
    Outcome (List (WeightedEdge W)) :=
  if 1 < k then
    if (List.range I.n).all (fun p => match coreDistance G (I.build schedB) fuel k p with
      | .done _ => true | _ => false) then
      mst (G.points (some (fun p => match coreDistance G (I.build schedB) fuel k p with
        | .done r => r | _ => ⊥))) I schedB ordP sc fuel iters
    else .fault
  else mst (G.points none) I schedB ordP sc fuel iters

/-! ## Lemmas -/

omit [SemilatticeSup V] [OrderBot V] in
lemma maxDistance_spec (G : Geo V W) (p : ℕ) (calls : List ℕ) :
    (∀ q ∈ calls, G.dp p q ≤ maxDistance G p calls) ∧
      (calls ≠ [] → ∃ q ∈ calls, maxDistance G p calls = G.dp p q) := by
  have key : ∀ (calls : List ℕ) (m : W), m ≤ calls.foldl (fun m q => max m (G.dp p q)) m ∧
      (∀ q ∈ calls, G.dp p q ≤ calls.foldl (fun m q => max m (G.dp p q)) m) ∧
      (calls.foldl (fun m q => max m (G.dp p q)) m = m ∨
        ∃ q ∈ calls, calls.foldl (fun m q => max m (G.dp p q)) m = G.dp p q) := by
    intro calls
    induction calls with
    | nil => intro m; exact ⟨le_rfl, by simp, .inl rfl⟩
    | cons a calls ih =>
      intro m
      rw [List.foldl_cons]
      obtain ⟨h1, h2, h3⟩ := ih (max m (G.dp p a))
      refine ⟨(le_max_left _ _).trans h1, ?_, ?_⟩
      · intro q hq
        rcases List.mem_cons.mp hq with rfl | hq
        · exact (le_max_right _ _).trans h1
        · exact h2 q hq
      · rcases h3 with h3 | ⟨q, hq, h3⟩
        · rcases max_choice m (G.dp p a) with e | e
          · left; rw [h3, e]
          · right; exact ⟨a, List.mem_cons_self, by rw [h3, e]⟩
        · exact .inr ⟨q, List.mem_cons_of_mem _ hq, h3⟩
  obtain ⟨-, h2, h3⟩ := key calls ⊥
  refine ⟨h2, fun hne => ?_⟩
  rcases h3 with h3 | h3
  · match calls, hne with
    | a :: L, _ =>
      refine ⟨a, List.mem_cons_self, ?_⟩
      have := h2 a List.mem_cons_self
      unfold maxDistance
      rw [h3] at this ⊢
      exact (le_bot_iff.mp this).symm
  · exact h3

/-! ## Property theorems -/

/-- **C46 (core distances).** For `1 ≤ k` and at least two points (at finite distances, boxes never
farther than the points in them), under every schedule of the construction, the nearest query of
every point finishes without a fault, and the value computed is the core distance: the smallest
radius containing `k` points, the point itself included. (The height hypothesis is that of the
nearest query, C06.) -/
theorem core_distance_correct (G : Geo V W) (I : Input ℕ V w) (hI : I.Valid) (hn : 2 ≤ I.n)
    (hval : ∀ p < I.n, I.values p = p) (hbox : ∀ p q v, I.vol q ≤ v → G.dv p v ≤ G.dp p q)
    (hfin : ∀ p < I.n, ∀ q < I.n, G.dp p q < ⊤) (hcap : Nearest.StackFits I 64)
    (schedB : List ℕ) (hf : I.Finished schedB) (fuel : ℕ) (hfuel : 2 * I.n ≤ fuel) (k : ℕ) (hk : 1 ≤ k)
    (p : ℕ) (hp : p < I.n) :
    ∃ r, coreDistance G (I.build schedB) fuel k p = .done r ∧ IsCore G.dp I.n k p r := by
  obtain ⟨calls, e, hlen, om, hperm, -, -, -, hle, -⟩ := Nearest.nearest_query_finite I hI (G.query k p)
    (fun q v h => hbox p q v h) (fun _ => bot_le) hcap
    (fun i hi => by rw [hval i hi]; exact hfin p hp i hi) schedB hf fuel hfuel
  have hst : I.stored = List.range I.n := by
    unfold Input.stored
    conv_rhs => rw [← List.map_id (List.range I.n)]
    apply List.map_congr_left
    intro i hi
    exact hval i (List.mem_range.mp hi)
  rw [hst] at hperm
  have hlen : calls.length = min k I.n := hlen
  refine ⟨_, by unfold coreDistance; rw [e], ?_⟩
  obtain ⟨m1, m2⟩ := maxDistance_spec G p calls
  have hcount : ∀ r, within G.dp I.n p r = calls.countP (fun q => G.dp p q ≤ r) + om.countP (fun q => G.dp p q ≤ r) := by
    intro r
    unfold within
    rw [← hperm.countP_eq, List.countP_append]
  refine ⟨?_, ?_⟩
  · rw [hcount, List.countP_eq_length.mpr (fun q hq => decide_eq_true (m1 q hq)), hlen]
    omega
  · intro r' hr'
    have hne : calls ≠ [] := by
      intro h0
      rw [h0] at hlen
      simp only [List.length_nil] at hlen
      omega
    obtain ⟨a, ha, hae⟩ := m2 hne
    rw [hae] at hr'
    rw [hcount, (List.countP_eq_zero (l := om)).mpr, Nat.add_zero, ← hlen]
    · refine lt_of_le_of_ne List.countP_le_length (fun h0 => ?_)
      have := List.countP_eq_length.mp h0 a ha
      exact absurd (of_decide_eq_true this) (not_le.mpr hr')
    · intro b hb h
      exact absurd (of_decide_eq_true h) (not_le.mpr (lt_of_lt_of_le hr' (hle a ha b hb)))

omit [BoundedOrder W] in
/-- **C46 (uniqueness).** The core distance is determined by its specification. -/
theorem core_unique {d : ℕ → ℕ → W} {n k p : ℕ} {r r' : W} (h : IsCore d n k p r) (h' : IsCore d n k p r') : r = r' := by
  rcases lt_trichotomy r r' with hlt | e | hlt
  · exact absurd (h'.least r hlt) (not_lt.mpr h.enough)
  · exact e
  · exact absurd (h.least r' hlt) (not_lt.mpr h'.enough)

omit [SemilatticeSup V] [OrderBot V] in
/-- **C46 (mutual reachability).** The functor `MutualReachability` applied to two points and their
distance is the mutual reachability distance; for symmetric distances it is symmetric, and it is at
least the distance and both core distances. -/
theorem mutual_reachability (G : Geo V W) (core : ℕ → W) :
    (∀ p q, (G.points (some core)).weight p q = mutualReach G.dp core p q) ∧
    ((∀ p q, G.dp p q = G.dp q p) → ∀ p q, mutualReach G.dp core p q = mutualReach G.dp core q p) ∧
    (∀ p q, G.dp p q ≤ mutualReach G.dp core p q ∧ core p ≤ mutualReach G.dp core p q ∧ core q ≤ mutualReach G.dp core p q) := by
  refine ⟨fun _ _ => rfl, fun h p q => ?_, fun p q => ⟨le_max_right _ _, ?_, ?_⟩⟩
  · unfold mutualReach; rw [h p q, max_comm (core p)]
  · exact (le_max_left _ _).trans (le_max_left _ _)
  · exact (le_max_right _ _).trans (le_max_left _ _)

/-- For `1 < k` the constructor computes the tree of the mutual reachability distances. -/
lemma mstK_core (G : Geo V W) (k : ℕ) (hk : 1 < k) (I : Input ℕ V w) (hI : I.Valid) (hn : 2 ≤ I.n)
    (hval : ∀ p < I.n, I.values p = p) (hbox : ∀ p q v, I.vol q ≤ v → G.dv p v ≤ G.dp p q)
    (hfin : ∀ p < I.n, ∀ q < I.n, G.dp p q < ⊤) (hcap : Nearest.StackFits I 64)
    (schedB : List ℕ) (hf : I.Finished schedB) (ordP : List ℕ) (sc : ℕ → Sched) (fuel : ℕ) (hfuel : 2 * I.n ≤ fuel)
    (iters : ℕ) :
    ∃ core : ℕ → W, (∀ p < I.n, IsCore G.dp I.n k p (core p)) ∧ (∀ p < I.n, core p < ⊤) ∧
      mstK G k I schedB ordP sc fuel iters = mst (G.points (some core)) I schedB ordP sc fuel iters := by
  have hc := core_distance_correct G I hI hn hval hbox hfin hcap schedB hf fuel hfuel k (by omega)
  have hcore : ∀ p < I.n, IsCore G.dp I.n k p
      ((fun p => match coreDistance G (I.build schedB) fuel k p with | .done r => r | _ => ⊥) p) := by
    intro p hp
    dsimp only
    obtain ⟨r, e, h⟩ := hc p hp
    rw [e]; exact h
  have hall : (List.range I.n).all (fun p => match coreDistance G (I.build schedB) fuel k p with
    | .done _ => true | _ => false) = true := by
    rw [List.all_eq_true]
    intro p hp
    obtain ⟨r, e, h⟩ := hc p (List.mem_range.mp hp)
    rw [e]
  unfold mstK
  rw [if_pos hk, if_pos hall]
  generalize (fun p => match coreDistance G (I.build schedB) fuel k p with | .done r => r | _ => ⊥) = core at hcore ⊢
  have hcfin : ∀ p < I.n, core p < ⊤ := by
    intro p hp
    by_contra htop
    have htop : core p = ⊤ := not_lt_top_iff.mp htop
    -- the largest distance already contains all points
    obtain ⟨m1, m2⟩ := maxDistance_spec G p (List.range I.n)
    obtain ⟨a, ha, hae⟩ := m2 (by intro h0; rw [List.range_eq_nil] at h0; omega)
    have hlt : maxDistance G p (List.range I.n) < core p := by
      rw [htop, hae]; exact hfin p hp a (List.mem_range.mp ha)
    have := (hcore p hp).least _ hlt
    unfold within at this
    rw [List.countP_eq_length.mpr (fun q hq => decide_eq_true (m1 q hq)), List.length_range] at this
    omega
  exact ⟨core, hcore, hcfin, rfl⟩

/-- **C22, C46 (partial).** The constructor of `MinimumSpanningTree` for any `k`: for `k ≤ 1` the
result is a minimum spanning tree for the distances, for `k > 1` one for the mutual reachability
distances of the core distances for `k`, under all schedules of all kernels. Partial as
`mst_correct_partial`: the stacks are assumed to be large enough for the tree. -/
theorem mst_k_correct_partial (G : Geo V W) (k : ℕ) (I : Input ℕ V w) (hI : I.Valid) (hn : 2 ≤ I.n) (hbig : I.n ≤ 2 ^ 31)
    (hval : ∀ p < I.n, I.values p = p) (hbox : ∀ p q v, I.vol q ≤ v → G.dv p v ≤ G.dp p q)
    (hsymm : ∀ p q, G.dp p q = G.dp q p)
    (hfin : ∀ p < I.n, ∀ q < I.n, G.dp p q < ⊤) (hcap : Nearest.StackFits I 64)
    (schedB : List ℕ) (hf : I.Finished schedB)
    (ordP : List ℕ) (hoP : ordP.Perm (List.range (2 * I.n - 2)))
    (sc : ℕ → Sched) (hsc : ∀ it, (sc it).Valid I.n) (fuel : ℕ) (hfuel : 2 * I.n ≤ fuel) (iters : ℕ) :
    ∃ weight : ℕ → ℕ → W,
      (k ≤ 1 → weight = G.dp) ∧
      (1 < k → ∃ core, (∀ p < I.n, IsCore G.dp I.n k p (core p)) ∧ weight = mutualReach G.dp core) ∧
      (mstK G k I schedB ordP sc fuel iters = .running ∨
        ∃ E, mstK G k I schedB ordP sc fuel iters = .ok E ∧ IsMst I.n weight E) ∧
      ((∀ it, (sc it).Fair I.n) → I.n ≤ 2 ^ iters → mstK G k I schedB ordP sc fuel iters ≠ .running) := by
  by_cases hk : 1 < k
  · obtain ⟨core, hcore, hcfin, e⟩ := mstK_core G k hk I hI hn hval hbox hfin hcap schedB hf ordP sc fuel hfuel iters
    rw [e]
    refine ⟨mutualReach G.dp core, fun h => by omega, fun _ => ⟨core, hcore, rfl⟩, ?_⟩
    exact mst_correct_partial (G.points (some core)) I hI hn hbig hval hbox (fun p q => le_max_right _ _)
      (fun p q => (mutual_reachability G core).2.1 hsymm p q)
      (fun p hp q hq _ => max_lt (max_lt (hcfin p hp) (hcfin q hq)) (hfin p hp q hq)) hcap schedB hf ordP hoP sc hsc
      fuel hfuel iters
  · unfold mstK
    rw [if_neg hk]
    refine ⟨G.dp, fun _ => rfl, fun h => absurd h hk, ?_⟩
    exact mst_correct_partial (G.points none) I hI hn hbig hval hbox (fun p q => le_rfl) hsymm
      (fun p hp q hq _ => hfin p hp q hq) hcap schedB hf ordP hoP sc hsc fuel hfuel iters

/-! ## Non-vacuity -/

open Traversal (exampleInput exampleInput_valid)

/-- The five values of the example as numbers on a line. -/
def exampleGeo (shared : Bool) : Geo (Finset ℕ) (WithTop ℕ) where
  dp := fun p q => ((p - q + (q - p) : ℕ) : WithTop ℕ)
  dv := fun p v => v.inf (fun q => ((p - q + (q - p) : ℕ) : WithTop ℕ))
  shared := shared

example (b : Bool) : ∃ schedB ordP sc fuel iters E weight,
    mstK (exampleGeo b) 3 exampleInput schedB ordP sc fuel iters = .ok E ∧ IsMst 5 weight E := by
  obtain ⟨schedB, hB⟩ := Construction.exists_complete exampleInput.params (exampleInput_valid.keys (by decide))
  obtain ⟨sc, h1, h2⟩ := exists_sched exampleInput.n
  obtain ⟨weight, -, -, h, h'⟩ := mst_k_correct_partial (exampleGeo b) 3 exampleInput exampleInput_valid (by decide) (by decide)
    (fun _ _ => rfl) (fun p q v h => Finset.inf_le
      (show q ∈ v from (show ({q} : Finset ℕ) ⊆ v from h) (Finset.mem_singleton_self q)))
    (fun p q => by simp only [exampleGeo]; rw [Nat.add_comm])
    (fun p _ q _ => WithTop.coe_lt_top _)
    (mst_height_partial exampleInput exampleInput_valid (by decide) (.inl (by decide))) schedB (fun _ => hB)
    (List.range (2 * exampleInput.n - 2)) (List.Perm.refl _) (fun _ => sc) (fun _ => h1) (2 * exampleInput.n) le_rfl 4
  rcases h with h | ⟨E, h, hE⟩
  · exact absurd h (h' (fun _ => h2) (by decide))
  · exact ⟨_, _, _, _, _, E, weight, h, hE⟩

/-- Point 0 of the example: with itself, points 1 and 2 within distance 2. -/
example : IsCore (exampleGeo true).dp 5 3 0 2 := by
  refine ⟨by decide, ?_⟩
  intro r' hr'
  obtain ⟨m, rfl⟩ := WithTop.ne_top_iff_exists.mp (ne_top_of_lt hr')
  have : m < 2 := WithTop.coe_lt_coe.mp hr'
  interval_cases m <;> decide

end ArborX.Boruvka
