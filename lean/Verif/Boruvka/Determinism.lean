import Verif.Boruvka.Core
import Mathlib.Data.Sym.Sym2

/-!
# Property theorems: the minimum spanning tree does not depend on the schedule (C82)
-/

namespace ArborX.Graph

variable {κ : Type} [LinearOrder κ]

/-- Every edge of a light tree is in every other light tree. -/
lemma light_edge_mem {n : ℕ} {key : ℕ × ℕ → κ} (hk : EdgeKey key) {S T : List (ℕ × ℕ)}
    (hS : ∀ e ∈ S, e.1 < n ∧ e.2 < n ∧ LightEdge n key e) (hT : SpanningTree n T)
    (hl : ∀ e ∈ T, LightEdge n key e) {e : ℕ × ℕ} (he : e ∈ S) : ∃ f ∈ T, s(f.1, f.2) = s(e.1, e.2) := by
  obtain ⟨h1, h2, C, c1, c2, c3⟩ := hS e he
  have hc := light_conn hk hT.range hT.connects hl h1 h2
  by_contra hno
  push Not at hno
  refine c2 ((Conn.invariant (C := C) (fun f hf => ?_) hc).mp c1)
  obtain ⟨f1, f2⟩ := List.mem_filter.mp hf
  have f2 : key f ≤ key e := of_decide_eq_true f2
  obtain ⟨r1, r2⟩ := hT.range f f1
  have hne := hno f f1
  constructor
  · intro a
    by_contra b
    rcases hk.inj _ _ _ _ (le_antisymm f2 (c3 _ r1 _ r2 a b)) with ⟨x, y⟩ | ⟨x, y⟩
    · exact hne (by rw [x, y])
    · exact hne (by rw [x, y]; exact Sym2.eq_swap)
  · intro b
    by_contra a
    have h := c3 _ r2 _ r1 b a
    rw [hk.symm f.2 f.1] at h
    rcases hk.inj _ _ _ _ (le_antisymm f2 h) with ⟨x, y⟩ | ⟨x, y⟩
    · exact hne (by rw [x, y])
    · exact hne (by rw [x, y]; exact Sym2.eq_swap)

/-- No two edges of a spanning tree join the same vertices. -/
lemma SpanningTree.nodup {n : ℕ} {E : List (ℕ × ℕ)} (h : SpanningTree n E) : (E.map (fun e => s(e.1, e.2))).Nodup := by
  rw [List.Nodup, List.pairwise_map]
  by_contra hno
  have : ∃ A e B f C, E = A ++ e :: (B ++ f :: C) ∧ s(e.1, e.2) = s(f.1, f.2) := by
    clear h
    induction E with
    | nil => exact absurd List.Pairwise.nil hno
    | cons a E ih =>
      by_cases hE : List.Pairwise (fun x y => s(x.1, x.2) ≠ s(y.1, y.2)) E
      · rw [List.pairwise_cons] at hno
        push Not at hno
        have : ∃ b ∈ E, s(a.1, a.2) = s(b.1, b.2) := by
          by_contra hx
          push Not at hx
          exact hno hx hE
        obtain ⟨b, hb, e⟩ := this
        obtain ⟨B, C, rfl⟩ := List.append_of_mem hb
        exact ⟨[], a, B, b, C, rfl, e⟩
      · obtain ⟨A, e, B, f, C, h1, h2⟩ := ih hE
        exact ⟨a :: A, e, B, f, C, by rw [h1]; rfl, h2⟩
  obtain ⟨A, e, B, f, C, rfl, he⟩ := this
  refine h.bridge ?_
  have hf : Conn (A ++ (B ++ f :: C)) f.1 f.2 := Conn.edge (by simp)
  rcases Sym2.eq_iff.mp he with ⟨a, b⟩ | ⟨a, b⟩
  · rw [a, b]; exact hf
  · rw [a, b]; exact hf.symm

end ArborX.Graph

namespace ArborX.Boruvka

open Mst (WeightedEdge IsMst IsCore mutualReach)
open BVH (Input)
open Graph (SpanningTree LightEdge)

variable {V W : Type} [LinearOrder W] [BoundedOrder W] [SemilatticeSup V] [OrderBot V] {w : ℕ}

/-- Specification. An edge of the result without its direction: its two ends and its weight. -/
def undirected (e : WeightedEdge W) : Sym2 ℕ × W := (s(e.source, e.target), e.weight)

omit [SemilatticeSup V] [OrderBot V] in
/-- The light edges are those of the other weights. -/
lemma light_congr {P P' : Points V W} {value : ℕ → ℕ} {n : ℕ}
    (heq : ∀ i < n, ∀ j < n, P.weight (value i) (value j) = P'.weight (value i) (value j)) {e : ℕ × ℕ}
    (h1 : e.1 < n) (h2 : e.2 < n) (h : LightEdge n (ekey P value) e) : LightEdge n (ekey P' value) e := by
  obtain ⟨C, c1, c2, c3⟩ := h
  refine ⟨C, c1, c2, fun a ha b hb ca cb => ?_⟩
  have := c3 a ha b hb ca cb
  unfold ekey at this ⊢
  rwa [heq _ h1 _ h2, heq a ha b hb] at this

omit [SemilatticeSup V] [OrderBot V] in
lemma same_edges {P P' : Points V W} (I : Input ℕ V w) (hI : I.Valid) (hn : 0 < I.n) (hval : ∀ p < I.n, I.values p = p)
    (hset : Setting P (fun i => I.values (I.perm i)) I.n)
    (heq : ∀ p < I.n, ∀ q < I.n, P.weight p q = P'.weight p q) {s s' : State W}
    (h : IterInv P (fun i => I.values (I.perm i)) I.n s) (h1 : numReps I.n s.lab ≤ 1)
    (h' : IterInv P' (fun i => I.values (I.perm i)) I.n s') (h1' : numReps I.n s'.lab ≤ 1) :
    ((s.edges.map (fun e => (⟨I.values (I.perm e.source), I.values (I.perm e.target), e.weight⟩ : WeightedEdge W))).map
      undirected).Perm
    ((s'.edges.map (fun e => (⟨I.values (I.perm e.source), I.values (I.perm e.target), e.weight⟩ : WeightedEdge W))).map
      undirected) := by
  obtain ⟨inv, -, hi2⟩ := exists_inverse I hI hval
  have heq' : ∀ i < I.n, ∀ j < I.n, P'.weight (I.values (I.perm i)) (I.values (I.perm j))
      = P.weight (I.values (I.perm i)) (I.values (I.perm j)) :=
    fun i hi j hj => (heq _ (hi2 i hi).1 _ (hi2 j hj).1).symm
  have ht := h.tree hn h1
  have ht' := h'.tree hn h1'
  have hk := ekey_edgeKey (P := P) (value := fun i => I.values (I.perm i)) hset.symm
  have light : ∀ e ∈ pairs s.edges, LightEdge I.n (ekey P (fun i => I.values (I.perm i))) e := by
    intro e he
    obtain ⟨f, hf, rfl⟩ := List.mem_map.mp he
    exact (h.edge f hf).2.2.2.2
  have light' : ∀ e ∈ pairs s'.edges, LightEdge I.n (ekey P (fun i => I.values (I.perm i))) e := by
    intro e he
    obtain ⟨f, hf, rfl⟩ := List.mem_map.mp he
    obtain ⟨f1, f2, -, -, f5⟩ := h'.edge f hf
    exact light_congr heq' f1 f2 f5
  -- the edges between leaves, with their weights
  set g : Sym2 ℕ × W → Sym2 ℕ × W := fun e => (e.1.map (fun i => I.values (I.perm i)), e.2) with hg
  have hmap : ∀ E : List (WeightedEdge W), (E.map (fun e =>
      (⟨I.values (I.perm e.source), I.values (I.perm e.target), e.weight⟩ : WeightedEdge W))).map undirected
      = (E.map undirected).map g := by
    intro E
    rw [List.map_map, List.map_map]
    rfl
  rw [hmap, hmap]
  refine List.Perm.map g ?_
  have nd : ∀ E : List (WeightedEdge W), SpanningTree I.n (pairs E) → (E.map undirected).Nodup := by
    intro E hE
    have := hE.nodup
    unfold pairs at this
    rw [List.map_map] at this
    have e : (E.map undirected).map Prod.fst = E.map ((fun e : ℕ × ℕ => s(e.1, e.2)) ∘ fun e => (e.source, e.target)) := by
      rw [List.map_map]; rfl
    rw [← e] at this
    exact List.Nodup.of_map _ this
  rw [List.perm_ext_iff_of_nodup (nd _ ht) (nd _ ht')]
  intro x
  constructor
  · intro hx
    obtain ⟨e, he, rfl⟩ := List.mem_map.mp hx
    obtain ⟨e1, e2, -, e4, -⟩ := h.edge e he
    obtain ⟨f, hf, hfe⟩ := Graph.light_edge_mem hk
      (fun e he => ⟨(ht.range e he).1, (ht.range e he).2, light e he⟩) ht' light'
      (e := (e.source, e.target)) (List.mem_map.mpr ⟨e, he, rfl⟩)
    obtain ⟨f', hf', rfl⟩ := List.mem_map.mp hf
    refine List.mem_map.mpr ⟨f', hf', Prod.ext hfe ?_⟩
    change f'.weight = e.weight
    obtain ⟨k1, k2, -, k4, -⟩ := h'.edge f' hf'
    rw [k4, e4, heq' _ k1 _ k2]
    dsimp only at hfe
    rcases Sym2.eq_iff.mp hfe with ⟨a, b⟩ | ⟨a, b⟩
    · rw [a, b]
    · rw [a, b, hset.symm]
  · intro hx
    obtain ⟨e, he, rfl⟩ := List.mem_map.mp hx
    obtain ⟨e1, e2, -, e4, -⟩ := h'.edge e he
    obtain ⟨f, hf, hfe⟩ := Graph.light_edge_mem hk
      (fun e he => ⟨(ht'.range e he).1, (ht'.range e he).2, light' e he⟩) ht light
      (e := (e.source, e.target)) (List.mem_map.mpr ⟨e, he, rfl⟩)
    obtain ⟨f', hf', rfl⟩ := List.mem_map.mp hf
    refine List.mem_map.mpr ⟨f', hf', Prod.ext hfe ?_⟩
    change f'.weight = e.weight
    obtain ⟨k1, k2, -, k4, -⟩ := h.edge f' hf'
    rw [k4, e4, heq' _ e1 _ e2]
    dsimp only at hfe
    rcases Sym2.eq_iff.mp hfe with ⟨a, b⟩ | ⟨a, b⟩
    · rw [a, b]
    · rw [a, b, hset.symm]

/-! ## Property theorems -/

/-- **C82 (partial).** Two executions of `MinimumSpanningTree` on the same points and tree, under
any two schedules of all kernels and any values returned by racing loads, one or both of them with
shared radii and lower bounds (execution space `Serial`), return the same edges with the same weights, up to
their order and directions, even if several spanning trees are minimal.

Partial: as for C22. -/
theorem mst_deterministic_partial (P P' : Points V W) (I : Input ℕ V w) (hI : I.Valid) (hn : 2 ≤ I.n)
    (hbig : I.n ≤ 2 ^ 31) (hval : ∀ p < I.n, I.values p = p)
    (heq : ∀ p < I.n, ∀ q < I.n, P.weight p q = P'.weight p q)
    (hbox : ∀ p q v, I.vol q ≤ v → P.dv p v ≤ P.dp p q) (hbox' : ∀ p q v, I.vol q ≤ v → P'.dv p v ≤ P'.dp p q)
    (hmetric : ∀ p q, P.dp p q ≤ P.weight p q) (hmetric' : ∀ p q, P'.dp p q ≤ P'.weight p q)
    (hsymm : ∀ p q, P.weight p q = P.weight q p) (hsymm' : ∀ p q, P'.weight p q = P'.weight q p)
    (hfin : ∀ p < I.n, ∀ q < I.n, p ≠ q → P.weight p q < ⊤)
    (hcap : Nearest.StackFits I P.cap) (hcap' : Nearest.StackFits I P'.cap)
    (schedB schedB' : List ℕ) (hf : I.Finished schedB) (hf' : I.Finished schedB')
    (ordP ordP' : List ℕ) (hoP : ordP.Perm (List.range (2 * I.n - 2))) (hoP' : ordP'.Perm (List.range (2 * I.n - 2)))
    (sc sc' : ℕ → Sched) (hsc : ∀ it, (sc it).Valid I.n) (hsc' : ∀ it, (sc' it).Valid I.n)
    (fuel fuel' : ℕ) (hfuel : 2 * I.n ≤ fuel) (hfuel' : 2 * I.n ≤ fuel') (iters iters' : ℕ)
    (E E' : List (WeightedEdge W)) (hE : mst P I schedB ordP sc fuel iters = .ok E)
    (hE' : mst P' I schedB' ordP' sc' fuel' iters' = .ok E') :
    (E.map undirected).Perm (E'.map undirected) := by
  rcases mst_run P I hI hn hbig hval hbox hmetric hsymm hfin hcap schedB hf ordP hoP sc hsc fuel hfuel iters with
    ⟨e, -⟩ | ⟨s, e, h, h1⟩
  · rw [hE] at e; cases e
  rcases mst_run P' I hI hn hbig hval hbox' hmetric' hsymm'
      (fun p hp q hq hne => by rw [← heq p hp q hq]; exact hfin p hp q hq hne) hcap' schedB' hf' ordP' hoP' sc' hsc'
      fuel' hfuel' iters' with ⟨e', -⟩ | ⟨s', e', h', h1'⟩
  · rw [hE'] at e'; cases e'
  rw [hE] at e
  rw [hE'] at e'
  cases e
  cases e'
  exact same_edges I hI (by omega) hval ⟨hbig, hsymm⟩ heq h h1 h' h1'

/-- **C82 (core distances, partial).** The same for the constructor of `MinimumSpanningTree` with
any `k`: with mutual reachability distances, ties are the rule and several trees are minimal. -/
theorem mst_k_deterministic_partial (G G' : Geo V W) (hdp : G'.dp = G.dp) (k : ℕ) (I : Input ℕ V w) (hI : I.Valid)
    (hn : 2 ≤ I.n) (hbig : I.n ≤ 2 ^ 31) (hval : ∀ p < I.n, I.values p = p)
    (hbox : ∀ p q v, I.vol q ≤ v → G.dv p v ≤ G.dp p q) (hbox' : ∀ p q v, I.vol q ≤ v → G'.dv p v ≤ G'.dp p q)
    (hsymm : ∀ p q, G.dp p q = G.dp q p) (hfin : ∀ p < I.n, ∀ q < I.n, G.dp p q < ⊤)
    (hcap : Nearest.StackFits I 64)
    (schedB schedB' : List ℕ) (hf : I.Finished schedB) (hf' : I.Finished schedB')
    (ordP ordP' : List ℕ) (hoP : ordP.Perm (List.range (2 * I.n - 2))) (hoP' : ordP'.Perm (List.range (2 * I.n - 2)))
    (sc sc' : ℕ → Sched) (hsc : ∀ it, (sc it).Valid I.n) (hsc' : ∀ it, (sc' it).Valid I.n)
    (fuel fuel' : ℕ) (hfuel : 2 * I.n ≤ fuel) (hfuel' : 2 * I.n ≤ fuel') (iters iters' : ℕ)
    (E E' : List (WeightedEdge W)) (hE : mstK G k I schedB ordP sc fuel iters = .ok E)
    (hE' : mstK G' k I schedB' ordP' sc' fuel' iters' = .ok E') :
    (E.map undirected).Perm (E'.map undirected) := by
  by_cases hk : 1 < k
  · obtain ⟨core, c1, c2, c3⟩ := mstK_core G k hk I hI hn hval hbox hfin hcap schedB hf ordP sc fuel hfuel iters
    obtain ⟨core', d1, d2, d3⟩ := mstK_core G' k hk I hI hn hval hbox' (by rw [hdp]; exact hfin) hcap schedB' hf' ordP' sc'
      fuel' hfuel' iters'
    rw [c3] at hE
    rw [d3] at hE'
    rw [hdp] at d1
    have hcore : ∀ p < I.n, core p = core' p := fun p hp => core_unique (c1 p hp) (d1 p hp)
    refine mst_deterministic_partial (G.points (some core)) (G'.points (some core')) I hI hn hbig hval ?_ hbox hbox'
      (fun p q => le_max_right _ _) (fun p q => le_max_right _ _)
      (fun p q => (mutual_reachability G core).2.1 hsymm p q)
      (fun p q => (mutual_reachability G' core').2.1 (by rw [hdp]; exact hsymm) p q)
      (fun p hp q hq _ => max_lt (max_lt (c2 p hp) (c2 q hq)) (hfin p hp q hq)) hcap hcap schedB schedB' hf hf' ordP ordP'
      hoP hoP' sc sc' hsc hsc' fuel fuel' hfuel hfuel' iters iters' E E' hE hE'
    intro p hp q hq
    change max (max (core p) (core q)) (G.dp p q) = max (max (core' p) (core' q)) (G'.dp p q)
    rw [hcore p hp, hcore q hq, hdp]
  · unfold mstK at hE hE'
    rw [if_neg hk] at hE hE'
    refine mst_deterministic_partial (G.points none) (G'.points none) I hI hn hbig hval ?_ hbox hbox'
      (fun p q => le_rfl) (fun p q => le_rfl) hsymm (by intro p q; change G'.dp p q = G'.dp q p; rw [hdp]; exact hsymm p q)
      (fun p hp q hq _ => hfin p hp q hq) hcap hcap schedB schedB' hf hf' ordP ordP'
      hoP hoP' sc sc' hsc hsc' fuel fuel' hfuel hfuel' iters iters' E E' hE hE'
    intro p _ q _
    change G.dp p q = G'.dp p q
    rw [hdp]

/-! ## Non-vacuity -/

open Traversal (exampleInput exampleInput_valid)

/-- The example of C46 with and without shared radii: with `k = 3` many of its edges have equal
weights. -/
example : ∃ schedB ordP sc fuel iters E E',
    mstK (exampleGeo true) 3 exampleInput schedB ordP sc fuel iters = .ok E ∧
    mstK (exampleGeo false) 3 exampleInput schedB ordP sc fuel iters = .ok E' ∧
    (E.map undirected).Perm (E'.map undirected) ∧ E.length = 4 := by
  obtain ⟨schedB, hB⟩ := Construction.exists_complete exampleInput.params (exampleInput_valid.keys (by decide))
  obtain ⟨sc, h1, h2⟩ := exists_sched exampleInput.n
  have cap := mst_height_partial exampleInput exampleInput_valid (by decide) (.inl (by decide))
  have hbox : ∀ (b : Bool) (p q : ℕ) (v : Finset ℕ), exampleInput.vol q ≤ v → (exampleGeo b).dv p v ≤ (exampleGeo b).dp p q :=
    fun b p q v h => Finset.inf_le (show q ∈ v from (show ({q} : Finset ℕ) ⊆ v from h) (Finset.mem_singleton_self q))
  have hsymm : ∀ p q, (exampleGeo true).dp p q = (exampleGeo true).dp q p := fun p q => by
    simp only [exampleGeo]; rw [Nat.add_comm]
  have run : ∀ b, ∃ E, mstK (exampleGeo b) 3 exampleInput schedB (List.range (2 * exampleInput.n - 2)) (fun _ => sc)
      (2 * exampleInput.n) 3 = .ok E ∧ E.length + 1 = exampleInput.n := by
    intro b
    obtain ⟨weight, -, -, h, h'⟩ := mst_k_correct_partial (exampleGeo b) 3 exampleInput exampleInput_valid (by decide)
      (by decide) (fun _ _ => rfl) (hbox b) (fun p q => hsymm p q) (fun p _ q _ => WithTop.coe_lt_top _) cap schedB
      (fun _ => hB) (List.range (2 * exampleInput.n - 2)) (List.Perm.refl _) (fun _ => sc) (fun _ => h1)
      (2 * exampleInput.n) le_rfl 3
    rcases h with h | ⟨E, h, hE⟩
    · exact absurd h (h' (fun _ => h2) (by decide))
    · exact ⟨E, h, by have := hE.tree.length; rwa [List.length_map] at this⟩
  obtain ⟨E, e1, e2⟩ := run true
  obtain ⟨E', e1', -⟩ := run false
  refine ⟨schedB, _, _, _, _, E, E', e1, e1', ?_, by have : exampleInput.n = 5 := rfl; omega⟩
  exact mst_k_deterministic_partial (exampleGeo true) (exampleGeo false) rfl 3 exampleInput exampleInput_valid (by decide)
    (by decide) (fun _ _ => rfl) (hbox true) (hbox false) hsymm (fun p _ q _ => WithTop.coe_lt_top _) cap schedB schedB
    (fun _ => hB) (fun _ => hB) _ _ (List.Perm.refl _) (List.Perm.refl _) _ _ (fun _ => h1) (fun _ => h1) _ _ le_rfl le_rfl
    _ _ E E' e1 e1'

end ArborX.Boruvka
