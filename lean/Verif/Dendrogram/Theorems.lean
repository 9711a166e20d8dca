import Verif.Dendrogram.Lemmas
import Verif.Perm.Theorems

/-!
# Property theorems: dendrogram (C23)
-/

namespace ArborX.Dendrogram

open Function (update)
open Graph Perm
open Mst (WeightedEdge)

variable {W : Type} [LinearOrder W]

/-- Specification. The ends of the input edges. -/
def ends (edges : ℕ → WeightedEdge W) (e : ℕ) : ℕ × ℕ := ((edges e).source, (edges e).target)

/-- Specification. Node `a` is `x` or lies above `x`: `par` leads from `x` to `a`. -/
inductive Above (par : ℕ → Option ℤ) (a : ℕ) : ℕ → Prop
  | refl : Above par a a
  | step {x y : ℕ} (h : par x = some (y : ℤ)) (t : Above par a y) : Above par a x

/-- What the dendrogram of the sorted edges `edge 0, ..., edge (m - 1)` is. -/
structure Correct (m : ℕ) (edge : ℕ → ℕ × ℕ) (par : ℕ → Option ℤ) : Prop where
  /-- the last edge is the root -/
  root : par (m - 1) = some (-1)
  /-- the parent of any other edge is the next edge that touches its cluster -/
  inner : ∀ c < m - 1, ∃ e < m, par c = some (e : ℤ) ∧ c < e ∧ Joins edge e c ∧
    ∀ f, c < f → f < e → ¬ Joins edge f c
  /-- the parent of a vertex is the first edge at the vertex -/
  vertex : ∀ v ≤ m, ∃ e < m, par (m + v) = some (e : ℤ) ∧ Incident edge e v ∧ ∀ f < e, ¬ Incident edge f v
  /-- every edge is the parent of exactly two nodes -/
  binary : ∀ e < m, ∃ a b, a ≠ b ∧ ∀ x, par x = some (e : ℤ) ↔ x = a ∨ x = b

lemma host_correct {m : ℕ} (hm : 0 < m) {edge : ℕ → ℕ × ℕ} (h : SpanningTree (m + 1) (firstEdges edge m)) :
    ∃ par, unionFindHost m edge = some par ∧ Correct m edge par := by
  obtain ⟨s, e, I⟩ := inv_loop h m le_rfl
  have rg : ∀ e < m, (edge e).1 < m + 1 ∧ (edge e).2 < m + 1 := fun e he =>
    h.range (edge e) (mem_firstEdges.mpr ⟨e, he, rfl⟩)
  refine ⟨update s.par (m - 1) (some (-1)), ?_, ?_⟩
  · unfold unionFindHost
    rw [if_neg (by omega), e]; rfl
  refine ⟨Function.update_self _ _ _, ?_, ?_, ?_⟩
  · intro c hc
    rw [Function.update_of_ne (by omega)]
    cases hp : s.par c with
    | none =>
      exfalso
      have h1 := I.edgeNone c (by omega) hp
      have hc1 := (rg c (by omega)).1
      have hr1 := UF.root_mem I.dec hc1
      obtain ⟨-, -, h4, -⟩ := I.setSome _ hr1 (UF.root_of_fix (UF.root_fixed I.dec hc1)) c h1
      have hm1 := (rg (m - 1) (by omega)).1
      have := h4 (m - 1) (by omega) ((I.conn _ hm1 _ hc1).mpr (h.connects _ hm1 _ hc1))
      omega
    | some z =>
      obtain ⟨e, z1, z2, z3⟩ := I.edgeSome c (by omega) z hp
      exact ⟨e, z2, by rw [z1], z3⟩
  · intro v hv
    rw [Function.update_of_ne (by omega)]
    cases hp : s.par (m + v) with
    | none =>
      exfalso
      have h1 := I.vertexNone v (by omega) hp
      have a := isolated h1 (h.connects 0 (by omega) v (by omega))
      have b := isolated h1 (h.connects 1 (by omega) v (by omega))
      omega
    | some z =>
      obtain ⟨e, z1, z2, z3⟩ := I.vertex v (by omega) z hp
      exact ⟨e, z2, by rw [z1], z3⟩
  · intro e he
    obtain ⟨a, b, hab, hx⟩ := I.kids e he
    refine ⟨a, b, hab, fun x => ?_⟩
    rw [← hx]
    by_cases hxm : x = m - 1
    · subst hxm
      rw [Function.update_self]
      constructor
      · intro hh
        have : (-1 : ℤ) = e := Option.some.inj hh
        omega
      · intro hh
        obtain ⟨e', z1, z2, z3, -⟩ := I.edgeSome (m - 1) (by omega) _ hh
        omega
    · rw [Function.update_of_ne hxm]

/-- The vertices below an edge are the cluster of the edge. -/
lemma Correct.above_iff {m : ℕ} {edge : ℕ → ℕ × ℕ} {par : ℕ → Option ℤ} (h : Correct m edge par)
    {e v : ℕ} (he : e < m) (hv : v ≤ m) :
    Above par e (m + v) ↔ Conn (firstEdges edge (e + 1)) v (edge e).1 := by
  have inc : ∀ {e0 v}, Incident edge e0 v → Conn (firstEdges edge (e0 + 1)) v (edge e0).1 := by
    rintro e0 v (rfl | rfl)
    · exact Conn.refl _ _
    · exact (conn_edge (Nat.lt_succ_self _)).symm
  have joi : ∀ {e' c}, Joins edge e' c → Conn (firstEdges edge (e' + 1)) (edge c).1 (edge e').1 := by
    rintro e' c (hj | hj)
    · exact conn_first_mono (by omega) hj
    · exact (conn_first_mono (by omega) hj).trans (conn_edge (Nat.lt_succ_self _)).symm
  constructor
  · intro ha
    have key : ∀ x, Above par e x → x < m → ∀ u, Conn (firstEdges edge (x + 1)) u (edge x).1 →
        Conn (firstEdges edge (e + 1)) u (edge e).1 := by
      intro x hx
      induction hx with
      | refl => intro _ u hu; exact hu
      | step hp t ih =>
        rename_i x y
        intro hxm u hu
        by_cases hx1 : x = m - 1
        · subst hx1
          rw [h.root] at hp
          have : (-1 : ℤ) = y := Option.some.inj hp
          omega
        · obtain ⟨e', e1, e2, e3, e4, -⟩ := h.inner x (by omega)
          rw [e2] at hp
          have : (e' : ℤ) = y := Option.some.inj hp
          have : e' = y := by omega
          subst this
          exact ih e1 u ((conn_first_mono (by omega) hu).trans (joi e4))
    cases ha with
    | refl => omega
    | step hp t =>
      rename_i y
      obtain ⟨e0, e1, e2, e3, -⟩ := h.vertex v hv
      rw [e2] at hp
      have : (e0 : ℤ) = y := Option.some.inj hp
      have : e0 = y := by omega
      subst this
      exact key e0 t e1 v (inc e3)
  · intro hc
    have key : ∀ k c, e - c ≤ k → c ≤ e → Conn (firstEdges edge (e + 1)) (edge c).1 (edge e).1 → Above par e c := by
      intro k
      induction k with
      | zero => intro c h1 h2 _; have : c = e := by omega
                subst this; exact .refl
      | succ k ih =>
        intro c h1 h2 hcc
        by_cases hce : c = e
        · subst hce; exact .refl
        · obtain ⟨e', e1, e2, e3, e4, e5⟩ := h.inner c (by omega)
          have hle : e' ≤ e := by
            by_contra hlt
            have stay : ∀ g, c + 1 ≤ g → g ≤ e + 1 → ∀ x, Conn (firstEdges edge g) (edge c).1 x →
                Conn (firstEdges edge (c + 1)) (edge c).1 x := by
              intro g hg
              induction g, hg using Nat.le_induction with
              | base => intro _ x hx; exact hx
              | succ g hg ihg =>
                intro hg2 x hx
                rcases conn_first_succ.mp hx with hx | ⟨hx, -⟩ | ⟨hx, -⟩
                · exact ihg (by omega) x hx
                · exact absurd (Or.inl hx) (e5 g (by omega) (by omega))
                · exact absurd (Or.inr hx) (e5 g (by omega) (by omega))
            have := stay (e + 1) (by omega) le_rfl _ hcc
            exact e5 e (by omega) (by omega) (.inl (conn_first_mono (by omega) this))
          refine .step e2 (ih e' (by omega) hle ?_)
          exact (conn_first_mono (by omega) (joi e4).symm).trans hcc
    obtain ⟨e0, e1, e2, e3, e4⟩ := h.vertex v hv
    have hle : e0 ≤ e := by
      by_contra hlt
      have hno : ∀ f < e + 1, ¬ Incident edge f v := fun f hf => e4 f (by omega)
      have := isolated hno hc.symm
      exact hno e (by omega) (.inl this)
    refine .step e2 (key _ e0 le_rfl hle ?_)
    exact (conn_first_mono (by omega) (inc e3).symm).trans hc

omit [LinearOrder W] in
lemma sortByKey_eq [DecidableEq W] {T : Type} (n : ℕ) (key : ℕ → W) (val : ℕ → T) (σ : ℕ → ℕ) :
    sortByKey n key val σ = ((sortObjects n key σ).1, fun i => val ((sortObjects n key σ).2 i)) := by
  unfold sortObjects sortByKey
  split_ifs <;> rfl

omit [LinearOrder W] in
lemma mem_sorted {m : ℕ} {τ : ℕ → ℕ} (hτ : IsPerm m τ) (edges : ℕ → WeightedEdge W) :
    (firstEdges (fun e => ends edges (τ e)) m).Perm ((List.range m).map (ends edges)) := by
  have := hτ.map (ends edges)
  rw [List.map_map] at this
  exact this

lemma spanning_perm {n : ℕ} {E E' : List (ℕ × ℕ)} (h : SpanningTree n E) (p : E'.Perm E) : SpanningTree n E' where
  range := fun e he => h.range e (p.subset he)
  length := by rw [p.length_eq]; exact h.length
  connects := fun u hu v hv => (h.connects u hu v hv).mono (fun _ he => p.symm.subset he)

variable {m : ℕ} {edges : ℕ → WeightedEdge W} {σ : ℕ → ℕ}

/-- **C23.** Given the edges of a spanning tree with at least one edge, in any order and with any
weights, the dendrogram is built without an access out of bounds. Its nodes `0 .. m-1` are the
edges in ascending order of their weights, the nodes `m .. 2m` are the vertices. The last edge is
the root; the parent of every other edge is the next larger edge that touches its cluster; the
parent of a vertex is its smallest edge; every edge is the parent of exactly two nodes; the height
of a parent is at least the height of its child. -/
theorem dendrogram_correct (hm : 0 < m) (hT : SpanningTree (m + 1) ((List.range m).map (ends edges)))
    (hσ : IsSort m (fun e => (edges e).weight) σ) :
    ∃ par heights τ, dendrogram m edges σ = some (par, heights) ∧ IsPerm m τ ∧
      (∀ e < m, heights e = (edges (τ e)).weight) ∧ (∀ e f, e ≤ f → f < m → heights e ≤ heights f) ∧
      Correct m (fun e => ends edges (τ e)) par ∧
      (∀ c < m - 1, ∃ e < m, par c = some (e : ℤ) ∧ heights c ≤ heights e) := by
  obtain ⟨h1, h2, h3⟩ := sortObjects_correct m (fun e => (edges e).weight) σ hσ
  have hT' := spanning_perm hT (mem_sorted h1 edges)
  obtain ⟨par, e, hc⟩ := host_correct hm hT'
  refine ⟨par, _, (sortObjects m (fun e => (edges e).weight) σ).2, ?_, h1, h2, h3, hc, ?_⟩
  · unfold dendrogram
    rw [sortByKey_eq]
    dsimp only
    exact congrArg _ e
  · intro c hcm
    obtain ⟨e, e1, e2, e3, -⟩ := hc.inner c hcm
    exact ⟨e, e1, e2, h3 c e e3.le e1⟩

/-- **C23 (single linkage).** Two different vertices are joined by edges of weight at most `h`
exactly if some edge of height at most `h` lies above both of them in the dendrogram. -/
theorem dendrogram_single_linkage (hm : 0 < m) (hT : SpanningTree (m + 1) ((List.range m).map (ends edges)))
    (hσ : IsSort m (fun e => (edges e).weight) σ) :
    ∃ par heights, dendrogram m edges σ = some (par, heights) ∧
      ∀ u ≤ m, ∀ v ≤ m, u ≠ v → ∀ h : W,
        (Conn (((List.range m).filter (fun e => (edges e).weight ≤ h)).map (ends edges)) u v ↔
          ∃ e < m, heights e ≤ h ∧ Above par e (m + u) ∧ Above par e (m + v)) := by
  obtain ⟨par, heights, τ, hd, hτ, hh, hs, hc, -⟩ := dendrogram_correct hm hT hσ
  refine ⟨par, heights, hd, ?_⟩
  intro u hu v hv huv h
  have hmem : ∀ i < m, ∃ e < m, τ e = i := by
    intro i hi
    have : i ∈ (List.range m).map τ := hτ.symm.subset (List.mem_range.mpr hi)
    obtain ⟨e, he, rfl⟩ := List.mem_map.mp this
    exact ⟨e, List.mem_range.mp he, rfl⟩
  have hlt : ∀ e < m, τ e < m := fun e he =>
    List.mem_range.mp (hτ.subset (List.mem_map_of_mem (List.mem_range.mpr he)))
  constructor
  · intro c
    -- first prefix that joins the two vertices
    have hex : ∃ k, Conn (firstEdges (fun e => ends edges (τ e)) k) u v := by
      refine ⟨m, c.mono (fun p hp => ?_)⟩
      obtain ⟨i, hi, rfl⟩ := List.mem_map.mp hp
      have hi := (List.mem_filter.mp hi).1
      obtain ⟨e, he, rfl⟩ := hmem i (List.mem_range.mp hi)
      exact mem_firstEdges.mpr ⟨e, he, rfl⟩
    classical
    -- all edges of weight at most h lie in a prefix
    have hpre : ∃ K, K ≤ m ∧ (∀ e < K, heights e ≤ h) ∧ Conn (firstEdges (fun e => ends edges (τ e)) K) u v := by
      have : ∀ K, K ≤ m → (∀ e < m, K ≤ e → h < heights e) → ∃ K, K ≤ m ∧ (∀ e < K, heights e ≤ h) ∧
          (∀ e < m, K ≤ e → h < heights e) := by
        intro K
        induction K with
        | zero => intro _ h2; exact ⟨0, by omega, by simp, h2⟩
        | succ K ih =>
          intro h1 h2
          by_cases hK : heights K ≤ h
          · exact ⟨K + 1, h1, fun e he => (hs e K (by omega) (by omega)).trans hK, h2⟩
          · refine ih (by omega) (fun e he hKe => ?_)
            exact lt_of_lt_of_le (not_le.mp hK) (hs K e hKe he)
      obtain ⟨K, k1, k2, k3⟩ := this m le_rfl (fun e h1 h2 => by omega)
      refine ⟨K, k1, k2, c.mono (fun p hp => ?_)⟩
      obtain ⟨i, hi, rfl⟩ := List.mem_map.mp hp
      obtain ⟨hi, hw⟩ := List.mem_filter.mp hi
      obtain ⟨e, he, rfl⟩ := hmem i (List.mem_range.mp hi)
      refine mem_firstEdges.mpr ⟨e, ?_, rfl⟩
      by_contra hK
      have := k3 e he (by omega)
      rw [hh e he] at this
      exact absurd (of_decide_eq_true hw) (not_le.mpr this)
    obtain ⟨K, k1, k2, k3⟩ := hpre
    have hmin := Nat.find_spec hex
    have hleast := Nat.find_min' hex k3
    have hfm : ∀ j < Nat.find hex, ¬ Conn (firstEdges (fun e => ends edges (τ e)) j) u v :=
      fun j hj => Nat.find_min hex hj
    generalize Nat.find hex = k at hmin hleast hfm
    have hk0 : k ≠ 0 := by
      intro h0
      rw [h0] at hmin
      exact huv (Conn.nil hmin)
    obtain ⟨e, rfl⟩ : ∃ e, k = e + 1 := ⟨k - 1, by omega⟩
    have hnot : ¬ Conn (firstEdges (fun e => ends edges (τ e)) e) u v := hfm e (by omega)
    refine ⟨e, by omega, k2 e (by omega), ?_, ?_⟩
    · rw [hc.above_iff (by omega) hu]
      rcases conn_first_succ.mp hmin with h1 | ⟨h1, -⟩ | ⟨h1, -⟩
      · exact absurd h1 hnot
      · exact conn_first_mono (by omega) h1
      · exact (conn_first_mono (by omega) h1).trans
          (conn_edge (edge := fun e => ends edges (τ e)) (Nat.lt_succ_self e)).symm
    · rw [hc.above_iff (by omega) hv]
      rcases conn_first_succ.mp hmin with h1 | ⟨-, h1⟩ | ⟨-, h1⟩
      · exact absurd h1 hnot
      · exact (conn_first_mono (by omega) h1.symm).trans
          (conn_edge (edge := fun e => ends edges (τ e)) (Nat.lt_succ_self e)).symm
      · exact conn_first_mono (by omega) h1.symm
  · rintro ⟨e, he, hhe, hau, hav⟩
    have a := (hc.above_iff he hu).mp hau
    have b := (hc.above_iff he hv).mp hav
    refine (a.trans b.symm).mono (fun p hp => ?_)
    obtain ⟨f, hf, rfl⟩ := mem_firstEdges.mp hp
    refine List.mem_map.mpr ⟨τ f, List.mem_filter.mpr ⟨List.mem_range.mpr (hlt f (by omega)), ?_⟩, rfl⟩
    apply decide_eq_true
    rw [← hh f (by omega)]
    exact (hs f e (by omega) he).trans hhe

/-- **C23 (defect).** Without edges (a single vertex) the store of the root is out of bounds. -/
theorem dendrogram_no_edges (edges : ℕ → WeightedEdge W) (σ : ℕ → ℕ) : dendrogram 0 edges σ = none := rfl

/-! ## Non-vacuity: a path of four vertices with two equal weights -/

def exampleEdges : ℕ → WeightedEdge ℕ := fun e => [⟨0, 1, 5⟩, ⟨2, 1, 3⟩, ⟨2, 3, 5⟩].getD e ⟨0, 0, 0⟩

def exampleSort : ℕ → ℕ := fun e => [1, 0, 2].getD e 0

example : SpanningTree 4 ((List.range 3).map (ends exampleEdges)) where
  range := by decide
  length := rfl
  connects := by
    have e1 : Conn ((List.range 3).map (ends exampleEdges)) 0 1 := Conn.edge (by decide)
    have e2 : Conn ((List.range 3).map (ends exampleEdges)) 2 1 := Conn.edge (by decide)
    have e3 : Conn ((List.range 3).map (ends exampleEdges)) 2 3 := Conn.edge (by decide)
    have all : ∀ u < 4, Conn ((List.range 3).map (ends exampleEdges)) u 1 := by
      intro u hu
      have : u = 0 ∨ u = 1 ∨ u = 2 ∨ u = 3 := by omega
      rcases this with rfl | rfl | rfl | rfl
      · exact e1
      · exact Conn.refl _ _
      · exact e2
      · exact e3.symm.trans e2
    exact fun u hu v hv => (all u hu).trans (all v hv).symm

example : IsSort 3 (fun e => (exampleEdges e).weight) exampleSort := by
  constructor
  · decide
  · intro i hi
    have : i = 0 ∨ i = 1 := by omega
    rcases this with rfl | rfl <;> decide

end ArborX.Dendrogram
