import Verif.Graph.Basic
import Mathlib.Algebra.Order.Monoid.Unbundled.Basic
import Mathlib.Algebra.Order.Monoid.Defs
import Mathlib.Algebra.Order.BigOperators.Group.List
import Mathlib.Data.Finset.Max
import Mathlib.Data.Finset.Dedup

/-!
# Minimum spanning trees from light edges of cuts

Independent of the code: a spanning tree each of whose edges is the first edge of some cut has
minimum total weight among all connecting edge sets.
-/

namespace ArborX.Graph

variable {κ W : Type} [LinearOrder κ] [LinearOrder W]

/-- `key` orders the undirected edges without ties. -/
structure EdgeKey (key : ℕ × ℕ → κ) : Prop where
  symm : ∀ a b, key (a, b) = key (b, a)
  inj : ∀ a b c d, key (a, b) = key (c, d) → (a = c ∧ b = d) ∨ (a = d ∧ b = c)

/-- Edge `e` is the first edge of a cut of the complete graph on `n` vertices. -/
def LightEdge (n : ℕ) (key : ℕ × ℕ → κ) (e : ℕ × ℕ) : Prop :=
  ∃ C : ℕ → Prop, C e.1 ∧ ¬ C e.2 ∧ ∀ a < n, ∀ b < n, C a → ¬ C b → key e ≤ key (a, b)

lemma Conn.invariant {E : List (ℕ × ℕ)} {C : ℕ → Prop} (h : ∀ e ∈ E, C e.1 ↔ C e.2) {u v : ℕ} (c : Conn E u v) :
    C u ↔ C v :=
  Conn.min (R := fun a b => (C a ↔ C b)) ⟨fun _ => Iff.rfl, Iff.symm, Iff.trans⟩ h c

/-- No edge of key smaller than that of a light edge crosses its cut. -/
lemma LightEdge.below {n : ℕ} {key : ℕ × ℕ → κ} (hk : EdgeKey key) {e : ℕ × ℕ} (h : LightEdge n key e) :
    ∃ C : ℕ → Prop, C e.1 ∧ ¬ C e.2 ∧ ∀ a < n, ∀ b < n, key (a, b) < key e → (C a ↔ C b) := by
  obtain ⟨C, h1, h2, h3⟩ := h
  refine ⟨C, h1, h2, fun a ha b hb hlt => ?_⟩
  constructor
  · intro c
    by_contra c'
    exact absurd (h3 a ha b hb c c') (not_le.mpr hlt)
  · intro c
    by_contra c'
    have := h3 b hb a ha c c'
    rw [hk.symm b a] at this
    exact absurd this (not_le.mpr hlt)

/-- The edges of the tree up to any edge `(u, v)` of the graph already join `u` and `v`. -/
lemma light_conn {n : ℕ} {key : ℕ × ℕ → κ} (hk : EdgeKey key) {S : List (ℕ × ℕ)}
    (hr : ∀ e ∈ S, e.1 < n ∧ e.2 < n) (hc : Connects n S) (hl : ∀ e ∈ S, LightEdge n key e)
    {u v : ℕ} (hu : u < n) (hv : v < n) : Conn (S.filter (fun e => key e ≤ key (u, v))) u v := by
  classical
  by_contra hno
  have huv : u ≠ v := fun e => hno (e ▸ Conn.refl _ _)
  -- the first tree edge up to which the two are joined
  have hcap : ∀ F : List (ℕ × ℕ), F ⊆ S → Conn F u v → ∃ y ∈ F, Conn (S.filter (fun e => key e ≤ key y)) u v := by
    intro F hF c
    have hne : F.toFinset.Nonempty := by
      by_contra hem
      rw [Finset.not_nonempty_iff_eq_empty, List.toFinset_eq_empty_iff] at hem
      rw [hem] at c
      exact huv (Conn.nil c)
    obtain ⟨y, hy, hmax⟩ := Finset.exists_max_image F.toFinset key hne
    refine ⟨y, List.mem_toFinset.mp hy, c.mono (fun e he => ?_)⟩
    exact List.mem_filter.mpr ⟨hF he, decide_eq_true (hmax e (List.mem_toFinset.mpr he))⟩
  have hne : (S.toFinset.filter (fun y => Conn (S.filter (fun e => key e ≤ key y)) u v)).Nonempty := by
    obtain ⟨y, hy, c⟩ := hcap S (List.Subset.refl _) (hc u hu v hv)
    exact ⟨y, Finset.mem_filter.mpr ⟨List.mem_toFinset.mpr hy, c⟩⟩
  obtain ⟨x, hx, hmin⟩ := Finset.exists_min_image _ key hne
  obtain ⟨hxS, hxc⟩ := Finset.mem_filter.mp hx
  have hxS := List.mem_toFinset.mp hxS
  have hlt : key (u, v) < key x := by
    by_contra hle
    refine hno (hxc.mono (fun e he => ?_))
    obtain ⟨h1, h2⟩ := List.mem_filter.mp he
    exact List.mem_filter.mpr ⟨h1, decide_eq_true ((of_decide_eq_true h2).trans (not_lt.mp hle))⟩
  have hbelow : ¬ Conn (S.filter (fun e => key e < key x)) u v := by
    intro c
    obtain ⟨y, hy, cy⟩ := hcap _ (List.filter_subset_self _) c
    obtain ⟨h1, h2⟩ := List.mem_filter.mp hy
    have := hmin y (Finset.mem_filter.mpr ⟨List.mem_toFinset.mpr h1, cy⟩)
    exact absurd (of_decide_eq_true h2) (not_lt.mpr this)
  have hstep : Conn ((x.1, x.2) :: S.filter (fun e => key e < key x)) u v := by
    refine Conn.of_conn (fun e he => ?_) hxc
    obtain ⟨h1, h2⟩ := List.mem_filter.mp he
    rcases lt_or_eq_of_le (of_decide_eq_true h2) with h | h
    · exact Conn.edge (List.mem_cons_of_mem _ (List.mem_filter.mpr ⟨h1, decide_eq_true h⟩))
    · rcases hk.inj e.1 e.2 x.1 x.2 h with ⟨a, b⟩ | ⟨a, b⟩
      · rw [a, b]; exact Conn.edge List.mem_cons_self
      · rw [a, b]; exact (Conn.edge List.mem_cons_self).symm
  obtain ⟨C, c1, c2, c3⟩ := (hl x hxS).below hk
  have inv : ∀ {a b}, Conn (S.filter (fun e => key e < key x)) a b → (C a ↔ C b) := by
    intro a b c
    refine Conn.invariant (fun e he => ?_) c
    obtain ⟨h1, h2⟩ := List.mem_filter.mp he
    exact c3 e.1 (hr e h1).1 e.2 (hr e h1).2 (of_decide_eq_true h2)
  have huv' := c3 u hu v hv hlt
  rcases conn_cons.mp hstep with h | ⟨h1, h2⟩ | ⟨h1, h2⟩
  · exact hbelow h
  · exact c2 ((inv h2).mpr (huv'.mp ((inv h1).mpr c1)))
  · exact c2 ((inv h1).mp (huv'.mpr ((inv h2).mp c1)))

lemma comps_split (n : ℕ) (w : ℕ × ℕ → W) (x : W) (T : List (ℕ × ℕ)) :
    comps n (T.filter (fun e => w e < x)) ≤ comps n T + T.countP (fun e => x ≤ w e) := by
  have key : ∀ A B : List (ℕ × ℕ), comps n A ≤ comps n (B ++ A) + B.length := by
    intro A B
    induction B with
    | nil => simp
    | cons e B ih =>
      have := comps_cons n e (B ++ A)
      rw [List.cons_append, List.length_cons]
      omega
  have h := key (T.filter (fun e => w e < x)) (T.filter (fun e => x ≤ w e))
  rw [← List.countP_eq_length_filter] at h
  have e : comps n (T.filter (fun e => x ≤ w e) ++ T.filter (fun e => w e < x)) = comps n T := by
    apply comps_congr
    intro u _ v _
    have hm : ∀ e, e ∈ T ↔ e ∈ T.filter (fun e => x ≤ w e) ++ T.filter (fun e => w e < x) := by
      intro e
      rw [List.mem_append, List.mem_filter, List.mem_filter, decide_eq_true_eq, decide_eq_true_eq]
      constructor
      · intro he
        rcases le_or_gt x (w e) with h | h
        · exact .inl ⟨he, h⟩
        · exact .inr ⟨he, h⟩
      · rintro (h | h) <;> exact h.1
    exact ⟨fun c => c.mono (fun e he => (hm e).mp he), fun c => c.mono (fun e he => (hm e).mpr he)⟩
  rw [e] at h
  exact h

/-- At every threshold the tree has no more heavy edges than any connecting edge set. -/
theorem light_tree_count {n : ℕ} {key : ℕ × ℕ → κ} (hk : EdgeKey key) (w : ℕ × ℕ → W)
    (hw : ∀ e f, key e ≤ key f → w e ≤ w f) {S : List (ℕ × ℕ)} (hS : SpanningTree n S)
    (hl : ∀ e ∈ S, LightEdge n key e) {T : List (ℕ × ℕ)} (hT : ∀ e ∈ T, e.1 < n ∧ e.2 < n)
    (hc : Connects n T) (x : W) : S.countP (fun e => x ≤ w e) ≤ T.countP (fun e => x ≤ w e) := by
  have hn : 0 < n := by have := hS.length; omega
  have h1 := comps_split n w x T
  rw [(comps_connects hn).mp hc] at h1
  have h2 : comps n (S.filter (fun e => w e < x)) ≤ comps n (T.filter (fun e => w e < x)) := by
    apply comps_mono
    intro u _ v _ c
    refine Conn.of_conn (fun e he => ?_) c
    obtain ⟨e1, e2⟩ := List.mem_filter.mp he
    refine (light_conn hk hS.range hS.connects hl (hT e e1).1 (hT e e1).2).mono (fun f hf => ?_)
    obtain ⟨f1, f2⟩ := List.mem_filter.mp hf
    exact List.mem_filter.mpr ⟨f1, decide_eq_true (lt_of_le_of_lt (hw _ _ (of_decide_eq_true f2)) (of_decide_eq_true e2))⟩
  have h3 := le_comps n (S.filter (fun e => w e < x))
  have h4 : (S.filter (fun e => w e < x)).length + S.countP (fun e => x ≤ w e) = S.length := by
    rw [← List.countP_eq_length_filter, List.length_eq_countP_add_countP (p := fun e => decide (w e < x))]
    congr 1
    apply List.countP_congr
    intro e _
    simp
  have := hS.length
  omega

/-- Comparison of sums by counting large elements. -/
lemma sum_le_of_count {K : Type} [AddCommMonoid K] [PartialOrder K] [IsOrderedAddMonoid K] (val : W → K)
    (hm : Monotone val) (h0 : ∀ x, 0 ≤ val x) :
    ∀ (k : ℕ) (A B : List W), A.length ≤ k → (∀ x, A.countP (fun y => x ≤ y) ≤ B.countP (fun y => x ≤ y)) →
      (A.map val).sum ≤ (B.map val).sum := by
  classical
  have hmax : ∀ L : List W, L ≠ [] → ∃ a ∈ L, ∀ y ∈ L, y ≤ a := by
    intro L hL
    obtain ⟨a, h1, h2⟩ := Finset.exists_max_image L.toFinset id
      (by rwa [Finset.nonempty_iff_ne_empty, ne_eq, List.toFinset_eq_empty_iff])
    exact ⟨a, List.mem_toFinset.mp h1, fun y hy => h2 y (List.mem_toFinset.mpr hy)⟩
  intro k
  induction k with
  | zero =>
    intro A B hA _
    have : A = [] := List.length_eq_zero_iff.mp (by omega)
    subst this
    apply List.sum_nonneg
    intro y hy
    obtain ⟨z, -, rfl⟩ := List.mem_map.mp hy
    exact h0 z
  | succ k ih =>
    intro A B hA h
    by_cases hAe : A = []
    · subst hAe
      apply List.sum_nonneg
      intro y hy
      obtain ⟨z, -, rfl⟩ := List.mem_map.mp hy
      exact h0 z
    obtain ⟨a, ha, hamax⟩ := hmax A hAe
    have h1 : 0 < B.countP (fun y => a ≤ y) := by
      refine lt_of_lt_of_le ?_ (h a)
      exact List.countP_pos_iff.mpr ⟨a, ha, decide_eq_true le_rfl⟩
    obtain ⟨b, hb, hab⟩ := List.countP_pos_iff.mp h1
    have hab := of_decide_eq_true hab
    have eA := List.perm_cons_erase ha
    have eB := List.perm_cons_erase hb
    have hsum := ih (A.erase a) (B.erase b) (by rw [List.length_erase_of_mem ha]; omega) (by
      intro x
      by_cases hx : x ≤ a
      · have := h x
        rw [eA.countP_eq, eB.countP_eq, List.countP_cons_of_pos (by simpa using hx),
          List.countP_cons_of_pos (by simpa using hx.trans hab)] at this
        omega
      · have : (A.erase a).countP (fun y => x ≤ y) = 0 := by
          rw [List.countP_eq_zero]
          intro y hy
          have := hamax y (List.mem_of_mem_erase hy)
          simp only [decide_eq_true_eq]
          exact fun hxy => hx (hxy.trans this)
        omega)
    rw [(eA.map val).sum_eq, (eB.map val).sum_eq, List.map_cons, List.map_cons, List.sum_cons, List.sum_cons]
    exact add_le_add (hm hab) hsum

/-- A spanning tree of light edges has minimum total weight. -/
theorem light_tree_optimal {n : ℕ} {key : ℕ × ℕ → κ} (hk : EdgeKey key) (w : ℕ × ℕ → W)
    (hw : ∀ e f, key e ≤ key f → w e ≤ w f) {S : List (ℕ × ℕ)} (hS : SpanningTree n S)
    (hl : ∀ e ∈ S, LightEdge n key e) {T : List (ℕ × ℕ)} (hT : ∀ e ∈ T, e.1 < n ∧ e.2 < n)
    (hc : Connects n T) {K : Type} [AddCommMonoid K] [PartialOrder K] [IsOrderedAddMonoid K] (val : W → K)
    (hm : Monotone val) (h0 : ∀ x, 0 ≤ val x) :
    (S.map (fun e => val (w e))).sum ≤ (T.map (fun e => val (w e))).sum := by
  have := sum_le_of_count val hm h0 _ (S.map w) (T.map w) le_rfl (by
    intro x
    rw [List.countP_map, List.countP_map]
    exact light_tree_count hk w hw hS hl hT hc x)
  rwa [List.map_map, List.map_map] at this

end ArborX.Graph
