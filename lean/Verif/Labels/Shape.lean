import Verif.Labels.Model
import Verif.BVH.Build
import Mathlib.Data.List.Nodup
import Mathlib.Data.List.Range
import Mathlib.Data.List.Perm.Subperm

/-!
# The nodes of a well-formed hierarchy and their parents (lemmas)
-/

namespace ArborX.Labels

open Function (update)

variable {α V : Type} [Max V]

/-- The ids of the nodes of the subtree at `id`, read from memory along the shape `T`. -/
def nodes (mem : Mem α V) : BTree → ℕ → List ℕ
  | .leaf _, id => [id]
  | .node a b, id => id :: (nodes mem a ((leftChild mem id).getD 0) ++ nodes mem b ((rightChild mem id).getD 0))

omit [Max V] in
lemma nodes_length (mem : Mem α V) (T : BTree) (id : ℕ) : (nodes mem T id).length = T.size := by
  induction T generalizing id with
  | leaf i => rfl
  | node a b iha ihb => simp [nodes, iha, ihb, BTree.size]

lemma size_leaves (T : BTree) : T.size + 1 = 2 * T.leaves.length := by
  induction T with
  | leaf i => rfl
  | node a b iha ihb => simp [BTree.size, BTree.leaves]; omega

lemma leaves_pos (T : BTree) : 0 < T.leaves.length := by
  induction T with
  | leaf i => simp [BTree.leaves]
  | node a b iha ihb => simp [BTree.leaves]; omega

lemma layout_rope {mem : Mem α V} {value vol T id r} (h : Layout mem value vol T id r) :
    rope mem id = r := by
  cases T with
  | leaf i =>
    obtain ⟨rfl, h1, h2⟩ := h
    simp [rope, h1, h2]
  | node a b =>
    obtain ⟨ia, ib, h1, h2, -⟩ := h
    simp [rope, h2, Nat.not_lt.mpr h1]

lemma layout_kids {mem : Mem α V} {value vol a b id r} (h : Layout mem value vol (.node a b) id r) :
    ∃ ia ib, leftChild mem id = some ia ∧ rightChild mem id = some ib ∧
      Layout mem value vol a ia (some ib) ∧ Layout mem value vol b ib r := by
  obtain ⟨ia, ib, h1, h2, h3, h4⟩ := h
  have hl : leftChild mem id = some ia := by simp [leftChild, h2]
  refine ⟨ia, ib, hl, ?_, h3, h4⟩
  rw [rightChild, hl, Option.bind_some, layout_rope h3]

/-- Memory determines the tree at a node. -/
lemma layout_unique {mem : Mem α V} {value vol} {T T' : BTree} {id r r'}
    (h : Layout mem value vol T id r) (h' : Layout mem value vol T' id r') : T = T' := by
  induction T generalizing T' id r r' with
  | leaf i =>
    obtain ⟨rfl, h1, -⟩ := h
    cases T' with
    | leaf j => rw [h'.1]
    | node a b => obtain ⟨_, _, h2, -⟩ := h'; omega
  | node a b iha ihb =>
    cases T' with
    | leaf j => obtain ⟨_, _, h2, -⟩ := h; obtain ⟨rfl, h3, -⟩ := h'; omega
    | node a' b' =>
      obtain ⟨ia, ib, h1, h2, h3, h4⟩ := layout_kids h
      obtain ⟨ia', ib', h1', h2', h3', h4'⟩ := layout_kids h'
      rw [h1] at h1'; rw [h2] at h2'
      cases h1'; cases h2'
      rw [iha h3 h3', ihb h4 h4']

/-- A node of the subtree carries a subtree. -/
lemma nodes_layout {mem : Mem α V} {value vol} {T : BTree} {id r} (h : Layout mem value vol T id r) :
    ∀ x ∈ nodes mem T id, ∃ S r', Layout mem value vol S x r' ∧ S.size ≤ T.size ∧ S.leaves ⊆ T.leaves := by
  induction T generalizing id r with
  | leaf i =>
    intro x hx
    simp only [nodes, List.mem_singleton] at hx
    subst hx
    exact ⟨_, _, h, le_rfl, List.Subset.refl _⟩
  | node a b iha ihb =>
    intro x hx
    obtain ⟨ia, ib, h1, h2, h3, h4⟩ := layout_kids h
    simp only [nodes, h1, h2, Option.getD_some, List.mem_cons, List.mem_append] at hx
    rcases hx with rfl | hx | hx
    · exact ⟨_, _, h, le_rfl, List.Subset.refl _⟩
    · obtain ⟨S, r', hS, hs, hl⟩ := iha h3 x hx
      exact ⟨S, r', hS, by simp only [BTree.size]; omega,
        fun y hy => List.mem_append_left _ (hl hy)⟩
    · obtain ⟨S, r', hS, hs, hl⟩ := ihb h4 x hx
      exact ⟨S, r', hS, by simp only [BTree.size]; omega,
        fun y hy => List.mem_append_right _ (hl hy)⟩

lemma nodes_nodup {mem : Mem α V} {value vol} {T : BTree} {id r} (h : Layout mem value vol T id r)
    (hn : T.leaves.Nodup) : (nodes mem T id).Nodup := by
  induction T generalizing id r with
  | leaf i => simp [nodes]
  | node a b iha ihb =>
    obtain ⟨ia, ib, h1, h2, h3, h4⟩ := layout_kids h
    simp only [BTree.leaves] at hn
    obtain ⟨na, nb, nd⟩ := List.nodup_append.mp hn
    simp only [nodes, h1, h2, Option.getD_some]
    rw [List.nodup_cons, List.nodup_append]
    refine ⟨?_, iha h3 na, ihb h4 nb, ?_⟩
    · intro hx
      rcases List.mem_append.mp hx with hx | hx
      · obtain ⟨S, r', hS, hs, -⟩ := nodes_layout h3 _ hx
        have := layout_unique h hS
        subst this
        simp only [BTree.size] at hs; omega
      · obtain ⟨S, r', hS, hs, -⟩ := nodes_layout h4 _ hx
        have := layout_unique h hS
        subst this
        simp only [BTree.size] at hs; omega
    · intro x hx y hy e
      subst e
      obtain ⟨S, r', hS, -, hl⟩ := nodes_layout h3 _ hx
      obtain ⟨S', r'', hS', -, hl'⟩ := nodes_layout h4 _ hy
      have := layout_unique hS hS'
      subst this
      obtain ⟨z, hz⟩ := List.exists_mem_of_length_pos (leaves_pos S)
      exact nd z (hl hz) z (hl' hz) rfl

/-- Every node other than the root of the subtree is the child of a node of it. -/
lemma nodes_parent {mem : Mem α V} {value vol} {T : BTree} {id r} (h : Layout mem value vol T id r) :
    ∀ x ∈ nodes mem T id, x ≠ id →
      ∃ p ∈ nodes mem T id, mem.size ≤ p ∧ (leftChild mem p = some x ∨ rightChild mem p = some x) := by
  induction T generalizing id r with
  | leaf i =>
    intro x hx hne
    simp only [nodes, List.mem_singleton] at hx
    exact absurd hx hne
  | node a b iha ihb =>
    intro x hx hne
    have hid : mem.size ≤ id := h.choose_spec.choose_spec.1
    obtain ⟨ia, ib, h1, h2, h3, h4⟩ := layout_kids h
    simp only [nodes, h1, h2, Option.getD_some, List.mem_cons, List.mem_append] at hx ⊢
    rcases hx with rfl | hx | hx
    · exact absurd rfl hne
    · by_cases hc : x = ia
      · subst hc; exact ⟨id, .inl rfl, hid, .inl h1⟩
      · obtain ⟨p, hp, hs⟩ := iha h3 x hx hc
        exact ⟨p, .inr (.inl hp), hs⟩
    · by_cases hc : x = ib
      · subst hc; exact ⟨id, .inl rfl, hid, .inr h2⟩
      · obtain ⟨p, hp, hs⟩ := ihb h4 x hx hc
        exact ⟨p, .inr (.inr hp), hs⟩

/-- A well-formed hierarchy whose array of internal nodes has `size - 1` entries. -/
structure Tidy (mem : Mem α V) (value : ℕ → α) (vol : α → V) (T : BTree) : Prop where
  wf : WellFormed mem value vol T
  two : 2 ≤ mem.size
  bound : ∀ k, mem.size - 1 ≤ k → mem.internal k = none

namespace Tidy

variable {mem : Mem α V} {value : ℕ → α} {vol : α → V} {T : BTree}

lemma leaves_len (h : Tidy mem value vol T) : T.leaves.length = mem.size := by rw [h.wf.1, List.length_range]

lemma id_lt (h : Tidy mem value vol T) {S x r} (hS : Layout mem value vol S x r) : x < 2 * mem.size - 1 := by
  have := h.two
  cases S with
  | leaf i => obtain ⟨rfl, h1, -⟩ := hS; omega
  | node a b =>
    obtain ⟨_, _, h1, h2, -⟩ := hS
    by_contra hc
    rw [h.bound (x - mem.size) (by omega)] at h2
    cases h2

/-- The node ids are exactly `0 .. 2n - 2`. -/
lemma nodes_perm (h : Tidy mem value vol T) : (nodes mem T mem.size).Perm (List.range (2 * mem.size - 1)) := by
  have nd := nodes_nodup h.wf.2 (by rw [h.wf.1]; exact List.nodup_range)
  have hs : nodes mem T mem.size ⊆ List.range (2 * mem.size - 1) := by
    intro x hx
    obtain ⟨S, r, hS, -⟩ := nodes_layout h.wf.2 x hx
    exact List.mem_range.mpr (h.id_lt hS)
  refine (List.subperm_of_subset nd hs).perm_of_length_le ?_
  have := size_leaves T
  rw [nodes_length, List.length_range]
  rw [h.leaves_len] at this
  omega

lemma exists_sub (h : Tidy mem value vol T) {x : ℕ} (hx : x < 2 * mem.size - 1) :
    ∃ S r, Layout mem value vol S x r := by
  have : x ∈ nodes mem T mem.size := h.nodes_perm.symm.subset (List.mem_range.mpr hx)
  obtain ⟨S, r, hS, -⟩ := nodes_layout h.wf.2 x this
  exact ⟨S, r, hS⟩

lemma exists_parent (h : Tidy mem value vol T) {x : ℕ} (hx : x < 2 * mem.size - 1) (hne : x ≠ mem.size) :
    ∃ p, mem.size ≤ p ∧ p < 2 * mem.size - 1 ∧ (leftChild mem p = some x ∨ rightChild mem p = some x) := by
  have : x ∈ nodes mem T mem.size := h.nodes_perm.symm.subset (List.mem_range.mpr hx)
  obtain ⟨p, hp, hs, hc⟩ := nodes_parent h.wf.2 x this hne
  exact ⟨p, hs, List.mem_range.mp (h.nodes_perm.subset hp), hc⟩

end Tidy

/-- The target of assignment `k` of `findParents`. -/
def child (mem : Mem α V) (k : ℕ) : ℕ :=
  ((if k % 2 = 0 then leftChild mem (mem.size + k / 2) else rightChild mem (mem.size + k / 2))).getD 0

namespace Tidy

variable {mem : Mem α V} {value : ℕ → α} {vol : α → V} {T : BTree}

lemma sub_node (h : Tidy mem value vol T) {x : ℕ} (h1 : mem.size ≤ x) (h2 : x < 2 * mem.size - 1) :
    ∃ a b r, Layout mem value vol (.node a b) x r := by
  obtain ⟨S, r, hS⟩ := h.exists_sub h2
  cases S with
  | leaf i => obtain ⟨rfl, h3, -⟩ := hS; omega
  | node a b => exact ⟨a, b, r, hS⟩

lemma kids (h : Tidy mem value vol T) {x : ℕ} (h1 : mem.size ≤ x) (h2 : x < 2 * mem.size - 1) :
    ∃ ia ib, leftChild mem x = some ia ∧ rightChild mem x = some ib ∧ ia < 2 * mem.size - 1 ∧
      ib < 2 * mem.size - 1 := by
  obtain ⟨a, b, r, hS⟩ := h.sub_node h1 h2
  obtain ⟨ia, ib, e1, e2, e3, e4⟩ := layout_kids hS
  exact ⟨ia, ib, e1, e2, h.id_lt e3, h.id_lt e4⟩

lemma child_perm (h : Tidy mem value vol T) :
    ((List.range (2 * mem.size - 1)).erase mem.size).Perm ((List.range (2 * mem.size - 2)).map (child mem)) := by
  have h2 := h.two
  refine (List.subperm_of_subset (List.nodup_range.erase _) ?_).perm_of_length_le ?_
  · intro x hx
    obtain ⟨hne, hx⟩ := (List.Nodup.mem_erase_iff List.nodup_range).mp hx
    obtain ⟨p, p1, p2, hc⟩ := h.exists_parent (List.mem_range.mp hx) hne
    rcases hc with hc | hc
    · refine List.mem_map.mpr ⟨2 * (p - mem.size), List.mem_range.mpr (by omega), ?_⟩
      unfold child
      rw [if_pos (by omega), show mem.size + 2 * (p - mem.size) / 2 = p by omega, hc]; rfl
    · refine List.mem_map.mpr ⟨2 * (p - mem.size) + 1, List.mem_range.mpr (by omega), ?_⟩
      unfold child
      rw [if_neg (by omega), show mem.size + (2 * (p - mem.size) + 1) / 2 = p by omega, hc]; rfl
  · rw [List.length_map, List.length_range, List.length_erase_of_mem (List.mem_range.mpr (by omega)),
      List.length_range]
    omega

lemma child_inj (h : Tidy mem value vol T) {k k' : ℕ} (hk : k < 2 * mem.size - 2) (hk' : k' < 2 * mem.size - 2)
    (e : child mem k = child mem k') : k = k' := by
  have nd : ((List.range (2 * mem.size - 2)).map (child mem)).Nodup :=
    h.child_perm.nodup_iff.mp (List.nodup_range.erase _)
  exact List.inj_on_of_nodup_map nd (List.mem_range.mpr hk) (List.mem_range.mpr hk') e

lemma child_spec (h : Tidy mem value vol T) {k : ℕ} (hk : k < 2 * mem.size - 2) :
    child mem k < 2 * mem.size - 1 ∧ child mem k ≠ mem.size ∧
    (if k % 2 = 0 then leftChild mem (mem.size + k / 2) else rightChild mem (mem.size + k / 2))
      = some (child mem k) := by
  have hm := h.child_perm.symm.subset (List.mem_map_of_mem (f := child mem) (List.mem_range.mpr hk))
  obtain ⟨hne, hx⟩ := (List.Nodup.mem_erase_iff List.nodup_range).mp hm
  refine ⟨List.mem_range.mp hx, hne, ?_⟩
  obtain ⟨ia, ib, e1, e2, -⟩ := h.kids (x := mem.size + k / 2) (by omega) (by omega)
  unfold child
  split_ifs
  · rw [e1]; rfl
  · rw [e2]; rfl

lemma assign_eq (h : Tidy mem value vol T) (par : ℕ → Option ℕ) {k : ℕ} (hk : k < 2 * mem.size - 2) :
    assign mem par k = some (update par (child mem k) (some (mem.size + k / 2))) := by
  obtain ⟨h1, -, h3⟩ := h.child_spec hk
  unfold assign
  dsimp only
  rw [h3, Option.bind_some, if_pos h1]

/-- The result of `findParents`: every node but the root has its parent recorded. -/
lemma findParents_eq (h : Tidy mem value vol T) (ord : List ℕ) (ho : ord.Perm (List.range (2 * mem.size - 2))) :
    ∃ par, findParents mem ord = some par ∧ par mem.size = none ∧
      ∀ k < 2 * mem.size - 2, par (child mem k) = some (mem.size + k / 2) := by
  have key : ∀ (l : List ℕ) (par : ℕ → Option ℕ), (∀ k ∈ l, k < 2 * mem.size - 2) → l.Nodup →
      ∃ par', l.foldl (fun p k => p.bind (fun par => assign mem par k)) (some par) = some par' ∧
        (∀ x, (∀ k ∈ l, x ≠ child mem k) → par' x = par x) ∧
        ∀ k ∈ l, par' (child mem k) = some (mem.size + k / 2) := by
    intro l
    induction l with
    | nil => intro par _ _; exact ⟨par, rfl, fun _ _ => rfl, by simp⟩
    | cons k l ih =>
      intro par hl hnd
      obtain ⟨hk, hnd⟩ := List.nodup_cons.mp hnd
      rw [List.foldl_cons, Option.bind_some, h.assign_eq par (hl k List.mem_cons_self)]
      obtain ⟨par', e1, e2, e3⟩ := ih (update par (child mem k) (some (mem.size + k / 2)))
        (fun j hj => hl j (List.mem_cons_of_mem _ hj)) hnd
      refine ⟨par', e1, ?_, ?_⟩
      · intro x hx
        rw [e2 x (fun j hj => hx j (List.mem_cons_of_mem _ hj)),
          Function.update_of_ne (hx k List.mem_cons_self)]
      · intro j hj
        rcases List.mem_cons.mp hj with rfl | hj
        · rw [e2, Function.update_self]
          intro i hi e
          have := h.child_inj (hl j List.mem_cons_self) (hl i (List.mem_cons_of_mem _ hi)) e
          subst this
          exact hk hi
        · exact e3 j hj
  obtain ⟨par, e1, e2, e3⟩ := key ord (fun _ => none)
    (fun k hk => List.mem_range.mp (ho.subset hk)) (ho.nodup_iff.mpr List.nodup_range)
  refine ⟨par, ?_, ?_, fun k hk => e3 k (ho.symm.subset (List.mem_range.mpr hk))⟩
  · unfold findParents
    rw [if_neg (by have := h.two; omega), e1]
  · exact e2 _ (fun k hk => (h.child_spec (List.mem_range.mp (ho.subset hk))).2.1.symm)

end Tidy

/-- What the labelling kernel needs to know about the parents: node `p` has the children `L p`
and `R p`, and `leaves x` are the leaves below node `x`. -/
structure Shape (n : ℕ) (par : ℕ → Option ℕ) (L R : ℕ → ℕ) (leaves : ℕ → List ℕ) : Prop where
  two : 2 ≤ n
  leaf : ∀ i < n, leaves i = [i]
  node : ∀ p, n ≤ p → p < 2 * n - 1 → leaves p = leaves (L p) ++ leaves (R p) ∧ L p ≠ R p ∧
    L p < 2 * n - 1 ∧ R p < 2 * n - 1 ∧ L p ≠ n ∧ R p ≠ n ∧ par (L p) = some p ∧ par (R p) = some p
  up : ∀ x < 2 * n - 1, x ≠ n → ∃ p, par x = some p ∧ n ≤ p ∧ p < 2 * n - 1 ∧ (x = L p ∨ x = R p)
  len : ∀ x < 2 * n - 1, 0 < (leaves x).length ∧ (leaves x).length ≤ n

lemma Tidy.shape {mem : Mem α V} {value : ℕ → α} {vol : α → V} {T : BTree} (h : Tidy mem value vol T)
    {ord : List ℕ} (ho : ord.Perm (List.range (2 * mem.size - 2))) :
    ∃ par L R leaves, findParents mem ord = some par ∧ Shape mem.size par L R leaves ∧
      ∀ S x r, Layout mem value vol S x r → leaves x = S.leaves := by
  classical
  obtain ⟨par, e1, e2, e3⟩ := h.findParents_eq ord ho
  have h2 := h.two
  let leaves : ℕ → List ℕ := fun x =>
    if hx : x < 2 * mem.size - 1 then (h.exists_sub hx).choose.leaves else []
  have hl : ∀ S x r, Layout mem value vol S x r → leaves x = S.leaves := by
    intro S x r hS
    have hx := h.id_lt hS
    obtain ⟨r', hS'⟩ := (h.exists_sub hx).choose_spec
    simp only [leaves, dif_pos hx]
    rw [layout_unique hS hS']
  refine ⟨par, fun p => child mem (2 * (p - mem.size)), fun p => child mem (2 * (p - mem.size) + 1), leaves,
    e1, ⟨h2, ?_, ?_, ?_, ?_⟩, hl⟩
  · intro i hi
    obtain ⟨S, r, hS⟩ := h.exists_sub (x := i) (by omega)
    rw [hl S i r hS]
    cases S with
    | leaf j => rw [hS.1]; rfl
    | node a b => obtain ⟨_, _, h1, -⟩ := hS; omega
  · intro p h1 h3
    obtain ⟨a, b, r, hS⟩ := h.sub_node h1 h3
    obtain ⟨ia, ib, k1, k2, k3, k4⟩ := layout_kids hS
    obtain ⟨c1, c2, c3⟩ := h.child_spec (k := 2 * (p - mem.size)) (by omega)
    obtain ⟨d1, d2, d3⟩ := h.child_spec (k := 2 * (p - mem.size) + 1) (by omega)
    have hL : child mem (2 * (p - mem.size)) = ia := by
      rw [if_pos (by omega), show mem.size + 2 * (p - mem.size) / 2 = p by omega, k1] at c3
      exact (Option.some.inj c3).symm
    have hR : child mem (2 * (p - mem.size) + 1) = ib := by
      rw [if_neg (by omega), show mem.size + (2 * (p - mem.size) + 1) / 2 = p by omega, k2] at d3
      exact (Option.some.inj d3).symm
    refine ⟨?_, ?_, c1, d1, c2, d2, ?_, ?_⟩
    · rw [hl _ _ _ hS, hL, hR, hl _ _ _ k3, hl _ _ _ k4]; rfl
    · intro e
      have := h.child_inj (by omega) (by omega) e
      omega
    · rw [e3 _ (by omega)]; congr 1; omega
    · rw [e3 _ (by omega)]; congr 1; omega
  · intro x hx hne
    have : x ∈ (List.range (2 * mem.size - 2)).map (child mem) :=
      h.child_perm.subset ((List.Nodup.mem_erase_iff List.nodup_range).mpr ⟨hne, List.mem_range.mpr hx⟩)
    obtain ⟨k, hk, rfl⟩ := List.mem_map.mp this
    have hk := List.mem_range.mp hk
    refine ⟨mem.size + k / 2, e3 k hk, by omega, by omega, ?_⟩
    rcases Nat.mod_two_eq_zero_or_one k with hm | hm
    · left; congr 1; omega
    · right; congr 1; omega
  · intro x hx
    obtain ⟨S, r, hS, -, hsub⟩ := nodes_layout h.wf.2 x
      (h.nodes_perm.symm.subset (List.mem_range.mpr hx))
    have hlen := leaves_pos S
    rw [hl S x r hS]
    refine ⟨hlen, ?_⟩
    have : S.size ≤ T.size := by
      obtain ⟨S', r', hS', hs, -⟩ := nodes_layout h.wf.2 x
        (h.nodes_perm.symm.subset (List.mem_range.mpr hx))
      rw [layout_unique hS hS']; exact hs
    have a := size_leaves S
    have b := size_leaves T
    rw [h.leaves_len] at b
    omega

/-- The constructor yields such a hierarchy. -/
lemma build_tidy {V : Type} {w : ℕ} [SemilatticeSup V] [OrderBot V] (I : BVH.Input α V w) (h : I.Valid)
    (hn : 2 ≤ I.n) : ∃ T, ∀ sched, I.Finished sched →
      Tidy (I.build sched) (fun i => I.values (I.perm i)) I.vol T := by
  obtain ⟨T, hT⟩ := BVH.build_wellFormed I h hn
  refine ⟨T, fun sched hf => ⟨hT sched hf, by rw [BVH.build_size]; exact hn, ?_⟩⟩
  intro k hk
  rw [BVH.build_size] at hk
  unfold BVH.Input.build
  rw [if_neg (by omega), if_neg (by omega)]
  exact (Construction.run_outside I.params sched).2 k (by simpa [BVH.Input.params] using hk)

end ArborX.Labels
