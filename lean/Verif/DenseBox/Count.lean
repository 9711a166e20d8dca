import Verif.DenseBox.Layout
import Verif.Dbscan.Theorems

/-!
# Core points in the dense box implementation
-/

namespace ArborX.DenseBox

open Traversal BVH Dbscan Perm

variable {V : Type} {w : ℕ} [SemilatticeSup V] [OrderBot V]

/-- Preconditions.
* `near` is symmetric and reflexive; the bounding volumes respect it;
* the grid: points with the same cell index are within the radius of each other, and the box of
  the cell of a point is near what the point is near (which holds if it contains the point);
* the sorts and the tree primitives do their job, the iterations are distributed over the
  threads. -/
structure DIn.Valid (D : DIn V w) : Prop where
  symm : ∀ i j, D.near i j = D.near j i
  refl : ∀ i, D.near i i = true
  pvmono : ∀ i v v', v ≤ v' → D.pv i v = true → D.pv i v' = true
  nearpv : ∀ i j, D.near i j = true → D.pv i (D.pvol j) = true
  boxpv : ∀ i c, D.nearBox i c = D.pv i (D.box c)
  cellNear : ∀ i < D.n, ∀ j < D.n, D.cell i = D.cell j → D.near i j = true
  cellBox : ∀ i < D.n, ∀ j < D.n, D.near i j = true → D.pv i (D.box (D.cell j)) = true
  sort : IsSort D.n D.cell D.σ
  tree : ∀ m ≤ D.n, ∀ f : ℕ → V, (⟨m, id, f, D.code m f, D.tperm m f⟩ : Input ℕ V w).Valid
  minPts : 2 ≤ D.minPts
  chunks1 : ∀ m, (D.chunks1 m).flatten.Perm (List.range' 1 (m - 1))
  chunks2 : D.chunks2.flatten.Perm (List.range D.n)
  serial1 : ∀ m, D.serial = true → (D.chunks1 m).length ≤ 1
  serial2 : D.serial = true → D.chunks2.length ≤ 1

lemma filter_sublist {l : List ℕ} {p q : ℕ → Bool} (h : ∀ j ∈ l, p j = true → q j = true) :
    (l.filter p).Sublist (l.filter q) := by
  induction l with
  | nil => simp
  | cons a l ih =>
    have ih := ih (fun j hj => h j (List.mem_cons_of_mem _ hj))
    have ha := h a List.mem_cons_self
    simp only [List.filter_cons]
    cases hp : p a <;> cases hq : q a
    · simpa using ih
    · simpa using ih.cons a
    · rw [hp, hq] at ha; simp at ha
    · simpa using ih

section Blocks

variable {D : DIn V w} {l : Lay} (hl : LayOk D l)
include hl

omit [SemilatticeSup V] [OrderBot V] in
lemma off_facts : l.off 0 = 0 ∧ l.off l.m = l.nd ∧ ∀ k < l.m, l.off k < l.off (k + 1) ∧
    l.off (k + 1) ≤ l.nd ∧ ∀ i, l.off k ≤ i → i < l.off (k + 1) → l.scell i = l.scell (l.off k) :=
  offsets_fun hl.offs

omit [SemilatticeSup V] [OrderBot V] in
lemma m_le : l.m ≤ l.nd := by
  obtain ⟨h0, h1, h2⟩ := off_facts hl
  have : ∀ k ≤ l.m, k ≤ l.off k := by
    intro k
    induction k with
    | zero => intro _; omega
    | succ k ih =>
      intro hk
      have := ih (by omega)
      have := (h2 k (by omega)).1
      omega
  have := this l.m le_rfl
  omega

omit [SemilatticeSup V] [OrderBot V] in
lemma prims_le : l.prims D.n ≤ D.n := by
  have := m_le hl
  have := hl.nd
  unfold Lay.prims
  omega

omit [SemilatticeSup V] [OrderBot V] in
/-- The blocks tile the dense points. -/
lemma blocks_tile (k : ℕ) (hk : k ≤ l.m) :
    (List.range k).flatMap l.block = (List.range (l.off k)).map l.perm := by
  obtain ⟨h0, h1, h2⟩ := off_facts hl
  induction k with
  | zero => simp [h0]
  | succ k ih =>
    have hlt := (h2 k (by omega)).1
    have e : l.off (k + 1) = l.off k + (l.off (k + 1) - l.off k) := by omega
    rw [List.range_succ, List.flatMap_append, ih (by omega), e, List.range_add, List.map_append]
    simp [Lay.block]

omit [SemilatticeSup V] [OrderBot V] in
/-- The dense blocks and the sparse points together are all points. -/
lemma all_points : ((List.range l.m).flatMap l.block ++
    (List.range (D.n - l.nd)).map (fun q => l.sparse (l.m + q))).Perm (List.range D.n) := by
  obtain ⟨h0, h1, h2⟩ := off_facts hl
  rw [blocks_tile hl l.m le_rfl, h1]
  have hs : ((List.range (D.n - l.nd)).map (fun q => l.sparse (l.m + q)))
      = ((List.range (D.n - l.nd)).map (l.nd + ·)).map l.perm := by
    rw [List.map_map]
    apply List.map_congr_left
    intro q _
    simp [Lay.sparse]
  rw [hs, ← List.map_append, ← List.range_add]
  have : l.nd + (D.n - l.nd) = D.n := by have := hl.nd; omega
  rw [this]
  exact hl.perm

omit [SemilatticeSup V] [OrderBot V] in
lemma block_mem {k j : ℕ} (hk : k < l.m) (hj : j ∈ l.block k) :
    j < D.n ∧ D.cell j = l.scell (l.off k) ∧ ∃ x < l.nd, l.perm x = j ∧ l.off k ≤ x ∧ x < l.off (k + 1) := by
  obtain ⟨h0, h1, h2⟩ := off_facts hl
  obtain ⟨a, b, c⟩ := h2 k hk
  obtain ⟨x, hx, rfl⟩ := List.mem_map.mp hj
  rw [List.mem_range] at hx
  have hnd := hl.nd
  refine ⟨hl.perm.lt (by omega), ?_, l.off k + x, by omega, rfl, by omega, by omega⟩
  rw [← hl.scell _ (by omega)]
  exact c _ (by omega) (by omega)

omit [SemilatticeSup V] [OrderBot V] in
lemma start_mem {k : ℕ} (hk : k < l.m) : l.perm (l.off k) ∈ l.block k := by
  obtain ⟨a, -, -⟩ := (off_facts hl).2.2 k hk
  exact List.mem_map.mpr ⟨0, List.mem_range.mpr (by omega), by simp⟩

omit [SemilatticeSup V] [OrderBot V] in
lemma sparse_lt {k : ℕ} (hk : k < l.prims D.n) (hm : l.m ≤ k) : l.sparse k < D.n := by
  unfold Lay.sparse
  unfold Lay.prims at hk
  exact hl.perm.lt (by omega)

omit [SemilatticeSup V] [OrderBot V] in
/-- Every point is in a dense block or is a sparse point. -/
lemma point_cases {j : ℕ} (hj : j < D.n) :
    (∃ k < l.m, j ∈ l.block k) ∨ (∃ k, l.m ≤ k ∧ k < l.prims D.n ∧ l.sparse k = j) := by
  have := (all_points hl).symm.subset (List.mem_range.mpr hj)
  rcases List.mem_append.mp this with h | h
  · obtain ⟨k, hk, hm⟩ := List.mem_flatMap.mp h
    exact Or.inl ⟨k, List.mem_range.mp hk, hm⟩
  · obtain ⟨q, hq, e⟩ := List.mem_map.mp h
    rw [List.mem_range] at hq
    exact Or.inr ⟨l.m + q, by omega, by unfold Lay.prims; omega, e⟩

omit [SemilatticeSup V] [OrderBot V] in
/-- A sparse point is in no dense block. -/
lemma sparse_not_dense {k : ℕ} (hk : k < l.prims D.n) (hm : l.m ≤ k) : l.isDense (l.sparse k) = false := by
  unfold Lay.isDense
  rw [List.any_eq_false]
  intro j hj
  rw [List.mem_range] at hj
  rw [decide_eq_true_eq]
  intro e
  have hnd := hl.nd
  unfold Lay.sparse at e
  unfold Lay.prims at hk
  have := hl.perm.inj (by omega) (by omega) e
  omega

omit [SemilatticeSup V] [OrderBot V] in
lemma block_dense {k j : ℕ} (hk : k < l.m) (hj : j ∈ l.block k) : l.isDense j = true := by
  obtain ⟨-, -, x, hx, e, -⟩ := block_mem hl hk hj
  unfold Lay.isDense
  rw [List.any_eq_true]
  exact ⟨x, List.mem_range.mpr hx, by simpa using e⟩

/-- The predicate respects the volumes of the primitives. -/
lemma hit_mono (hD : D.Valid) (i : ℕ) : Traversal.Monotone (D.prim l) (D.hit l i) (D.pv i) := by
  intro k v hv hh
  unfold DIn.prim at hv
  unfold DIn.hit at hh
  split_ifs at hv hh with h
  · rw [hD.boxpv] at hh
    exact hD.pvmono i _ _ hv hh
  · exact hD.pvmono i _ _ hv (hD.nearpv i _ hh)

/-- A point of a dense cell that is near makes the box of the cell a hit. -/
lemma hit_of_near (hD : D.Valid) {i k j : ℕ} (hi : i < D.n) (hk : k < l.m) (hj : j ∈ l.block k) (hn : D.near i j = true) :
    D.hit l i k = true := by
  obtain ⟨hjn, hc, -⟩ := block_mem hl hk hj
  unfold DIn.hit
  rw [if_pos hk, hD.boxpv, ← hc]
  exact hD.cellBox i hi j hjn hn

/-- Points of one dense block are near each other. -/
lemma block_near (hD : D.Valid) {k a b : ℕ} (hk : k < l.m) (ha : a ∈ l.block k) (hb : b ∈ l.block k) :
    D.near a b = true := by
  obtain ⟨h1, h2, -⟩ := block_mem hl hk ha
  obtain ⟨h3, h4, -⟩ := block_mem hl hk hb
  exact hD.cellNear a h1 b h3 (h2.trans h4.symm)

lemma tree_valid (hD : D.Valid) : (D.tree l).Valid := hD.tree _ (prims_le hl) _

/-- Dense points are core points. -/
lemma dense_core (hD : D.Valid) {i : ℕ} (hi : l.isDense i = true) : Core D.n D.near D.minPts i := by
  unfold Lay.isDense at hi
  rw [List.any_eq_true] at hi
  obtain ⟨x, hx, e⟩ := hi
  rw [List.mem_range] at hx
  rw [decide_eq_true_eq] at e
  have hnd := hl.nd
  refine (hl.dense x hx).trans ?_
  rw [e]
  apply List.Sublist.length_le
  refine filter_sublist ?_
  intro j hj h
  rw [decide_eq_true_eq] at h
  rw [← e] at h ⊢
  exact hD.cellNear _ (hl.perm.lt (by omega)) _ (List.mem_range.mp hj) h.symm

end Blocks

/-! ## Counting -/

/-- The number of neighbours of point `i` behind primitive `k`. -/
def wt (D : DIn V w) (l : Lay) (i k : ℕ) : ℕ :=
  if k < l.m then (l.block k).countP (D.near i) else 1

lemma countBlock_eq (near : ℕ → Bool) (N : ℕ) (js : List ℕ) (c : ℕ) (hc : c < N) :
    countBlock near N js c =
      if c + js.countP near ≥ N then (N, true) else (c + js.countP near, false) := by
  induction js generalizing c with
  | nil => simp [countBlock]; omega
  | cons j js ih =>
    unfold countBlock
    rw [List.countP_cons]
    cases hj : near j
    · simp only [Bool.false_eq_true, if_false, Nat.add_zero]
      exact ih c hc
    · simp only [if_true]
      by_cases h : c + 1 ≥ N
      · rw [if_pos h, if_pos (by omega)]
        congr 1; omega
      · rw [if_neg h, ih (c + 1) (by omega)]
        have e : c + 1 + js.countP near = c + (js.countP near + 1) := by omega
        rw [e]

omit [SemilatticeSup V] [OrderBot V] in
lemma countStep_eq (D : DIn V w) (l : Lay) (i c k : ℕ) (hc : c < D.minPts) :
    D.countStep l i c k =
      if c + wt D l i k ≥ D.minPts then (D.minPts, true) else (c + wt D l i k, false) := by
  unfold DIn.countStep wt
  split_ifs with h1 h2 h2
  · rw [countBlock_eq _ _ _ _ hc, if_pos h2]
  · rw [countBlock_eq _ _ _ _ hc, if_neg h2]
  · rw [decide_eq_true h2]
    congr 1; omega
  · rw [decide_eq_false h2]

omit [SemilatticeSup V] [OrderBot V] in
lemma countOf_append (D : DIn V w) (l : Lay) (i : ℕ) (h : List ℕ) (k : ℕ) :
    D.countOf l i (h ++ [k]) = (D.countStep l i (D.countOf l i h) k).1 := by
  simp [DIn.countOf]

omit [SemilatticeSup V] [OrderBot V] in
lemma stop_append (D : DIn V w) (l : Lay) (i : ℕ) (h : List ℕ) (k : ℕ) :
    D.stop l i (h ++ [k]) = (D.countStep l i (D.countOf l i h) k).2 := by
  unfold DIn.stop
  rw [List.getLast?_append_of_ne_nil _ (by simp)]
  simp

omit [SemilatticeSup V] [OrderBot V] in
/-- The count of the calls made decides whether the sum of the weights reaches the threshold. -/
lemma countOf_spec (D : DIn V w) (l : Lay) (i : ℕ) (hN : 2 ≤ D.minPts) (calls : List ℕ)
    (hno : ∀ p, p <+: calls → p ≠ [] → p ≠ calls → D.stop l i p = false) :
    (D.countOf l i calls ≥ D.minPts ↔ D.minPts ≤ (calls.map (wt D l i)).sum) ∧
    (D.stop l i calls = true → D.minPts ≤ (calls.map (wt D l i)).sum) := by
  -- proper prefixes
  have key : ∀ p, p <+: calls → p ≠ calls →
      D.countOf l i p = (p.map (wt D l i)).sum ∧ (p.map (wt D l i)).sum < D.minPts := by
    intro p
    induction p using List.reverseRecOn with
    | nil => intro _ _; simp [DIn.countOf]; omega
    | append_singleton p k ih =>
      intro hp hne
      have hpp : p <+: calls := (List.prefix_append p [k]).trans hp
      have hpne : p ≠ calls := by
        rintro rfl
        have := hp.length_le
        simp at this
      obtain ⟨h1, h2⟩ := ih hpp hpne
      have hs := hno (p ++ [k]) hp (by simp) hne
      rw [stop_append, h1, countStep_eq D l i _ k h2] at hs
      rw [countOf_append, h1, countStep_eq D l i _ k h2]
      split_ifs at hs ⊢ with h
      simp only [List.map_append, List.sum_append, List.map_cons, List.map_nil, List.sum_singleton]
      exact ⟨trivial, by omega⟩
  rcases List.eq_nil_or_concat calls with h0 | ⟨p, k, h0⟩
  · subst h0
    simp [DIn.countOf, DIn.stop]
  · rw [List.concat_eq_append] at h0
    subst h0
    obtain ⟨h1, h2⟩ := key p (List.prefix_append _ _) (by
      intro e
      have := congrArg List.length e
      simp at this)
    rw [countOf_append, stop_append, h1, countStep_eq D l i _ k h2]
    simp only [List.map_append, List.sum_append, List.map_cons, List.map_nil, List.sum_singleton]
    split_ifs with h
    · exact ⟨⟨fun _ => h, fun _ => le_rfl⟩, fun _ => h⟩
    · exact ⟨Iff.rfl, fun hh => absurd hh (by simp)⟩

lemma sum_filter (f : ℕ → ℕ) (p : ℕ → Bool) (l : List ℕ) :
    ((l.filter p).map f).sum = (l.map (fun k => if p k then f k else 0)).sum := by
  induction l with
  | nil => rfl
  | cons a l ih =>
    rw [List.filter_cons]
    cases h : p a <;> simp [h, ih]

lemma countP_flatMap' (p : ℕ → Bool) (f : ℕ → List ℕ) (l : List ℕ) :
    (l.flatMap f).countP p = (l.map (fun k => (f k).countP p)).sum := by
  induction l with
  | nil => rfl
  | cons a l ih => simp [List.countP_append, ih]

section Core

variable {D : DIn V w} {l : Lay} (hl : LayOk D l) (hD : D.Valid)
include hl hD

/-- The weights of the hits add up to the number of neighbours. -/
lemma weights_sum {i : ℕ} (hi : i < D.n) :
    (((List.range (l.prims D.n)).filter (D.hit l i)).map (wt D l i)).sum
      = ((List.range D.n).filter (D.near i)).length := by
  rw [sum_filter, ← List.countP_eq_length_filter, ← (all_points hl).countP_eq, List.countP_append,
    countP_flatMap']
  unfold Lay.prims
  rw [List.range_add, List.map_append, List.sum_append]
  congr 1
  · congr 1
    apply List.map_congr_left
    intro k hk
    rw [List.mem_range] at hk
    unfold wt
    rw [if_pos hk]
    cases hh : D.hit l i k
    · simp only [Bool.false_eq_true, if_false]
      symm
      rw [List.countP_eq_zero]
      intro j hj hn
      rw [hit_of_near hl hD hi hk hj hn] at hh
      simp at hh
    · simp
  · rw [List.map_map, List.countP_map]
    have : ∀ q, ((fun k => if D.hit l i k = true then wt D l i k else 0) ∘ fun x => l.m + x) q
        = if (D.near i ∘ fun q => l.sparse (l.m + q)) q = true then 1 else 0 := by
      intro q
      have hq : ¬ l.m + q < l.m := by omega
      simp only [Function.comp, DIn.hit, wt, if_neg hq]
    rw [List.map_congr_left (fun q _ => this q)]
    generalize (D.near i ∘ fun q => l.sparse (l.m + q)) = p
    induction (List.range (D.n - l.nd)) with
    | nil => rfl
    | cons a as ih => rw [List.map_cons, List.sum_cons, List.countP_cons, ih]; omega

variable (sched : List ℕ) (hB : (D.tree l).Finished sched) (fuel : ℕ) (hfuel : 2 * D.n ≤ fuel)
include hB hfuel

lemma count_spec {i : ℕ} (hi : i < D.n) :
    ∃ calls, D.count ((D.tree l).build sched) l fuel i = .done calls ∧
      decide (D.countOf l i calls ≥ D.minPts) = decide (Core D.n D.near D.minPts i) := by
  obtain ⟨order, hp, H⟩ := spatial_query (D.tree l) (tree_valid hl hD) (D.hit l i) (D.pv i) (hit_mono hl hD i)
  obtain ⟨calls, h1, h2, h3, h4⟩ := H sched hB (D.stop l i) fuel
    (by have := prims_le hl; change 2 * l.prims D.n ≤ fuel; omega)
  refine ⟨calls, h1, ?_⟩
  have hst : (D.tree l).stored = List.range (l.prims D.n) := by simp [Input.stored, DIn.tree]
  rw [hst] at hp
  have hsum : (order.map (wt D l i)).sum = ((List.range D.n).filter (D.near i)).length := by
    rw [(hp.map (wt D l i)).sum_eq, weights_sum hl hD hi]
  obtain ⟨c1, c2⟩ := countOf_spec D l i hD.minPts calls h3
  rw [decide_eq_decide, c1]
  unfold Core
  rw [← hsum]
  obtain ⟨rest, rfl⟩ := h2
  rw [List.map_append, List.sum_append]
  constructor
  · intro h; omega
  · intro h
    rcases h4 with h4 | h4
    · have : rest = [] := by
        have := congrArg List.length h4
        simpa using this
      subst this
      simpa using h
    · exact c2 h4

omit hl hD hB hfuel in
lemma isCore_two (h2 : D.minPts = 2) : D.isCore ((D.tree l).build sched) l fuel = fun _ => true := by
  funext i; unfold DIn.isCore; rw [if_pos h2]

lemma isCore_many (h2 : D.minPts ≠ 2) {i : ℕ} (hi : i < D.n) :
    D.isCore ((D.tree l).build sched) l fuel i = decide (Core D.n D.near D.minPts i) := by
  unfold DIn.isCore
  rw [if_neg h2]
  split_ifs with h
  · rw [decide_eq_true (dense_core hl hD h)]
  · obtain ⟨calls, h1, h2⟩ := count_spec hl hD sched hB fuel hfuel hi
    rw [h1]
    exact h2

omit hl hD hB hfuel in
lemma isCore_dense {i : ℕ} (h : l.isDense i = true) : D.isCore ((D.tree l).build sched) l fuel i = true := by
  unfold DIn.isCore
  rw [h]
  simp

end Core

end ArborX.DenseBox
