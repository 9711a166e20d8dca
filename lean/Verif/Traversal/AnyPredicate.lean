import Verif.Traversal.Theorems

/-!
# Spatial queries with predicates that are not monotone (C01)

A user predicate may accept a value and reject a bounding volume around it: a test with a tolerance, a test with rounding errors, an
approximate test on the internal nodes. What the query still guarantees.
-/

set_option linter.unusedSectionVars false

namespace ArborX.Traversal

open BVH Construction

variable {α V : Type} {w : ℕ} [SemilatticeSup V] [OrderBot V]
variable {mem : Mem α V} {value : ℕ → α} {vol : α → V} {pl : α → Bool} {pv : V → Bool} {stop : List α → Bool}

/-- The values reached: the predicate accepts the value and the volumes of all subtrees around it. -/
def found (value : ℕ → α) (vol : α → V) (pl : α → Bool) (pv : V → Bool) : BTree → List α
  | .leaf i => if pl (value i) then [value i] else []
  | .node a b => if pv ((BTree.node a b).vol (fun i => vol (value i))) then found value vol pl pv a ++ found value vol pl pv b else []

lemma found_tree (T : BTree) : ∀ id rope acc, Layout mem value vol T id rope →
    ∃ c ≤ T.size, ∀ fuel, spatialLoop mem pl pv stop (fuel + c) (some id) acc =
      cont mem pl pv stop fuel rope (scan stop acc (found value vol pl pv T)) := by
  induction T with
  | leaf i =>
    rintro id rope acc ⟨rfl, hlt, hl⟩
    refine ⟨1, le_rfl, fun fuel => ?_⟩
    rw [spatialLoop, if_pos hlt, hl]
    dsimp only [found]
    by_cases hp : pl (value id) = true
    · rw [if_pos hp, if_pos hp]
      by_cases hs : stop (acc ++ [value id]) = true <;> simp [hs, cont, scan]
    · rw [if_neg hp, if_neg hp]
      simp [scan, cont]
  | node a b iha ihb =>
    rintro id rope acc ⟨ia, ib, hsz, hn, ha, hb⟩
    by_cases hp : pv ((BTree.node a b).vol (fun i => vol (value i))) = true
    · obtain ⟨ca, hca, hfa⟩ := iha ia (some ib) acc ha
      set s1 := scan stop acc (found value vol pl pv a) with hs1
      obtain ⟨cb, hcb, hfb⟩ := ihb ib rope s1.1 hb
      refine ⟨cb + ca + 1, by simp [BTree.size]; omega, fun fuel => ?_⟩
      rw [← Nat.add_assoc fuel, spatialLoop, if_neg (by omega), hn]
      dsimp only [found]
      rw [if_pos hp, if_pos hp, ← Nat.add_assoc, hfa]
      rw [scan_append, ← hs1]
      by_cases h2 : s1.2 = true
      · simp [cont, h2]
      · rw [if_neg h2]
        simp only [cont, h2, Bool.false_eq_true, if_false]
        rw [hfb]; rfl
    · refine ⟨1, by simp [BTree.size], fun fuel => ?_⟩
      rw [spatialLoop, if_neg (by omega), hn]
      dsimp only [found]
      rw [if_neg hp, if_neg hp]
      simp [scan, cont]

lemma found_sublist (T : BTree) : (found value vol pl pv T).Sublist (hits value pl T.leaves) := by
  induction T with
  | leaf i => by_cases hp : pl (value i) = true <;> simp [found, hits, BTree.leaves, hp]
  | node a b iha ihb =>
    rw [found, BTree.leaves, hits_append]
    split_ifs
    · exact iha.append ihb
    · exact List.nil_sublist _

/-- The values which are sure to be reached. -/
lemma sure_sublist (sure : α → Bool) (hs : ∀ a, sure a = true → pl a = true ∧ ∀ v, vol a ≤ v → pv v = true) (T : BTree) :
    (hits value sure T.leaves).Sublist (found value vol pl pv T) := by
  induction T with
  | leaf i =>
    by_cases hp : sure (value i) = true
    · simp [found, hits, BTree.leaves, hp, (hs _ hp).1]
    · simp [found, hits, BTree.leaves, hp]
  | node a b iha ihb =>
    rw [found]
    split_ifs with hp
    · rw [BTree.leaves, hits_append]; exact iha.append ihb
    · have : hits value sure (BTree.node a b).leaves = [] := by
        unfold hits
        rw [List.filter_eq_nil_iff]
        intro x hx hpx
        obtain ⟨i, hi, rfl⟩ := List.mem_map.mp hx
        exact hp ((hs _ hpx).2 _ (BTree.le_vol (fun i => vol (value i)) _ i hi))
      rw [this]

/-- **C01.** With any predicate whatsoever the query terminates, and the callback is called only on stored values which satisfy the predicate, not more
often than they are stored, and on every stored value which satisfies the predicate and is such that the predicate accepts the
bounding volumes around it. The order of the calls does not depend on the schedule of the construction. -/
theorem spatial_query_any (I : Input α V w) (h : I.Valid) (pl : α → Bool) (pv : V → Bool) :
    ∃ calls : List α, (∀ sched, I.Finished sched → ∀ fuel, 2 * I.n ≤ fuel →
        spatialQuery (I.build sched) pl pv (fun _ => false) fuel = .done calls) ∧
      calls.Subperm (I.stored.filter pl) ∧
      ∀ sure : α → Bool, (∀ a, sure a = true → pl a = true ∧ ∀ v, I.vol a ≤ v → pv v = true) → (I.stored.filter sure).Subperm calls := by
  rcases Nat.lt_or_ge I.n 2 with hn | hn
  · refine ⟨I.stored.filter pl, fun sched _ fuel _ => ?_, List.Subperm.refl _, fun sure hs => ?_⟩
    · unfold spatialQuery
      rw [build_size]
      rcases (by omega : I.n = 0 ∨ I.n = 1) with h0 | h1
      · rw [if_pos h0]; simp [Input.stored, h0]
      · rw [if_neg (by omega), if_pos h1]
        simp only [spatialOneLeaf, Input.build, h1, Input.stored]
        by_cases hp : pl (I.values 0) = true <;> simp [hp]
    · exact (List.monotone_filter_right _ (fun a ha => (hs a ha).1)).subperm
  · obtain ⟨T, hT⟩ := build_wellFormed I h hn
    have hleaves : T.leaves = List.range I.n := by
      obtain ⟨s0, hs0⟩ := exists_complete I.params (h.keys hn)
      have := (hT s0 (fun _ => hs0)).1
      rwa [build_size] at this
    refine ⟨found (fun i => I.values (I.perm i)) I.vol pl pv T, fun sched hf fuel hfuel => ?_, ?_, fun sure hs => ?_⟩
    · obtain ⟨-, hlay⟩ := hT sched hf
      rw [build_size] at hlay
      obtain ⟨c, hc, hloop⟩ := found_tree (pl := pl) (pv := pv) (stop := fun _ => false) T _ _ [] hlay
      have hsz := size_eq T
      rw [hleaves, List.length_range] at hsz
      unfold spatialQuery
      rw [build_size, if_neg (by omega), if_neg (by omega)]
      have := hloop (fuel - c)
      rw [Nat.sub_add_cancel (by omega)] at this
      rw [this, scan_false]
      simp only [cont, Bool.false_eq_true, if_false, List.nil_append]
      cases fuel - c <;> rfl
    · have h1 := found_sublist (value := fun i => I.values (I.perm i)) (vol := I.vol) (pl := pl) (pv := pv) T
      rw [hleaves] at h1
      exact h1.subperm.trans ((h.stored_perm).filter pl).subperm
    · have h1 := sure_sublist (value := fun i => I.values (I.perm i)) (vol := I.vol) (pl := pl) (pv := pv) sure hs T
      rw [hleaves] at h1
      exact ((h.stored_perm).filter sure).symm.subperm.trans h1.subperm

/-- A predicate that accepts everything but the volume of all values finds nothing; one that accepts all volumes is exact. -/
example : (found (fun i => i) (fun a => ({a} : Finset ℕ)) (fun _ => true) (fun v => decide (v.card ≤ 2)) (.node (.leaf 0) (.node (.leaf 1) (.leaf 2))) = [])
    ∧ (found (fun i => i) (fun a => ({a} : Finset ℕ)) (fun a => a != 1) (fun _ => true) (.node (.leaf 0) (.node (.leaf 1) (.leaf 2))) = [0, 2]) := by
  decide

end ArborX.Traversal
