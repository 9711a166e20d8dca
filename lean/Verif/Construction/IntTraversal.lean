import Verif.Construction.Int
import Verif.Nearest.Theorems
import Verif.Ordered.Theorems

/-!
# Node numbers of type `int` in the other traversals (C91)

All traversals access nodes through `HappyTreeFriends`. A node whose access overflows is a node that cannot be accessed: it is removed from the memory, so that
every traversal that accesses it fails.
-/

namespace ArborX

open Construction Traversal

variable {α V : Type}

/-- The node arrays as seen through `HappyTreeFriends` with `int`s (`src/spatial/detail/ArborX_HappyTreeFriends.hpp` 33-84): the accesses that compute a value
that is not an `int` fail. -/
def Mem.checked (debug : Bool) (mem : Mem α V) : Mem α V where
  size := mem.size
  leaf i := if AreInts (nodeInts debug mem.size i) then mem.leaf i else none
  internal j := if AreInts (nodeInts debug mem.size (j + mem.size)) then mem.internal j else none

/-! ## Lemmas -/

lemma Mem.checked_size (debug : Bool) (mem : Mem α V) : (mem.checked debug).size = mem.size := by rw [Mem.checked]

lemma Mem.checked_leaf (debug : Bool) (mem : Mem α V) (i : ℕ) :
    (mem.checked debug).leaf i = if AreInts (nodeInts debug mem.size i) then mem.leaf i else none := by rw [Mem.checked]

lemma Mem.checked_internal (debug : Bool) (mem : Mem α V) (j : ℕ) :
    (mem.checked debug).internal j = if AreInts (nodeInts debug mem.size (j + mem.size)) then mem.internal j else none := by rw [Mem.checked]

namespace Traversal

/-- For the spatial traversal, where the checks are written at each node (`spatialLoopI`), the effect is the same. -/
lemma spatialLoopI_checked (debug : Bool) (mem : Mem α V) (pl : α → Bool) (pv : V → Bool) (stop : List α → Bool) :
    ∀ (fuel : ℕ) (o : Option ℕ) (acc : List α),
      spatialLoopI debug mem pl pv stop fuel o acc = spatialLoop (mem.checked debug) pl pv stop fuel o acc := by
  intro fuel
  induction fuel with
  | zero => intro o acc; cases o <;> rfl
  | succ fuel ih =>
    intro o acc
    cases o with
    | none => rfl
    | some node =>
      rw [spatialLoopI, spatialLoop]
      rw [Mem.checked_size]
      by_cases hn : node < mem.size
      · rw [if_pos hn, if_pos hn]
        rw [Mem.checked_leaf]
        split_ifs with hi
        · cases mem.leaf node with
          | none => rfl
          | some lf => dsimp only; rw [ih, ih]
        · rfl
      · rw [if_neg hn, if_neg hn]
        have e2 : (mem.checked debug).internal (node - mem.size) = if AreInts (nodeInts debug mem.size node) then mem.internal (node - mem.size) else none := by
          rw [Mem.checked_internal, Nat.sub_add_cancel (by omega)]
        rw [e2]
        split_ifs with hi
        · cases mem.internal (node - mem.size) with
          | none => rfl
          | some nd => dsimp only; rw [ih, ih]
        · rfl

end Traversal

namespace BVH

variable {w : ℕ} [SemilatticeSup V] [OrderBot V]

/-- Only the nodes of the tree are written. -/
lemma Input.run_written (I : Input α V w) (h : I.Valid) (hn : 2 ≤ I.n) (sched : List ℕ) :
    (∀ i, I.n ≤ i → (run I.params sched).leaf i = none) ∧ ∀ j, I.n ≤ j → (run I.params sched).internal j = none := by
  have g := (h.keys hn).good
  have hm : I.params.m = I.n - 1 := rfl
  have : ∀ (l : List ℕ) (s : State α V) blk, Inv I.params s blk →
      ((∀ i, I.n ≤ i → s.leaf i = none) ∧ ∀ j, I.n ≤ j → s.internal j = none) →
      (∀ i, I.n ≤ i → (l.foldl (step I.params) s).leaf i = none) ∧ ∀ j, I.n ≤ j → (l.foldl (step I.params) s).internal j = none := by
    intro l
    induction l with
    | nil => intro s _ _ hb; exact hb
    | cons t l ih =>
      intro s blk hI hb
      obtain ⟨blk', hI'⟩ := inv_step g hI t
      refine ih _ _ hI' ?_
      unfold step
      split
      · exact hb
      rename_i ht
      have hT := hI.thr t (by omega)
      unfold ThrInv at hT
      cases hs : s.thr t with
      | init =>
        refine ⟨fun i hi => ?_, hb.2⟩
        dsimp only
        rw [Function.update_of_ne (by omega)]
        exact hb.1 i hi
      | loop i l r dl dr bv =>
        dsimp only
        split_ifs
        · split <;> exact hb
        · exact hb
        · split <;> exact hb
        · exact hb
      | readR i l r dl bv p => dsimp only; split <;> exact hb
      | readL l r dr bv p => dsimp only; split <;> exact hb
      | write l r dl dr bv left =>
        rw [hs] at hT
        obtain ⟨hbk, -, -, p, hl, -, -, x', y', h5, h6, -⟩ := hT
        have o := hI.out _ _ _ hbk
        have := h5.le
        have := h6.le
        have hk : (if dr < dl then r else l) < I.n := by split_ifs <;> omega
        dsimp only
        generalize (if dr < dl then r else l) = k at hk
        split
        · refine ⟨hb.1, fun j hj => ?_⟩
          dsimp only
          rw [Function.update_of_ne (by omega)]
          exact hb.2 j hj
        · exact hb
      | done => exact hb
      | fault => exact hb
  exact this sched _ _ inv_init ⟨fun _ _ => rfl, fun _ _ => rfl⟩

/-! ## Property theorems -/

/-- **C91.** Up to `2^30` values (less than `2^30` in builds with assertions) no access to a node of the tree overflows: the tree built with `int`s and seen through
accesses with `int`s is the one of natural numbers, for every traversal. -/
theorem int_accesses (debug : Bool) (I : Input α V w) (h : I.Valid) (hbig : I.n ≤ 2 ^ 30) (hdebug : debug = true → I.n < 2 ^ 30) (sched : List ℕ) :
    (I.buildI sched).checked debug = I.build sched := by
  rw [(int_construction I h hbig sched).1]
  have key : (∀ i, 2 * I.n ≤ i → (I.build sched).leaf i = none) ∧ ∀ j, I.n ≤ j → (I.build sched).internal j = none := by
    unfold Input.build
    split_ifs with h0 h1
    · exact ⟨fun _ _ => rfl, fun _ _ => rfl⟩
    · refine ⟨fun i hi => ?_, fun _ _ => rfl⟩
      dsimp only
      rw [if_neg (by omega)]
    · have := I.run_written h (by omega) sched
      exact ⟨fun i hi => this.1 i (by omega), this.2⟩
  have hsz : (I.build sched).size = I.n := build_size I sched
  have hok : ∀ node, 1 ≤ I.n → node < 2 * I.n → AreInts (nodeInts debug I.n node) :=
    fun node h1 h2 => nodeInts_ok h1 hbig hdebug (by omega)
  have e1 : ((I.build sched).checked debug).leaf = (I.build sched).leaf := by
    funext i
    rw [Mem.checked_leaf, hsz]
    by_cases hi : i < 2 * I.n
    · rw [if_pos (hok i (by omega) hi)]
    · rw [key.1 i (by omega), ite_self]
  have e2 : ((I.build sched).checked debug).internal = (I.build sched).internal := by
    funext j
    rw [Mem.checked_internal, hsz]
    by_cases hj : j < I.n
    · rw [if_pos (hok _ (by omega) (by omega))]
    · rw [key.2 j (by omega), ite_self]
  have e0 := Mem.checked_size debug (I.build sched)
  generalize (I.build sched).checked debug = m at e0 e1 e2
  generalize I.build sched = m' at e0 e1 e2
  cases m
  cases m'
  dsimp only at e0 e1 e2
  rw [e0, e1, e2]

/-- **C91.** A nearest query with `int`s as node numbers returns the `k` nearest values. -/
theorem int_nearest_query {D : Type} [LinearOrder D] (debug : Bool) (I : Input α V w) (h : I.Valid) (hn : I.n ≠ 1) (hbig : I.n ≤ 2 ^ 30)
    (hdebug : debug = true → I.n < 2 ^ 30) (q : Nearest.Query α V D) (had : Nearest.Admissible q I.vol) (hz : ∀ a, q.zero ≤ q.dl a)
    (hcap : Nearest.StackFits I q.cap) (sched : List ℕ) (hf : I.FinishedI sched) (fuel : ℕ) (hfuel : 2 * I.n ≤ fuel) :
    ∃ calls, Nearest.nearestQuery ((I.buildI sched).checked debug) q fuel = .done calls ∧ Nearest.IsKNearest q.dl q.inf q.k I.stored calls := by
  rw [int_accesses debug I h hbig hdebug]
  exact Nearest.nearest_query I h hn q had hz hcap sched ((int_construction I h hbig sched).2.mp hf) fuel hfuel

/-- **C91.** A ray traversal in order with `int`s as node numbers calls back on all values if all are hit, in order. -/
theorem int_ordered_query {D : Type} [LinearOrder D] (debug : Bool) (I : Input α V w) (h : I.Valid) (hbig : I.n ≤ 2 ^ 30)
    (hdebug : debug = true → I.n < 2 ^ 30) (q : Ordered.Query α V D) (had : Ordered.Admissible q I.vol) (hfin : ∀ a, q.dl a < q.inf)
    (hcap : Ordered.BufferFits I q) (sched : List ℕ) (hf : I.FinishedI sched) (fuel : ℕ) (hfuel : 2 * I.n ≤ fuel) :
    ∃ calls, Ordered.orderedQuery ((I.buildI sched).checked debug) q (fun _ => false) fuel = .done calls ∧
      calls.Perm I.stored ∧ calls.Pairwise (fun a b => q.dl a ≤ q.dl b) := by
  rw [int_accesses debug I h hbig hdebug]
  exact Ordered.ordered_query_all_hit I h q had hfin hcap sched ((int_construction I h hbig sched).2.mp hf) fuel hfuel

/-- **C91.** The traversal of pairs with `int`s as node numbers reports the matching pairs, each once. -/
theorem int_half_traversal (debug : Bool) (I : Input α V w) (h : I.Valid) (hbig : I.n ≤ 2 ^ 30) (hdebug : debug = true → I.n < 2 ^ 30)
    (pl : α → α → Bool) (pv : α → V → Bool) (symm : ∀ a b, pl a b = pl b a) (mono : ∀ a, Traversal.Monotone I.vol (pl a) (pv a))
    (sched : List ℕ) (hf : I.FinishedI sched) (fuel : ℕ) (hfuel : 2 * I.n ≤ fuel) :
    ∃ R, halfPairs ((I.buildI sched).checked debug) pl pv fuel (List.range I.n) = some R ∧
      (R.map (fun p => s(p.1, p.2))).Perm (((pairs I.stored).filter (fun p => pl p.1 p.2)).map (fun p => s(p.1, p.2))) := by
  rw [int_accesses debug I h hbig hdebug]
  exact half_traversal_exact I h pl pv symm mono sched ((int_construction I h hbig sched).2.mp hf) fuel hfuel

/-- **C91 (defect).** In builds with assertions the other traversals overflow as well on a tree of exactly `2^30` values. -/
theorem int_traversals_debug_overflow {D : Type} [LinearOrder D] (I : Input α V w) (hn : I.n = 2 ^ 30) (sched : List ℕ) (fuel : ℕ) :
    (∀ q : Nearest.Query α V D, 1 ≤ q.k → q.zero < q.inf → Nearest.nearestQuery ((I.buildI sched).checked true) q (fuel + 1) = .fault) ∧
    (∀ (q : Ordered.Query α V D) stop, Ordered.orderedQuery ((I.buildI sched).checked true) q stop (fuel + 1) = .fault) ∧
    ∀ (pl : α → α → Bool) (pv : α → V → Bool) i, halfQuery ((I.buildI sched).checked true) pl pv fuel i = .fault := by
  have hs : (I.buildI sched).size = 2 ^ 30 := by
    unfold Input.buildI
    rw [if_neg (by omega), if_neg (by omega)]
    exact hn
  have hs' : ((I.buildI sched).checked true).size = 2 ^ 30 := by rw [Mem.checked_size]; exact hs
  have hbad : ∀ node, ¬ AreInts (nodeInts true (I.buildI sched).size node) := by
    intro node hi
    have := (hi (2 * ((I.buildI sched).size : ℤ)) (by simp [nodeInts])).2
    rw [hs] at this
    norm_num at this
  have hl : ∀ i, ((I.buildI sched).checked true).leaf i = none := fun i => by rw [Mem.checked_leaf, if_neg (hbad _)]
  have hi : ∀ i, ((I.buildI sched).checked true).internal i = none := fun i => by rw [Mem.checked_internal, if_neg (hbad _)]
  have hc : ∀ node, Nearest.children ((I.buildI sched).checked true) node = none := by
    intro node
    unfold Nearest.children
    rw [hi]
    simp
  refine ⟨fun q hk hz => ?_, fun q stop => ?_, fun pl pv i => ?_⟩
  · unfold Nearest.nearestQuery
    rw [if_neg (by rw [hs']; norm_num), if_neg (by rw [hs']; norm_num)]
    unfold Nearest.fullTree
    rw [if_neg (by omega), Nearest.loop, if_pos hz, hc]
  · unfold Ordered.orderedQuery
    rw [if_neg (by rw [hs']; norm_num), if_neg (by rw [hs']; norm_num), Ordered.loop, if_neg (by omega), hc]
  · unfold halfQuery
    rw [if_neg (by rw [hs']; norm_num), hl]

/-! ## Non-vacuity -/

/-- The traversal of pairs of a billion values, of which all pairs of equal ones match. -/
example : ∃ sched R, halfPairs (((equalValues 1000000000).buildI sched).checked true) (fun a b => a == b) (fun a v => a ∈ v) 2000000000
    (List.range (equalValues 1000000000).n) = some R := by
  have hv := equalValues_valid (show 1000000000 ≤ 2 ^ 63 by norm_num)
  obtain ⟨sched, hs⟩ := Construction.exists_complete (equalValues 1000000000).params (hv.keys (by show 2 ≤ 1000000000; norm_num))
  have hbig : (equalValues 1000000000).n < 2 ^ 30 := by show 1000000000 < 2 ^ 30; norm_num
  have hf := (int_construction (equalValues 1000000000) hv hbig.le sched).2.mpr (fun _ => hs)
  obtain ⟨R, h1, -⟩ := int_half_traversal true (equalValues 1000000000) hv hbig.le (fun _ => hbig) (fun a b => a == b) (fun a v => decide (a ∈ v))
    (fun a b => Bool.beq_comm)
    (by
      intro a b v hb h7
      have : a = b := by simpa using h7
      subst this
      exact decide_eq_true (hb (Finset.mem_singleton_self _)))
    sched hf 2000000000 (by show 2 * 1000000000 ≤ 2000000000; norm_num)
  exact ⟨sched, R, h1⟩

/-- A nearest query on a billion values. -/
example : ∃ sched calls, Nearest.nearestQuery (((equalValues 1000000000).buildI sched).checked true) Nearest.exampleQuery 2000000000 = .done calls ∧
    Nearest.IsKNearest Nearest.exampleQuery.dl ⊤ 3 (equalValues 1000000000).stored calls := by
  have hv := equalValues_valid (show 1000000000 ≤ 2 ^ 63 by norm_num)
  obtain ⟨sched, hs⟩ := Construction.exists_complete (equalValues 1000000000).params (hv.keys (by show 2 ≤ 1000000000; norm_num))
  have hbig : (equalValues 1000000000).n < 2 ^ 30 := by show 1000000000 < 2 ^ 30; norm_num
  have hf := (int_construction (equalValues 1000000000) hv hbig.le sched).2.mpr (fun _ => hs)
  have hcap : Nearest.StackFits (equalValues 1000000000) 64 :=
    Nearest.stack_suffices_codes (K := 30) (c := 34) (equalValues 1000000000) hv hbig.le (by norm_num)
      (fun i _ => by show (0 : BitVec 64).toNat < _; simp) (by norm_num)
  obtain ⟨calls, h1, h2⟩ := int_nearest_query true (equalValues 1000000000) hv (by show 1000000000 ≠ 1; norm_num) hbig.le (fun _ => hbig) Nearest.exampleQuery
    (fun a v h => Finset.inf_le (Finset.singleton_subset_iff.mp h)) (fun a => bot_le (α := WithTop ℕ)) hcap sched hf 2000000000 (by show 2 * 1000000000 ≤ 2000000000; norm_num)
  exact ⟨sched, calls, h1, h2⟩

/-- A traversal in order. -/
example : ∃ sched calls, Ordered.orderedQuery (((equalValues 60).buildI sched).checked true)
    (⟨fun a => a + 1, fun _ => 0, ⊤, 64⟩ : Ordered.Query ℕ (Finset ℕ) (WithTop ℕ)) (fun _ => false) 120 = .done calls ∧ calls.Perm (equalValues 60).stored := by
  have hv := equalValues_valid (show 60 ≤ 2 ^ 63 by norm_num)
  obtain ⟨sched, hs⟩ := Construction.exists_complete (equalValues 60).params (hv.keys (by show 2 ≤ 60; norm_num))
  have hbig : (equalValues 60).n < 2 ^ 30 := by show 60 < 2 ^ 30; norm_num
  have hf := (int_construction (equalValues 60) hv hbig.le sched).2.mpr (fun _ => hs)
  obtain ⟨calls, h1, h2, -⟩ := int_ordered_query true (equalValues 60) hv hbig.le (fun _ => hbig)
    (⟨fun a => a + 1, fun _ => 0, ⊤, 64⟩ : Ordered.Query ℕ (Finset ℕ) (WithTop ℕ)) ⟨fun _ _ _ => bot_le, fun _ _ _ => le_rfl⟩
    (fun a => by exact_mod_cast WithTop.coe_lt_top (a + 1)) (Ordered.ordered_small _ _ (by show 60 ≤ 64 + 1; norm_num)) sched hf 120
    (by show 2 * 60 ≤ 120; norm_num)
  exact ⟨sched, calls, h1, h2⟩

end BVH

end ArborX
