import Verif.Nearest.Lemmas
import Verif.Nearest.StackDepth
import Verif.Nearest.Spec
import Verif.Traversal.Theorems

/-!
# Property theorems: nearest query (C05) and its stack (C06)
-/

set_option linter.unusedSectionVars false

namespace ArborX.Nearest

open BVH Construction

variable {α V D : Type} {w : ℕ} [SemilatticeSup V] [OrderBot V] [LinearOrder D]

/-- A stack of `cap` entries is large enough for the hierarchy built for `I`: no path from the root
meets `cap` nodes with two internal children (one entry of the stack is the sentinel). -/
def StackFits (I : Input α V w) (cap : ℕ) : Prop :=
  ∀ T, CartTree (deltaBits (fun i => I.code (I.perm i))) 0 (I.n - 1) T → need T < cap

/-- **C05.** The same with any distances whatsoever, of values and of volumes: what is returned is in order, and a value is only left out if its distance,
or that of one of the volumes around it, is not below those of the values returned. -/
theorem nearest_query_any (I : Input α V w) (h : I.Valid) (hn : I.n ≠ 1) (q : Query α V D)
    (up : α → D) (hup : ∀ a, q.dl a ≤ up a ∧ ∀ v, I.vol a ≤ v → q.dv v ≤ up a)
    (hz : ∀ a, q.zero ≤ up a) (hcap : StackFits I q.cap)
    (sched : List ℕ) (hf : I.Finished sched) (fuel : ℕ) (hfuel : 2 * I.n ≤ fuel) :
    ∃ calls, nearestQuery (I.build sched) q fuel = .done calls ∧
      IsKNearestUpTo q.dl up q.inf q.k I.stored calls := by
  unfold nearestQuery
  rw [build_size]
  by_cases h0 : I.n = 0
  · rw [if_pos h0]
    exact ⟨[], rfl, [], by simp [Input.stored, h0], by simp, by simp, by simp, by simp, by simp⟩
  · rw [if_neg h0, if_neg hn]
    unfold fullTree
    by_cases hk : q.k < 1
    · rw [if_pos hk]
      exact ⟨[], rfl, I.stored, by simp, by simp, by simp, by simp, by simp, by simp; omega⟩
    · rw [if_neg hk]
      obtain ⟨T, hcart, hT⟩ := build_cartesian I h (by omega)
      obtain ⟨hl, hlay⟩ := hT sched hf
      rw [build_size] at hl hlay
      have hsz := Traversal.size_eq T
      rw [hl, List.length_range] at hsz
      have hnode : isNode T = true := by
        cases T with
        | leaf i => simp [BTree.size] at hsz; omega
        | node a b => rfl
      have hh := hcap T hcart
      obtain ⟨c, heap, r, c1, c2, hP, hr, hloop⟩ := loop_tree (q := q) (up := fun i => up (I.values (I.perm i))) (by omega)
        (fun i => hup _) T _ _ hlay hnode
        q.zero (fun i _ => hz _) [] [] q.inf 0 (Proc.init (by omega))
        (by simp only [List.length_nil]; omega)
      have := hloop (fuel - c)
      rw [Nat.sub_add_cancel (by omega)] at this
      rw [build_size, this]
      simp only [popCont]
      obtain ⟨srt, s1, s2, s3⟩ := Heap.sortHeap_correct cmp_sw heap hP.isHeap
      rw [s1]
      dsimp only
      obtain ⟨R, hR1, hR2⟩ := hP.rej
      rw [add_zero] at hR1
      have hmemlt : ∀ x ∈ srt, x.1 < I.n ∧ x.2 = q.dl (I.values (I.perm x.1)) := by
        intro x hx
        have hx' : x ∈ lp q (fun i => I.values (I.perm i)) T := by
          rw [hR1]; exact Multiset.mem_add.mpr (.inl (by simpa using s2.mem_iff.mp hx))
        simp only [lp, Multiset.mem_coe, List.mem_map] at hx'
        obtain ⟨i, hi, rfl⟩ := hx'
        rw [hl] at hi
        exact ⟨List.mem_range.mp hi, rfl⟩
      rw [output_map (n := I.n) (value := fun i => I.values (I.perm i)) (by
        intro i hi
        exact layout_leaf T _ _ hlay i (by rw [hl]; exact List.mem_range.mpr hi)) srt
        (fun x hx => (hmemlt x hx).1)]
      refine ⟨_, rfl, ?_⟩
      -- the specification
      have hRmem : ∀ x ∈ R, x.1 < I.n ∧ x.2 = q.dl (I.values (I.perm x.1)) := by
        intro x hx
        have hx' : x ∈ lp q (fun i => I.values (I.perm i)) T := by
          rw [hR1]; exact Multiset.mem_add.mpr (.inr hx)
        simp only [lp, Multiset.mem_coe, List.mem_map] at hx'
        obtain ⟨i, hi, rfl⟩ := hx'
        rw [hl] at hi
        exact ⟨List.mem_range.mp hi, rfl⟩
      have hlen : srt.length = heap.length := s2.length_eq
      refine ⟨R.toList.map (fun x => I.values (I.perm x.1)), ?_, ?_, ?_, ?_, ?_, ?_⟩
      · rw [← List.map_append]
        refine List.Perm.trans ?_ h.stored_perm
        have : (srt ++ R.toList).Perm ((List.range I.n).map (fun i => (i, q.dl (I.values (I.perm i))))) := by
          rw [← Multiset.coe_eq_coe, ← Multiset.coe_add, Multiset.coe_toList,
            Multiset.coe_eq_coe.mpr s2, ← hR1, lp, hl]
        have := this.map (fun x => I.values (I.perm x.1))
        simpa [List.map_map, Function.comp_def] using this
      · rw [List.pairwise_map]
        refine List.Pairwise.imp_of_mem ?_ s3
        intro x y hx hy hxy
        simp only [cmp, decide_eq_false_iff_not, not_lt] at hxy
        rw [← (hmemlt x hx).2, ← (hmemlt y hy).2]
        exact hxy
      · intro a ha
        obtain ⟨x, hx, rfl⟩ := List.mem_map.mp ha
        rw [← (hmemlt x hx).2]
        exact hP.fin x (s2.mem_iff.mp hx)
      · rw [List.length_map, hlen]; exact hP.len
      · intro a ha b hb
        obtain ⟨x, hx, rfl⟩ := List.mem_map.mp ha
        obtain ⟨y, hy, rfl⟩ := List.mem_map.mp hb
        rw [Multiset.mem_toList] at hy
        rw [← (hmemlt x hx).2]
        have hxh := s2.mem_iff.mp hx
        rcases Nat.lt_or_eq_of_le hP.len with hlt | heq
        · exact (hP.fin x hxh).le.trans ((hP.short hlt) ▸ hR2 y hy)
        · obtain ⟨t, ht1, ht2⟩ := hP.full heq
          refine le_trans ?_ (hR2 y hy)
          obtain ⟨i, hi, rfl⟩ := List.getElem_of_mem hxh
          have := hP.isHeap.max cmp_sw (Nat.le_refl _) i hi _ _ ht1 (List.getElem?_eq_getElem hi)
          simp only [cmp, decide_eq_false_iff_not, not_lt] at this
          rw [ht2]; exact this
      · intro hlt b hb
        obtain ⟨y, hy, rfl⟩ := List.mem_map.mp hb
        rw [Multiset.mem_toList] at hy
        rw [not_lt]
        rw [List.length_map, hlen] at hlt
        exact (hP.short hlt) ▸ hR2 y hy

/-- **C05, C06.** For at least two values (or none), under every schedule of the
construction, a nearest query terminates within `2 n` iterations without any
out-of-range access, in particular of its stack, provided the stack is large
enough for the tree, and calls the callback on the `k` nearest values at finite distance, in
order. Distances are non-negative and a volume is never farther than a value in it. -/
theorem nearest_query (I : Input α V w) (h : I.Valid) (hn : I.n ≠ 1) (q : Query α V D)
    (had : Admissible q I.vol) (hz : ∀ a, q.zero ≤ q.dl a) (hcap : StackFits I q.cap)
    (sched : List ℕ) (hf : I.Finished sched) (fuel : ℕ) (hfuel : 2 * I.n ≤ fuel) :
    ∃ calls, nearestQuery (I.build sched) q fuel = .done calls ∧
      IsKNearest q.dl q.inf q.k I.stored calls := by
  exact nearest_query_any I h hn q q.dl (fun a => ⟨le_rfl, had a⟩) hz hcap sched hf fuel hfuel

/-- **C05.** One value: it is returned whenever `k ≥ 1`, even at infinite distance. -/
theorem nearest_query_single (I : Input α V w) (hn : I.n = 1) (q : Query α V D) (sched : List ℕ)
    (fuel : ℕ) : nearestQuery (I.build sched) q fuel
      = .done (if q.k < 1 then [] else [I.values 0]) := by
  simp only [nearestQuery, oneLeaf, Input.build, hn]
  by_cases hk : q.k < 1 <;> simp [hk]

/-- **C05.** Any number of values at finite distance: `min k n` nearest ones, in order. -/
theorem nearest_query_finite (I : Input α V w) (h : I.Valid) (q : Query α V D)
    (had : Admissible q I.vol) (hz : ∀ a, q.zero ≤ q.dl a) (hcap : StackFits I q.cap)
    (hfin : ∀ i < I.n, q.dl (I.values i) < q.inf)
    (sched : List ℕ) (hf : I.Finished sched) (fuel : ℕ) (hfuel : 2 * I.n ≤ fuel) :
    ∃ calls, nearestQuery (I.build sched) q fuel = .done calls ∧
      calls.length = min q.k I.n ∧ IsKNearest q.dl q.inf q.k I.stored calls := by
  have key : ∀ calls, IsKNearest q.dl q.inf q.k I.stored calls → calls.length = min q.k I.n := by
    intro calls hc
    rw [hc.length]
    congr 1
    rw [(List.countP_eq_length (l := I.stored)).mpr]
    · simp [Input.stored]
    · intro a ha
      simp only [Input.stored, List.mem_map, List.mem_range] at ha
      obtain ⟨i, hi, rfl⟩ := ha
      simpa using hfin i hi
  by_cases hn : I.n = 1
  · refine ⟨_, nearest_query_single I hn q sched fuel, ?_⟩
    have : IsKNearest q.dl q.inf q.k I.stored (if q.k < 1 then [] else [I.values 0]) := by
      by_cases hk : q.k < 1
      · rw [if_pos hk]
        exact ⟨I.stored, by simp, by simp, by simp, by simp, by simp, by simp; omega⟩
      · rw [if_neg hk]
        refine ⟨[], by simp [Input.stored, hn], by simp, ?_, by simp; omega, by simp, by simp⟩
        intro a ha
        simp at ha; subst ha
        exact hfin 0 (by omega)
    exact ⟨key _ this, this⟩
  · obtain ⟨calls, h1, h2⟩ := nearest_query I h hn q had hz hcap sched hf fuel hfuel
    exact ⟨calls, h1, key _ h2, h2⟩

/-- **C06.** Codes below `2^c` and at most `2^K` values with `K + c ≤ 64`: the stack never
overflows. This covers the 30-bit codes of `Morton32` in three dimensions for every
number of values an `int` can count. -/
theorem stack_suffices_codes (I : Input α V w) (h : I.Valid) {K c : ℕ} (hK : I.n ≤ 2 ^ K) (hc : c < w)
    (hcode : ∀ i < I.n, (I.code i).toNat < 2 ^ c) (hpos : 1 ≤ K + c) : StackFits I (K + c) := by
  intro T hT
  have h1 := height_bound h.width I.n K c _ h.fits hK hc h.sorted.sorted (fun i hi => hcode _ (h.perm_lt hi)) hT
  have h2 := need_lt_height T
  omega

/-- **C06.** Codes below `2 ^ c`, each shared by at most `2 t + 3` values, or by at most `2 ^ t + 1`
values: `c + t + 1` entries suffice, for any number of values. With the 63-bit codes of `Morton64` in three
dimensions and `t = 0`: as long as no four values have the same code, the stack of 64 entries suffices. -/
theorem stack_suffices_groups (I : Input α V w) (h : I.Valid) {c t : ℕ} (hc : c < w)
    (hcode : ∀ i < I.n, (I.code i).toNat < 2 ^ c)
    (hg : ∀ i < I.n, (List.range I.n).countP (fun j => decide (I.code j = I.code i)) ≤ max (2 * t + 3) (2 ^ t + 1)) :
    StackFits I (c + t + 1) := by
  intro T hT
  refine Nat.lt_succ_of_le (need_bound_groups h.width I.n c t _ h.fits hc h.sorted.sorted (fun i hi => hcode _ (h.perm_lt hi)) ?_ hT)
  intro l r hlr hr heq
  have h1 := hg (I.perm l) (h.perm_lt (by omega))
  rw [← h.sorted.perm.countP_eq, List.countP_map] at h1
  have h2 : (List.range' l (r + 1 - l)).countP ((fun j => decide (I.code j = I.code (I.perm l))) ∘ I.perm) ≤
      (List.range I.n).countP ((fun j => decide (I.code j = I.code (I.perm l))) ∘ I.perm) := by
    refine List.Sublist.countP_le ?_
    have e : List.range I.n = List.range' 0 l ++ List.range' l (r + 1 - l) ++ List.range' (r + 1) (I.n - (r + 1)) := by
      rw [List.range_eq_range']
      have e1 : List.range' 0 l ++ List.range' l (r + 1 - l) = List.range' 0 (r + 1) := by
        have := List.range'_append_1 (s := 0) (m := l) (n := r + 1 - l)
        rw [Nat.zero_add] at this
        rw [this]; congr 1; omega
      rw [e1]
      have := List.range'_append_1 (s := 0) (m := r + 1) (n := I.n - (r + 1))
      rw [Nat.zero_add] at this
      rw [this]; congr 1; omega
    rw [e]
    exact (List.sublist_append_right _ _).trans (List.sublist_append_left _ _)
  rw [List.countP_eq_length.mpr (by
    intro s hs
    rw [List.mem_range'_1] at hs
    exact decide_eq_true (heq s (by omega) (by omega))), List.length_range'] at h2
  omega

/-- **C06.** With at most 129 values the stack of 64 entries suffices, whatever the codes. This is
the best possible bound: `stack_overflow` has 130 values. -/
theorem stack_suffices_small (I : Input α V w) {cap : ℕ} (h1 : 1 ≤ cap) (hn : I.n ≤ 2 * cap + 1) : StackFits I cap := by
  intro T hT
  have := cart_leaves_length hT
  rcases need_le_leaves T with h | h <;> omega

/-- **C06 (partial).** The full statement (the nearest query never writes outside of its
64-entry stack, for every tree the library can build) is false, see `stack_overflow`.
Proved here: there is no out-of-range access of any kind when there are at most 129 values,
or when the codes have `c` bits, there are at most `2^K` values and `K + c ≤ 64`, or when the codes have
`c` bits, no code is shared by more than `2 t + 3` (or `2 ^ t + 1`) values and `c + t < 64` (for example: 63
bits, and no four values with the same code). Missing: long codes shared by many values. -/
theorem no_stack_overflow_partial (I : Input α V w) (h : I.Valid) (q : Query α V D)
    (hc64 : q.cap = 64) (had : Admissible q I.vol) (hz : ∀ a, q.zero ≤ q.dl a)
    (hsmall : I.n ≤ 129 ∨ (∃ K c, I.n ≤ 2 ^ K ∧ c < w ∧ K + c ≤ 64 ∧ ∀ i < I.n, (I.code i).toNat < 2 ^ c) ∨
      ∃ c t, c < w ∧ c + t < 64 ∧ (∀ i < I.n, (I.code i).toNat < 2 ^ c) ∧
        ∀ i < I.n, (List.range I.n).countP (fun j => decide (I.code j = I.code i)) ≤ max (2 * t + 3) (2 ^ t + 1))
    (sched : List ℕ) (hf : I.Finished sched) (fuel : ℕ) (hfuel : 2 * I.n ≤ fuel) :
    ∃ calls, nearestQuery (I.build sched) q fuel = .done calls := by
  by_cases hn : I.n = 1
  · exact ⟨_, nearest_query_single I hn q sched fuel⟩
  · by_cases h0 : I.n = 0
    · exact ⟨[], by simp [nearestQuery, build_size, h0]⟩
    · have hcap : StackFits I q.cap := by
        rcases hsmall with hs | ⟨K, c, h1, h2, h3, h4⟩ | ⟨c, g, h1, h2, h3, h4⟩
        · exact stack_suffices_small I (by omega) (by omega)
        · by_cases hp : 1 ≤ K + c
          · intro T hT; have := stack_suffices_codes I h h1 h2 h4 hp T hT; omega
          · have : I.n ≤ 1 := by rw [show K = 0 by omega] at h1; exact h1
            exact stack_suffices_small I (by omega) (by omega)
        · intro T hT; have := stack_suffices_groups I h h1 h3 h4 T hT; omega
      obtain ⟨calls, h1, -⟩ := nearest_query I h hn q had hz hcap sched hf fuel hfuel
      exact ⟨calls, h1⟩

/-! ## C06 (defect): 64-bit codes can overflow the stack -/

/-- a spine on which the closer child is always the deeper one -/
inductive Deep (q : Query α V D) (value : ℕ → α) (vol : α → V) : ℕ → BTree → Prop
  | zero {T} : isNode T = true → Deep q value vol 0 T
  | succ {n a b} : Deep q value vol n a → isNode b = true →
      distT q value vol a ≤ distT q value vol b → distT q value vol b < q.inf →
      Deep q value vol (n + 1) (.node a b)

lemma Deep.isNode {q : Query α V D} {value : ℕ → α} {vol : α → V} {n : ℕ} {T : BTree}
    (h : Deep q value vol n T) : isNode T = true := by
  cases h with
  | zero h => exact h
  | succ => rfl

lemma offer_internal {mem : Mem α V} {q : Query α V D} {id : ℕ} {d : D} (h : ¬ id < mem.size)
    (hd : d < q.inf) (heap : List (ℕ × D)) : offer mem q id d heap q.inf = some (heap, q.inf, true) := by
  simp [offer, h, hd]

lemma layout_internal {mem : Mem α V} {value : ℕ → α} {vol : α → V} {T : BTree} {id : ℕ}
    {rope : Option ℕ} (h : Layout mem value vol T id rope) (hn : isNode T = true) :
    ¬ id < mem.size := by
  cases T with
  | leaf i => simp [Nearest.isNode] at hn
  | node a b => obtain ⟨ia, ib, hsz, -⟩ := h; omega

lemma deep_overflow {mem : Mem α V} {q : Query α V D} {value : ℕ → α} {vol : α → V} (n : ℕ) :
    ∀ T id rope, Layout mem value vol T id rope → Deep q value vol n T →
    ∀ dn stack, dn < q.inf → stack.length + 1 ≤ q.cap → q.cap < stack.length + n + 1 →
    ∀ fuel, loop mem q (fuel + n) id dn stack [] q.inf = .fault := by
  induction n with
  | zero => intro T id rope _ _ dn stack _ h1 h2; omega
  | succ n ih =>
    intro T id rope hT hD dn stack hdn h1 h2 fuel
    cases hD with
    | @succ _ a b hDa hb hle hlt =>
      obtain ⟨ia, ib, hch, hla, hlb⟩ := layout_children hT
      have na := layout_internal hla hDa.isNode
      have nb := layout_internal hlb hb
      have ea := offer_internal (mem := mem) (q := q) na (lt_of_le_of_lt hle hlt) []
      have eb := offer_internal (mem := mem) (q := q) nb hlt []
      rw [← Nat.add_assoc, loop.eq_def]; dsimp only; rw [if_pos hdn, hch]
      dsimp only
      rw [layout_dist hla, layout_dist hlb]
      dsimp only
      rw [ea]; dsimp only; rw [eb]
      simp only [Bool.not_true, Bool.false_eq_true, if_false, hle,
        decide_true, Bool.or_false, Bool.and_self, if_true]
      by_cases hc : stack.length + 1 < q.cap
      · rw [if_pos hc]
        exact ih a ia _ hla hDa _ _ (lt_of_le_of_lt hle hlt) (by simp; omega) (by simp; omega) fuel
      · rw [if_neg hc]

/-- 130 values on a line, sorted: four at 0, then two at each of `2^0, ..., 2^62`. -/
def spineCode (i : ℕ) : ℕ := if i < 4 then 0 else 2 ^ ((i - 4) / 2)

/-- Their hierarchy: codes are the positions, the volume of a set of values is its
smallest position (as seen by a query at 0). -/
def spineInput : Input ℕ (WithTop ℕ)ᵒᵈ 64 where
  n := 130
  values := spineCode
  vol := fun a => OrderDual.toDual (a : WithTop ℕ)
  code := fun i => BitVec.ofNat 64 (spineCode i)
  perm := fun i => i

theorem spineInput_valid : spineInput.Valid where
  width := by decide
  fits := by decide +kernel
  sorted := ⟨by decide +kernel, by
    have : ∀ i < 129, (spineInput.code (spineInput.perm i)).toNat
      ≤ (spineInput.code (spineInput.perm (i + 1))).toNat := by decide +kernel
    intro i hi
    exact this i (by simp only [spineInput] at hi; omega)⟩
  top := by decide +kernel

/-- A nearest query at position 0 asking for all 130 values; the stack of the library
has 64 entries. -/
def spineQuery : Query ℕ (WithTop ℕ)ᵒᵈ (WithTop ℕ) where
  k := 130
  dl := fun a => (a : WithTop ℕ)
  dv := fun v => OrderDual.ofDual v
  zero := 0
  inf := ⊤
  cap := 64

theorem spineQuery_admissible : Admissible spineQuery spineInput.vol := by
  intro a v h
  exact h

/-- shape of the hierarchy -/
def spine : ℕ → BTree
  | 0 => .node (.node (.leaf 0) (.leaf 1)) (.node (.leaf 2) (.leaf 3))
  | j + 1 => .node (spine j) (.node (.leaf (4 + 2 * j)) (.leaf (5 + 2 * j)))

private abbrev skey : ℕ → ℤ := deltaBits (fun i => spineInput.code (spineInput.perm i))

private lemma skey_le : ∀ j < 63, ∀ s < 3 + 2 * j, skey s ≤ skey (3 + 2 * j) := by decide +kernel
private lemma skey_lt : ∀ j < 63, skey (4 + 2 * j) < skey (3 + 2 * j) := by decide +kernel
private lemma skey_base : skey 0 ≤ skey 1 ∧ skey 2 < skey 1 := by decide +kernel

lemma spine_cart : ∀ j ≤ 63, CartTree skey 0 (3 + 2 * j) (spine j)
  | 0, _ => by
    refine .node 0 1 3 _ _ (by omega) (by omega)
      (.node 0 0 1 _ _ (by omega) (by omega) (.leaf 0) (.leaf 1) (by omega) (by omega))
      (.node 2 2 3 _ _ (by omega) (by omega) (.leaf 2) (.leaf 3) (by omega) (by omega)) ?_ ?_
    · intro s _ hs; have : s = 0 := by omega
      subst this; exact skey_base.1
    · intro s h1 h2; have : s = 2 := by omega
      subst this; exact skey_base.2
  | j + 1, hj => by
    have ih := spine_cart j (by omega)
    have e : 3 + 2 * (j + 1) = 5 + 2 * j := by omega
    rw [e]
    refine .node 0 (3 + 2 * j) (5 + 2 * j) _ _ (by omega) (by omega) ih ?_ ?_ ?_
    · rw [show 3 + 2 * j + 1 = 4 + 2 * j by omega]
      refine .node (4 + 2 * j) (4 + 2 * j) (5 + 2 * j) _ _ (by omega) (by omega) (.leaf _) ?_
        (by intro s _ _; omega) (by intro s _ _; omega)
      rw [show 4 + 2 * j + 1 = 5 + 2 * j by omega]
      exact .leaf _
    · intro s _ hs; exact skey_le j (by omega) s hs
    · intro s h1 h2
      have : s = 4 + 2 * j := by omega
      subst this; exact skey_lt j (by omega)

lemma spine_first (j : ℕ) : 0 ∈ (spine j).leaves := by
  induction j with
  | zero => simp [spine, BTree.leaves]
  | succ j ih => simp [spine, BTree.leaves, ih]

lemma spine_deep (j : ℕ) : Deep spineQuery (fun i => spineInput.values (spineInput.perm i))
    spineInput.vol (j + 1) (spine j) := by
  have hz : ∀ T : BTree, 0 ∈ T.leaves →
      distT spineQuery (fun i => spineInput.values (spineInput.perm i)) spineInput.vol T ≤ 0 := by
    intro T hT
    have := distT_le (value := fun i => spineInput.values (spineInput.perm i))
      spineQuery_admissible T hT
    simpa [spineQuery, spineInput, spineCode] using this
  have hfin : ∀ (T : BTree) i, i ∈ T.leaves →
      distT spineQuery (fun i => spineInput.values (spineInput.perm i)) spineInput.vol T < ⊤ := by
    intro T i hT
    have := distT_le (value := fun i => spineInput.values (spineInput.perm i))
      spineQuery_admissible T hT
    exact lt_of_le_of_lt this (WithTop.coe_lt_top _)
  induction j with
  | zero =>
    refine .succ (.zero rfl) rfl ((hz _ (by simp [BTree.leaves])).trans zero_le) (hfin _ 2 (by simp [BTree.leaves]))
  | succ j ih =>
    exact .succ ih rfl ((hz _ (spine_first j)).trans zero_le)
      (hfin _ (4 + 2 * j) (by simp [BTree.leaves]))

/-- **C06 (defect).** The statement of C06 is false for 64-bit codes: on `spineInput`
the nearest query writes past the end of its 64-entry stack, under every schedule of
the construction. -/
theorem stack_overflow (sched : List ℕ) (hf : spineInput.Finished sched) (fuel : ℕ)
    (hfuel : 64 ≤ fuel) : nearestQuery (spineInput.build sched) spineQuery fuel = .fault := by
  obtain ⟨T, hcart, hT⟩ := build_cartesian spineInput spineInput_valid (by decide)
  obtain ⟨hl, hlay⟩ := hT sched hf
  have hTs : T = spine 63 := hcart.unique (spine_cart 63 le_rfl)
  subst hTs
  have := deep_overflow 64 _ _ _ hlay (spine_deep 63) (0 : WithTop ℕ) []
    (WithTop.coe_lt_top 0) (by simp [spineQuery]) (by simp [spineQuery]) (fuel - 64)
  rw [Nat.sub_add_cancel hfuel] at this
  unfold nearestQuery
  rw [build_size] at this ⊢
  rw [if_neg (by decide), if_neg (by decide)]
  unfold fullTree
  rw [if_neg (by decide), build_size]
  have e : loop (spineInput.build sched) spineQuery fuel spineInput.n spineQuery.zero [] []
    spineQuery.inf = .fault := this
  rw [e]

example : ∃ sched, spineInput.Finished sched := by
  obtain ⟨s, hs⟩ := exists_complete spineInput.params (spineInput_valid.keys (by decide))
  exact ⟨s, fun _ => hs⟩

/-! ## Non-vacuity of C05 -/

open Traversal (exampleInput exampleInput_valid)

/-- A query on the example input: distance of `a` is `|a - 3|`, of a set the minimum. -/
def exampleQuery : Query ℕ (Finset ℕ) (WithTop ℕ) where
  k := 3
  dl := fun a => ((a - 3 + (3 - a) : ℕ) : WithTop ℕ)
  dv := fun v => v.inf (fun a => ((a - 3 + (3 - a) : ℕ) : WithTop ℕ))
  zero := 0
  inf := ⊤
  cap := 64

example : Admissible exampleQuery exampleInput.vol := by
  intro a v h
  exact Finset.inf_le (h (by simp [exampleInput]))

example : StackFits exampleInput exampleQuery.cap := by
  exact stack_suffices_small exampleInput (by decide) (by decide)

/-- The third condition of `no_stack_overflow_partial` does not bound the number of values: here there are 200,
and no code is shared by more than three of them. -/
def tripleInput : Input ℕ (Finset ℕ) 64 where
  n := 200
  values := fun i => i
  vol := fun a => {a}
  code := fun i => BitVec.ofNat 64 (i / 3)
  perm := fun i => i

example : (∀ i < tripleInput.n, (tripleInput.code i).toNat < 2 ^ 63) ∧
    ∀ i < tripleInput.n, (List.range tripleInput.n).countP (fun j => decide (tripleInput.code j = tripleInput.code i)) ≤
      max (2 * 0 + 3) (2 ^ 0 + 1) := by
  refine ⟨fun i hi => ?_, by decide +kernel⟩
  have : i < 200 := hi
  show (BitVec.ofNat 64 (i / 3)).toNat < 2 ^ 63
  rw [BitVec.toNat_ofNat, Nat.mod_eq_of_lt (by omega)]
  omega

example : ∀ i < exampleInput.n, exampleQuery.dl (exampleInput.values i) < exampleQuery.inf :=
  fun _ _ => WithTop.coe_lt_top _

end ArborX.Nearest
