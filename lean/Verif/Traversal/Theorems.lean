import Verif.Traversal.Lemmas
import Verif.BVH.Build
import Mathlib.Data.Sym.Sym2
import Mathlib.Tactic.Abel

/-!
# Property theorems: spatial query, early exit, half traversal, small trees
(C01, C03, C04, C08, C45)
-/

namespace ArborX.Traversal

open BVH Construction

variable {α V : Type} {w : ℕ} [SemilatticeSup V] [OrderBot V]

/-- A predicate that accepts a value accepts every volume containing the value. -/
def Monotone (vol : α → V) (pl : α → Bool) (pv : V → Bool) : Prop :=
  ∀ a v, vol a ≤ v → pl a = true → pv v = true

/-- **C01, C04.** Build a hierarchy over any values, under any schedule of the
construction threads, then run one spatial query with any callback. There is an
order `order` of the matching values, each stored matching value once, independent
of the callback and of the schedule, such that the query terminates and the
callback is called on a prefix of `order`; it stops at the first call that asks to
stop, and only there. -/
theorem spatial_query (I : Input α V w) (h : I.Valid) (pl : α → Bool) (pv : V → Bool)
    (mono : Monotone I.vol pl pv) :
    ∃ order : List α, order.Perm (I.stored.filter pl) ∧
    ∀ sched, I.Finished sched → ∀ (stop : List α → Bool) (fuel : ℕ), 2 * I.n ≤ fuel →
    ∃ calls, spatialQuery (I.build sched) pl pv stop fuel = .done calls ∧
      calls <+: order ∧
      (∀ p, p <+: calls → p ≠ [] → p ≠ calls → stop p = false) ∧
      (calls = order ∨ stop calls = true) := by
  rcases Nat.lt_or_ge I.n 2 with hn | hn
  · -- zero or one value: the callback cannot stop anything
    refine ⟨I.stored.filter pl, List.Perm.refl _, fun sched _ stop fuel _ => ?_⟩
    have key : ∀ l : List α, l.length ≤ 1 → ∀ p, p <+: l → p ≠ [] → p ≠ l → stop p = false := by
      intro l hl p hp h1 h2
      exfalso
      apply h2
      apply hp.eq_of_length
      have := hp.length_le
      have : p.length ≠ 0 := by simpa using h1
      omega
    refine ⟨I.stored.filter pl, ?_, List.prefix_refl _, key _ ?_, .inl rfl⟩
    · unfold spatialQuery
      rw [build_size]
      rcases (by omega : I.n = 0 ∨ I.n = 1) with h0 | h1
      · rw [if_pos h0]; simp [Input.stored, h0]
      · rw [if_neg (by omega), if_pos h1]
        simp only [spatialOneLeaf, Input.build, h1, Input.stored]
        by_cases hp : pl (I.values 0) = true <;> simp [hp]
    · refine (List.length_filter_le _ _).trans ?_
      simp [Input.stored]; omega
  · obtain ⟨T, hT⟩ := build_wellFormed I h hn
    refine ⟨hits (fun i => I.values (I.perm i)) pl (List.range I.n),
      (h.stored_perm).filter pl, fun sched hf stop fuel hfuel => ?_⟩
    obtain ⟨hl, hlay⟩ := hT sched hf
    rw [build_size] at hl hlay
    obtain ⟨c, hc, hloop⟩ := loop_tree (stop := stop) mono T _ _ [] hlay
    have hsz := size_eq T
    rw [hl, List.length_range] at hsz
    obtain ⟨p, h1, h2, h3, h4⟩ := scan_spec stop []
      (hits (fun i => I.values (I.perm i)) pl T.leaves)
    rw [hl] at h1 h2 h4 hloop
    refine ⟨p, ?_, h1, by simpa using h3, by simpa using h4⟩
    unfold spatialQuery
    rw [build_size, if_neg (by omega), if_neg (by omega)]
    have := hloop (fuel - c)
    rw [Nat.sub_add_cancel (by omega)] at this
    rw [this]
    unfold cont
    have hdone : ∀ f acc, spatialLoop (I.build sched) pl pv stop f none acc = .done acc := by
      intro f acc; cases f <;> rfl
    rw [hdone, h2]
    simp

/-- **C01.** With a callback that never stops, the query calls it exactly once for
each stored value that satisfies the predicate and for nothing else. -/
theorem spatial_query_exact (I : Input α V w) (h : I.Valid) (pl : α → Bool) (pv : V → Bool)
    (mono : Monotone I.vol pl pv) (sched : List ℕ) (hf : I.Finished sched) (fuel : ℕ)
    (hfuel : 2 * I.n ≤ fuel) :
    ∃ calls, spatialQuery (I.build sched) pl pv (fun _ => false) fuel = .done calls ∧
      calls.Perm (I.stored.filter pl) := by
  obtain ⟨order, hp, H⟩ := spatial_query I h pl pv mono
  obtain ⟨calls, h1, -, -, h4⟩ := H sched hf (fun _ => false) fuel hfuel
  rcases h4 with h4 | h4
  · exact ⟨calls, h1, h4 ▸ hp⟩
  · simp at h4

lemma pairs_perm {l l' : List α} (h : l.Perm l') :
    ((pairs l).map (fun p => s(p.1, p.2))).Perm ((pairs l').map (fun p => s(p.1, p.2))) := by
  induction h with
  | nil => exact List.Perm.refl _
  | cons x h ih =>
    simp only [pairs, List.map_append, List.map_map]
    exact (h.map _).append ih
  | swap x y l =>
    simp only [pairs, List.map_append, List.map_map, List.map_cons, Function.comp_def]
    rw [← Multiset.coe_eq_coe]
    simp only [← Multiset.coe_add, ← Multiset.cons_coe, List.cons_append]
    rw [Sym2.eq_swap (a := x)]
    congr 1
    abel
  | trans _ _ ih1 ih2 => exact ih1.trans ih2

/-- All pairs reported by the half traversal: for each leaf, the pairs of its value
with the values its thread calls the callback on (`none` if some thread does not
return normally). The threads do not interact; their order is immaterial below. -/
def halfPairs (mem : Mem α V) (pl : α → α → Bool) (pv : α → V → Bool) (fuel : ℕ) :
    List ℕ → Option (List (α × α))
  | [] => some []
  | i :: is =>
    match mem.leaf i, halfQuery mem pl pv fuel i, halfPairs mem pl pv fuel is with
    | some lf, .done calls, some rest => some (calls.map (fun b => (lf.value, b)) ++ rest)
    | _, _, _ => none

/-- **C08.** For every symmetric family of predicates, the half traversal reports,
as unordered pairs, exactly the matching pairs of values at distinct positions,
each exactly once. (`pairs I.stored` lists the pairs `(i, j)` with `i < j`.) -/
theorem half_traversal_exact (I : Input α V w) (h : I.Valid) (pl : α → α → Bool)
    (pv : α → V → Bool) (symm : ∀ a b, pl a b = pl b a)
    (mono : ∀ a, Monotone I.vol (pl a) (pv a)) (sched : List ℕ) (hf : I.Finished sched)
    (fuel : ℕ) (hfuel : 2 * I.n ≤ fuel) :
    ∃ R, halfPairs (I.build sched) pl pv fuel (List.range I.n) = some R ∧
      (R.map (fun p => s(p.1, p.2))).Perm
        (((pairs I.stored).filter (fun p => pl p.1 p.2)).map (fun p => s(p.1, p.2))) := by
  rcases Nat.lt_or_ge I.n 2 with hn | hn
  · rcases (by omega : I.n = 0 ∨ I.n = 1) with h0 | h1
    · refine ⟨[], by simp [h0, halfPairs], by simp [Input.stored, h0, pairs]⟩
    · refine ⟨[], ?_, by simp [Input.stored, h1, pairs]⟩
      simp [h1, halfPairs, halfQuery, Input.build]
  · obtain ⟨T, hT⟩ := build_wellFormed I h hn
    obtain ⟨hl, hlay⟩ := hT sched hf
    rw [build_size] at hl hlay
    set v := (fun i => I.values (I.perm i)) with hv
    have hsz := size_eq T
    rw [hl, List.length_range] at hsz
    -- the suffix starting at position k
    have key : ∀ post pre, List.range I.n = pre ++ post →
        halfPairs (I.build sched) pl pv fuel post
          = some ((pairs (post.map v)).filter (fun p => pl p.1 p.2)) := by
      intro post
      induction post with
      | nil => intro pre _; rfl
      | cons i post ih =>
        intro pre he
        obtain ⟨lf, hlf, hval, c, hc, hloop⟩ := loop_after (stop := fun _ => false)
          (mono (v i)) T _ _ [] i pre post hlay (by rw [hl, he])
          (by rw [hl]; exact List.nodup_range)
        have hq : halfQuery (I.build sched) pl pv fuel i
            = .done (hits v (pl (v i)) post) := by
          unfold halfQuery
          rw [build_size, if_neg (by omega), hlf]
          dsimp only
          rw [hval]
          have := hloop (fuel - c)
          rw [Nat.sub_add_cancel (by omega)] at this
          rw [this, scan_false]
          simp only [cont, Bool.false_eq_true, if_false, List.nil_append]
          cases fuel - c <;> rfl
        rw [halfPairs, hlf, hq, ih (pre ++ [i]) (by rw [he]; simp)]
        simp only [List.map_cons, pairs, List.filter_append, hits, hval]
        congr 2
        simp [List.filter_map, Function.comp_def]
    refine ⟨_, key (List.range I.n) [] rfl, ?_⟩
    let q : Sym2 α → Bool := Sym2.lift ⟨pl, symm⟩
    have conv : ∀ l : List (α × α), (l.filter (fun p => pl p.1 p.2)).map (fun p => s(p.1, p.2))
        = (l.map (fun p => s(p.1, p.2))).filter q := by
      intro l; rw [List.filter_map]; rfl
    rw [conv, conv]
    exact (pairs_perm h.stored_perm).filter q

/-- **C45.** The batched query on a tree with one value calls the callback on that
value exactly when it matches. -/
theorem spatial_query_single (I : Input α V w) (hn : I.n = 1) (pl : α → Bool) (pv : V → Bool)
    (stop : List α → Bool) (sched : List ℕ) (fuel : ℕ) :
    spatialQuery (I.build sched) pl pv stop fuel
      = .done (if pl (I.values 0) then [I.values 0] else []) := by
  simp only [spatialQuery, hn, spatialOneLeaf, Input.build]
  by_cases hp : pl (I.values 0) = true <;> simp [hp]

/-- **C45.** The batched query on an empty tree calls nothing. -/
theorem spatial_query_empty (I : Input α V w) (hn : I.n = 0) (pl : α → Bool) (pv : V → Bool)
    (stop : List α → Bool) (sched : List ℕ) (fuel : ℕ) :
    spatialQuery (I.build sched) pl pv stop fuel = .done [] := by
  simp [spatialQuery, build_size, hn]

/-- **C45.** The per-thread interface agrees with the batched one for at least two
values. -/
theorem per_thread_eq (I : Input α V w) (hn : 2 ≤ I.n) (pl : α → Bool) (pv : V → Bool)
    (stop : List α → Bool) (sched : List ℕ) (fuel : ℕ) :
    spatialQueryPerThread (I.build sched) pl pv stop fuel
      = spatialQuery (I.build sched) pl pv stop fuel := by
  unfold spatialQueryPerThread spatialQuery
  rw [build_size, if_neg (by omega), if_neg (by omega)]

/-- **C45 (defect).** With fewer than two values the per-thread interface reads an
internal node that does not exist, whatever the predicate. -/
theorem per_thread_small_faults (I : Input α V w) (hn : I.n < 2) (pl : α → Bool) (pv : V → Bool)
    (stop : List α → Bool) (sched : List ℕ) (fuel : ℕ) :
    spatialQueryPerThread (I.build sched) pl pv stop (fuel + 1) = .fault := by
  rcases (by omega : I.n = 0 ∨ I.n = 1) with h | h <;>
    simp [spatialQueryPerThread, spatialLoop, Input.build, h]

/-! ## Non-vacuity: five values, two with equal codes, sets of numbers as volumes -/

/-- Example input: values 0..4 with codes 7,3,7,0,9. -/
def exampleInput : Input ℕ (Finset ℕ) 64 where
  n := 5
  values := fun i => i
  vol := fun a => {a}
  code := fun i => [7, 3, 7, 0, 9].getD i 0
  perm := fun i => [3, 1, 0, 2, 4].getD i 0

theorem exampleInput_valid : exampleInput.Valid where
  width := by decide
  fits := by decide +kernel
  sorted := ⟨by decide, by unfold SortedCodes; intro i hi; simp only [exampleInput] at hi ⊢
                           have : i < 4 := by omega
                           interval_cases i <;> decide⟩
  top := by decide +kernel

example : ∃ sched, exampleInput.Finished sched := by
  obtain ⟨s, hs⟩ := exists_complete exampleInput.params (exampleInput_valid.keys (by decide))
  exact ⟨s, fun _ => hs⟩

example : Monotone exampleInput.vol (fun a => a % 2 == 0) (fun v => decide (∃ x ∈ v, x % 2 = 0)) := by
  intro a v h1 h2
  simp only [beq_iff_eq, decide_eq_true_eq] at *
  exact ⟨a, h1 (by simp [exampleInput]), h2⟩

/-- **C03 (partial).** The full statement (construction is correct for every code array of
every selectable curve) is false, see `full_width_codes_hang`. Proved here: for sorted
codes, duplicates included, that do not use their top bit, every schedule yields the same
well-formed tree. Missing: curves that use all bits of the code, such as `Morton32` in
dimensions 1, 2, 4, .... -/
theorem construction_every_code_partial (I : Input α V w) (hw : 2 ≤ w) (hfits : I.n ≤ 2 ^ (w - 1))
    (hs : I.Sorted) (htop : ∀ i < I.n, (I.code i).toNat < 2 ^ (w - 1)) (hn : 2 ≤ I.n) :
    ∃ T : BTree, ∀ sched, I.Finished sched →
      WellFormed (I.build sched) (fun i => I.values (I.perm i)) I.vol T :=
  build_wellFormed I ⟨hw, hfits, hs, htop⟩ hn

/-! ## C03 (defect): codes that use the top bit -/

/-- Four values with 32-bit codes, as `Morton32` produces them in dimension 2 for
points in the cells (0,0), (0,0), (1,2^15), (2^16-1,2^16-1). -/
def badInput : Input ℕ Bool 32 where
  n := 4
  values := fun i => i
  vol := fun _ => true
  code := fun i => [0x0, 0x0, 0x80000001, 0xffffffff].getD i 0
  perm := fun i => i

/-- A schedule under which the construction of `badInput` completes. -/
def badSched : List ℕ := (List.replicate 16 [0, 1, 2, 3]).flatten

/-- The input is sorted and its construction terminates; only the top-bit
precondition fails. -/
theorem badInput_sorted : badInput.Sorted :=
  ⟨by decide, by
    intro i hi; simp only [badInput] at hi ⊢
    have : i < 3 := by omega
    interval_cases i <;> decide⟩

/-- The threads of the construction of `badInput` have returned. -/
def TSdone {V : Type} : TS V → Bool
  | .done => true
  | _ => false

theorem badInput_complete : ∀ t ≤ 3, TSdone ((run badInput.params badSched).thr t) = true := by
  decide +kernel

/-- **C03 (defect).** For codes using the top bit the statement of C02/C01 is false:
for these four values every query whose predicate accepts everything loops forever
between a node and its left child. -/
theorem full_width_codes_hang :
    ∀ fuel, spatialQuery (badInput.build badSched) (fun _ => true) (fun _ => true)
      (fun _ => false) fuel = .timeout := by
  have r0 : ((badInput.build badSched).leaf 0).map (·.rope) = some (some 5) := by decide +kernel
  have i0 : ((badInput.build badSched).internal 0).map (fun x => (x.left, x.vol))
      = some (6, true) := by decide +kernel
  have i2 : ((badInput.build badSched).internal 2).map (fun x => (x.left, x.vol))
      = some (5, true) := by decide +kernel
  have i1 : ((badInput.build badSched).internal 1).map (fun x => (x.left, x.vol))
      = some (0, true) := by decide +kernel
  have hs : (badInput.build badSched).size = 4 := by decide
  generalize badInput.build badSched = mem at *
  obtain ⟨l0, hl0, hr0⟩ := Option.map_eq_some_iff.mp r0
  obtain ⟨n0, hn0, hi0⟩ := Option.map_eq_some_iff.mp i0
  obtain ⟨n1, hn1, hi1⟩ := Option.map_eq_some_iff.mp i1
  obtain ⟨n2, hn2, hi2⟩ := Option.map_eq_some_iff.mp i2
  simp only [Prod.mk.injEq] at hi0 hi1 hi2
  have loop : ∀ fuel acc,
      spatialLoop mem (fun _ => true) (fun _ => true) (fun _ => false) fuel (some 5) acc = .timeout ∧
      spatialLoop mem (fun _ => true) (fun _ => true) (fun _ => false) fuel (some 0) acc
        = .timeout := by
    intro fuel
    induction fuel with
    | zero => intro acc; exact ⟨rfl, rfl⟩
    | succ f ih =>
      intro acc
      constructor
      · rw [spatialLoop, hs, if_neg (by omega), hn1]
        simp only [if_true, hi1.1]
        exact (ih acc).2
      · rw [spatialLoop, hs, if_pos (by omega), hl0]
        simp only [if_true, Bool.false_eq_true, if_false, hr0]
        exact (ih _).1
  intro fuel
  unfold spatialQuery
  rw [hs, if_neg (by omega), if_neg (by omega)]
  cases fuel with
  | zero => rfl
  | succ f =>
    rw [spatialLoop, hs, if_neg (by omega), hn0]
    simp only [if_true, hi0.1]
    cases f with
    | zero => rfl
    | succ f =>
      rw [spatialLoop, hs, if_neg (by omega), hn2]
      simp only [if_true, hi2.1]
      exact (loop f []).1

end ArborX.Traversal
