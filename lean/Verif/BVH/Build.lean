import Verif.Construction.Unique
import Verif.Traversal.Model

/-!
# The constructor of `BoundingVolumeHierarchy`

Models `src/spatial/ArborX_LinearBVH.hpp` lines 171-256. The scene box and the
space-filling curve only enter through the codes they produce, which are inputs
here (see `Verif/Morton` for the curves).
-/

namespace ArborX.BVH

open Construction

/-- Inputs of the constructor and results of the library primitives it calls.
* `n` values `values 0, ..., values (n-1)`; `vol a` is the volume of a value;
* `code i` is the code computed for value `i` (lines 233-238);
* `perm` is the result of `sortObjects` (lines 244-245,
  `src/misc/ArborX_SortUtils.hpp` 25-43). -/
structure Input (α V : Type) (w : ℕ) where
  n : ℕ
  values : ℕ → α
  vol : α → V
  code : ℕ → BitVec w
  perm : ℕ → ℕ

variable {α V : Type} {w : ℕ}

/-- What `sortObjects` guarantees: `perm` is a permutation of the indices and the
codes are in non-decreasing order along it. -/
structure Input.Sorted (I : Input α V w) : Prop where
  perm : ((List.range I.n).map I.perm).Perm (List.range I.n)
  sorted : SortedCodes I.n (fun i => I.code (I.perm i))

/-- The inputs of `GenerateHierarchy` (lines 251-253). -/
def Input.params (I : Input α V w) : Params α V where
  m := I.n - 1
  key := deltaBits (fun i => I.code (I.perm i))
  maxv := maxValue w
  value := fun i => I.values (I.perm i)
  vol := I.vol

variable [SemilatticeSup V] [OrderBot V]

/-- The node arrays after the constructor: nothing for an empty tree (lines
203-206), one leaf for a single value (lines 208-213 and
`ArborX_TreeConstruction.hpp` 41-69), otherwise the result of the construction
kernel under the schedule `sched`. -/
def Input.build (I : Input α V w) (sched : List ℕ) : Mem α V :=
  if I.n = 0 then ⟨0, fun _ => none, fun _ => none⟩
  else if I.n = 1 then
    ⟨1, fun i => if i = 0 then some ⟨none, I.values 0⟩ else none, fun _ => none⟩
  else ⟨I.n, (run I.params sched).leaf, (run I.params sched).internal⟩

/-- The construction kernel has finished. -/
def Input.Finished (I : Input α V w) (sched : List ℕ) : Prop :=
  2 ≤ I.n → Complete I.params (run I.params sched)

/-- Preconditions: the sorting primitive did its job, the codes do not use their
top bit, and the number of values fits in the index type. -/
structure Input.Valid (I : Input α V w) : Prop where
  width : 2 ≤ w
  fits : I.n ≤ 2 ^ (w - 1)
  sorted : I.Sorted
  top : ∀ i < I.n, (I.code i).toNat < 2 ^ (w - 1)

/-- The stored values, in the order the user gave them. -/
def Input.stored (I : Input α V w) : List α := (List.range I.n).map I.values

omit [SemilatticeSup V] [OrderBot V] in
lemma Input.Valid.perm_lt {I : Input α V w} (h : I.Valid) {i : ℕ} (hi : i < I.n) :
    I.perm i < I.n := by
  have : I.perm i ∈ (List.range I.n).map I.perm := List.mem_map_of_mem (List.mem_range.mpr hi)
  exact List.mem_range.mp (h.sorted.perm.subset this)

omit [SemilatticeSup V] [OrderBot V] in
lemma Input.Valid.keys {I : Input α V w} (h : I.Valid) (hn : 2 ≤ I.n) : ValidKeys I.params :=
  validKeys_of_sorted h.width I.n _ _ _ hn h.fits h.sorted.sorted
    (fun _ hi => h.top _ (h.perm_lt hi))

omit [SemilatticeSup V] [OrderBot V] in
lemma Input.Valid.stored_perm {I : Input α V w} (h : I.Valid) :
    ((List.range I.n).map (fun i => I.values (I.perm i))).Perm I.stored := by
  have := h.sorted.perm.map I.values
  simpa [Input.stored, List.map_map, Function.comp_def] using this

/-- The finished constructor yields a well-formed hierarchy, always the same tree. -/
theorem build_wellFormed (I : Input α V w) (h : I.Valid) (hn : 2 ≤ I.n) :
    ∃ T : BTree, ∀ sched, I.Finished sched →
      WellFormed (I.build sched) (fun i => I.values (I.perm i)) I.vol T := by
  obtain ⟨T, hT⟩ := construction_correct I.params (h.keys hn)
  refine ⟨T, fun sched hf => ?_⟩
  have e : I.n - 1 + 1 = I.n := by omega
  have := hT sched (hf hn)
  unfold memOf at this
  have hb : I.build sched = ⟨I.params.m + 1, (run I.params sched).leaf,
      (run I.params sched).internal⟩ := by
    unfold Input.build
    rw [if_neg (by omega), if_neg (by omega)]
    simp only [Input.params, e]
  rw [hb]
  exact this

/-- The finished constructor yields the Cartesian tree of the split keys. -/
theorem build_cartesian (I : Input α V w) (h : I.Valid) (hn : 2 ≤ I.n) :
    ∃ T : BTree, CartTree (deltaBits (fun i => I.code (I.perm i))) 0 (I.n - 1) T ∧
      ∀ sched, I.Finished sched →
      WellFormed (I.build sched) (fun i => I.values (I.perm i)) I.vol T := by
  obtain ⟨T, hc, hT⟩ := construction_cartesian I.params (h.keys hn)
  refine ⟨T, hc, fun sched hf => ?_⟩
  have e : I.n - 1 + 1 = I.n := by omega
  have := hT sched (hf hn)
  unfold memOf at this
  have hb : I.build sched = ⟨I.params.m + 1, (run I.params sched).leaf,
      (run I.params sched).internal⟩ := by
    unfold Input.build
    rw [if_neg (by omega), if_neg (by omega)]
    simp only [Input.params, e]
  rw [hb]
  exact this

/-- **C02.** The node arrays are the same under all schedules: every query that follows
is independent of the schedule of the construction. -/
theorem build_schedule_independent (I : Input α V w) (h : I.Valid) (s1 s2 : List ℕ)
    (h1 : I.Finished s1) (h2 : I.Finished s2) : I.build s1 = I.build s2 := by
  unfold Input.build
  by_cases h0 : I.n = 0
  · rw [if_pos h0, if_pos h0]
  · by_cases hn : I.n = 1
    · rw [if_neg h0, if_neg h0, if_pos hn, if_pos hn]
    · rw [if_neg h0, if_neg h0, if_neg hn, if_neg hn]
      have := memory_schedule_independent I.params (h.keys (by omega)) s1 s2 (h1 (by omega))
        (h2 (by omega))
      unfold memOf at this
      rw [Mem.mk.injEq] at this
      rw [this.2.1, this.2.2]

lemma build_size (I : Input α V w) (sched : List ℕ) : (I.build sched).size = I.n := by
  unfold Input.build
  split_ifs <;> simp_all

end ArborX.BVH
