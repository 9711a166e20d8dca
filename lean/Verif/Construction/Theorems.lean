import Verif.Construction.Termination
import Mathlib.Data.Finset.Lattice.Basic
import Mathlib.Tactic.IntervalCases

/-!
# Property theorems: parallel construction (C02)
-/

namespace ArborX.Construction

variable {α V : Type} [SemilatticeSup V] [OrderBot V]

/-- The split keys meet the requirements of the algorithm: at least two values,
every key is below the out-of-range value, neighbouring keys differ.
`Verif/Morton` shows that `delta` satisfies this for every sorted code array whose
codes do not use the top bit. -/
structure ValidKeys (P : Params α V) : Prop where
  two_values : 1 ≤ P.m
  below_max : ∀ i < P.m, P.key i < P.maxv
  neighbours_differ : ∀ i, i + 1 < P.m → P.key i ≠ P.key (i + 1)

omit [SemilatticeSup V] [OrderBot V] in
theorem ValidKeys.good {P : Params α V} (h : ValidKeys P) : Good P :=
  ⟨h.two_values, h.below_max, h.neighbours_differ⟩

/-- The memory of the finished construction. -/
def memOf (P : Params α V) (s : State α V) : Mem α V := ⟨P.m + 1, s.leaf, s.internal⟩

/-- **C02 (safety).** Under every schedule, at every point of it, no thread has
accessed memory out of bounds or used a node no thread had written. -/
theorem no_fault (P : Params α V) (h : ValidKeys P) (sched : List ℕ) (t : ℕ) (ht : t ≤ P.m) :
    (run P sched).thr t ≠ .fault := by
  obtain ⟨blk, hI⟩ := inv_run h.good sched
  have := hI.thr t ht
  unfold ThrInv at this
  intro hf
  rw [hf] at this
  exact this

/-- **C02 (termination).** Every thread returns after at most `3 m + 4` of its own
steps, whatever the other threads do. -/
theorem wait_free (P : Params α V) (h : ValidKeys P) (sched : List ℕ) (t : ℕ) (ht : t ≤ P.m)
    (hs : 3 * P.m + 4 ≤ sched.count t) : (run P sched).thr t = .done := by
  obtain ⟨blk, hI⟩ := inv_run h.good sched
  refine rank_zero_done hI ht ?_
  have := run_rank h.good t ht sched _ _ (inv_init (α := α) (V := V) (P := P))
  have h0 : rank P.m ((initState : State α V).thr t) = 3 * (P.m + 1) + 1 := rfl
  rw [h0] at this
  unfold run
  omega

/-- Some schedule runs to completion (in fact every schedule that gives each thread
enough turns does, by `wait_free`). -/
theorem exists_complete (P : Params α V) (h : ValidKeys P) :
    ∃ sched, Complete P (run P sched) := by
  refine ⟨(List.range (P.m + 1)).flatMap (fun t => List.replicate (3 * P.m + 4) t), ?_⟩
  intro t ht
  refine wait_free P h _ t ht ?_
  rw [List.count_flatMap]
  have hm : t ∈ List.range (P.m + 1) := List.mem_range.mpr (by omega)
  have := List.single_le_sum (l := List.map (List.count t ∘ fun t => List.replicate (3 * P.m + 4) t)
    (List.range (P.m + 1))) (by simp) _ (List.mem_map_of_mem hm)
  simpa using this

/-- **C02 (result).** There is one binary tree over the values, determined by the
split keys, such that under every schedule, once all threads have returned, the
memory is a well-formed hierarchy of exactly that tree. -/
theorem construction_correct (P : Params α V) (h : ValidKeys P) :
    ∃ T : BTree, ∀ sched, Complete P (run P sched) →
      WellFormed (memOf P (run P sched)) P.value P.vol T := by
  have g := h.good
  obtain ⟨sched0, hc0⟩ := exists_complete P h
  obtain ⟨blk0, hI0⟩ := inv_run g sched0
  obtain ⟨T, hT⟩ := hI0.complete g hc0
  refine ⟨T, fun sched hc => ?_⟩
  obtain ⟨blk, hI⟩ := inv_run g sched
  obtain ⟨T', hT'⟩ := hI.complete g hc
  have e := hT.unique hT' le_rfl
  subst e
  refine ⟨?_, ?_⟩
  · rw [hT'.leaves, memOf, List.range_eq_range']; rfl
  · have := hT'.layout g le_rfl
    have hid : idOf P 0 P.m = P.m + 1 := by
      have := g.pos
      simp only [idOf]; rw [if_neg (by omega)]
      have : ¬ isLeft P 0 P.m := by
        unfold isLeft; rw [dL_zero, dR_ge P le_rfl]; exact lt_irrefl _
      simp [karras, this, internalIndex]
    have hro : ropeOf P P.m = none := by simp [ropeOf, setRope]
    rw [hid, hro] at this
    exact this

/-- Non-vacuity: five values with duplicate codes, intervals as volumes, and a
schedule that runs to completion. -/
def exampleParams : Params ℕ (Finset ℕ) where
  m := 4
  key := fun i => [-8, 5, -6, 3].getD i 0
  maxv := 100
  value := fun i => 10 * i
  vol := fun a => {a, a + 1}

theorem exampleParams_valid : ValidKeys exampleParams where
  two_values := by decide
  below_max := by decide
  neighbours_differ := by
    intro i hi
    have : i < 3 := by simp [exampleParams] at hi; omega
    interval_cases i <;> decide

example : Complete exampleParams (run exampleParams
    ((List.replicate 16 [3, 0, 4, 2, 1]).flatten)) := by
  intro t ht
  refine wait_free _ exampleParams_valid _ t ht ?_
  have : t ≤ 4 := ht
  interval_cases t <;> decide

end ArborX.Construction
