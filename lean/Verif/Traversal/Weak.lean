import Verif.Construction.Weak
import Verif.Traversal.Theorems

/-!
# Trees built on a machine with weak memory (C78)
-/

namespace ArborX.Traversal

open BVH Construction

variable {α V : Type} {w : ℕ} [SemilatticeSup V] [OrderBot V]

/-- The node arrays after the constructor as `Input.build`, on a machine with weak memory (`Verif/Construction/WeakModel.lean`); the end of the kernel orders its writes
before the queries. -/
def buildW (O : Order) (I : Input α V w) (sched : List (ℕ × Option V)) : Mem α V :=
  if I.n = 0 then ⟨0, fun _ => none, fun _ => none⟩
  else if I.n = 1 then ⟨1, fun i => if i = 0 then some ⟨none, I.values 0⟩ else none, fun _ => none⟩
  else ⟨I.n, (runW O I.params sched).base.leaf, (runW O I.params sched).base.internal⟩

/-- **C78.** If the compare-exchange that stores a range releases the writes before it and the fence after the other compare-exchange acquires them, then under every schedule and
whatever unordered reads return, the kernel does what it does on a machine with strong memory: the local states are the same after every step, and so are the nodes. -/
theorem weak_build (I : Input α V w) (h : I.Valid) (sched : List (ℕ × Option V)) :
    buildW ⟨true, true⟩ I sched = I.build (sched.map Prod.fst) ∧
    (2 ≤ I.n → (runW ⟨true, true⟩ I.params sched).base.thr = (run I.params (sched.map Prod.fst)).thr) := by
  by_cases h2 : 2 ≤ I.n
  · have e := weak_run (h.keys h2).good sched
    refine ⟨?_, fun _ => by rw [e]⟩
    unfold buildW Input.build
    rw [e]
  · refine ⟨?_, fun h' => absurd h' h2⟩
    unfold buildW Input.build
    by_cases h0 : I.n = 0
    · rw [if_pos h0, if_pos h0]
    · have h1 : I.n = 1 := by omega
      rw [if_neg h0, if_neg h0, if_pos h1, if_pos h1]

/-- **C78.** No thread reads a node that is not written or accesses memory out of bounds, and every thread returns after `3 (n - 1) + 4` steps of its own. -/
theorem weak_construction (I : Input α V w) (h : I.Valid) (h2 : 2 ≤ I.n) (sched : List (ℕ × Option V)) (t : ℕ) (ht : t < I.n) :
    (runW ⟨true, true⟩ I.params sched).base.thr t ≠ .fault ∧
    (3 * (I.n - 1) + 4 ≤ (sched.map Prod.fst).count t → (runW ⟨true, true⟩ I.params sched).base.thr t = .done) := by
  rw [(weak_build I h sched).2 h2]
  have ht' : t ≤ I.params.m := by show t ≤ I.n - 1; omega
  exact ⟨no_fault _ (h.keys h2) _ t ht', fun hc => wait_free _ (h.keys h2) _ t ht' hc⟩

/-- **C78.** A spatial query on a tree built on a machine with weak memory calls back on the matching values, each once. -/
theorem weak_spatial_query (I : Input α V w) (h : I.Valid) (pl : α → Bool) (pv : V → Bool) (mono : Monotone I.vol pl pv) (sched : List (ℕ × Option V))
    (hf : 2 ≤ I.n → ∀ t < I.n, (runW ⟨true, true⟩ I.params sched).base.thr t = .done) (fuel : ℕ) (hfuel : 2 * I.n ≤ fuel) :
    ∃ calls, spatialQuery (buildW ⟨true, true⟩ I sched) pl pv (fun _ => false) fuel = .done calls ∧ calls.Perm (I.stored.filter pl) := by
  obtain ⟨e1, e2⟩ := weak_build I h sched
  rw [e1]
  refine spatial_query_exact I h pl pv mono _ (fun h2 t ht => ?_) fuel hfuel
  rw [← e2 h2]
  have ht' : t ≤ I.n - 1 := ht
  exact hf h2 t (by omega)

/-- Two values, 0 and 1; a volume is a set of values. -/
def twoIn : Input ℕ (Finset ℕ) 8 := ⟨2, fun i => i, fun a => {a}, fun i => BitVec.ofNat 8 i, fun i => i⟩

theorem twoIn_valid : twoIn.Valid where
  width := by decide
  fits := by decide
  sorted := ⟨by decide, by intro i hi; have : i + 1 < 2 := hi; have : i = 0 := by omega
                           subst this; decide⟩
  top := by decide

/-- The hypotheses of `weak_spatial_query` are met. -/
example (g : Option (Finset ℕ)) : ∃ calls, spatialQuery (buildW ⟨true, true⟩ twoIn ((List.replicate 7 [(0, g), (1, g)]).flatten)) (fun a => decide (a = 0)) (fun v => decide (0 ∈ v))
    (fun _ => false) 4 = .done calls ∧ calls.Perm [0] := by
  have := weak_spatial_query twoIn twoIn_valid (fun a => decide (a = 0)) (fun v => decide (0 ∈ v))
    (by intro a v hv ha; simp only [decide_eq_true_eq] at *; subst ha; exact hv (Finset.mem_singleton_self _))
    ((List.replicate 7 [(0, g), (1, g)]).flatten)
    (fun h2 t ht => (weak_construction twoIn twoIn_valid h2 _ t ht).2 (by
      have ht : t < 2 := ht
      interval_cases t <;> simp [List.replicate, twoIn])) 4 (by decide)
  exact this

/-- **C78.** Both guarantees are needed: if one of them is missing, some execution builds a tree in which a value is not found. Thread 0 stores its leaf and the range; thread 1 meets the
range, but the leaf it reads is not yet visible and it takes the box of the root to be its own. -/
theorem weak_without_order (O : Order) (hO : ¬ (O.release = true ∧ O.acquire = true)) :
    ∃ sched, (∀ t < 2, (runW O twoIn.params sched).base.thr t = .done) ∧
      spatialQuery (buildW O twoIn sched) (fun a => decide (a = 0)) (fun v => decide (0 ∈ v)) (fun _ => false) 4 = .done [] := by
  refine ⟨[(0, none), (0, none), (1, none), (1, none), (1, some ∅), (1, none)], ?_, ?_⟩
  · obtain ⟨r, a⟩ := O
    intro t ht
    cases r <;> cases a
    · interval_cases t <;> rfl
    · interval_cases t <;> rfl
    · interval_cases t <;> rfl
    · exact absurd ⟨rfl, rfl⟩ hO
  · obtain ⟨r, a⟩ := O
    cases r <;> cases a
    · decide
    · decide
    · decide
    · exact absurd ⟨rfl, rfl⟩ hO

end ArborX.Traversal
