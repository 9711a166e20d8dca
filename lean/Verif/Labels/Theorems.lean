import Verif.Labels.Lemmas
import Verif.Labels.Weak
import Verif.Traversal.Theorems

/-!
# Property theorems: parents and labels of the tree nodes (C26)
-/

namespace ArborX.Labels

open BVH

variable {α V : Type} {w : ℕ} [SemilatticeSup V] [OrderBot V]

/-- **C26 (parents).** On the tree of at least two values, in whatever order the assignments of
the kernel happen, `findParents` does not fail; for every internal node the recorded parent of
both children is that node, and nothing is recorded for the root. -/
theorem findParents_correct (I : Input α V w) (h : I.Valid) (hn : 2 ≤ I.n) (schedB : List ℕ)
    (hf : I.Finished schedB) (ord : List ℕ) (ho : ord.Perm (List.range (2 * I.n - 2))) :
    ∃ par, findParents (I.build schedB) ord = some par ∧ par I.n = none ∧
      ∀ a b id r, Layout (I.build schedB) (fun i => I.values (I.perm i)) I.vol (.node a b) id r →
        ∃ ia ib, Layout (I.build schedB) (fun i => I.values (I.perm i)) I.vol a ia (some ib) ∧
          Layout (I.build schedB) (fun i => I.values (I.perm i)) I.vol b ib r ∧
          par ia = some id ∧ par ib = some id := by
  obtain ⟨T, hT⟩ := build_tidy I h hn
  have t := hT schedB hf
  have hs := build_size I schedB
  obtain ⟨par, e1, e2, e3⟩ := t.findParents_eq ord (by rw [hs]; exact ho)
  refine ⟨par, e1, by rw [← hs]; exact e2, ?_⟩
  intro a b id r hl
  have hid : (I.build schedB).size ≤ id := hl.choose_spec.choose_spec.1
  have hid2 := t.id_lt hl
  obtain ⟨ia, ib, k1, k2, k3, k4⟩ := layout_kids hl
  obtain ⟨-, -, c⟩ := t.child_spec (k := 2 * (id - (I.build schedB).size)) (by omega)
  obtain ⟨-, -, d⟩ := t.child_spec (k := 2 * (id - (I.build schedB).size) + 1) (by omega)
  rw [if_pos (by omega), show (I.build schedB).size + 2 * (id - (I.build schedB).size) / 2 = id by omega, k1] at c
  rw [if_neg (by omega), show (I.build schedB).size + (2 * (id - (I.build schedB).size) + 1) / 2 = id by omega, k2] at d
  refine ⟨ia, ib, k3, k4, ?_, ?_⟩
  · rw [Option.some.inj c, e3 _ (by omega)]; congr 1; omega
  · rw [Option.some.inj d, e3 _ (by omega)]; congr 1; omega

/-- **C26 (labels).** Give every leaf any label other than the two markers `-1` and `-2`. Under
every interleaving of the threads of `reduceLabels`, whatever value each plain load returns among
those memory coherence allows, none of them fails, and once all have
returned, every node of the tree whose leaves all carry the label `c` is labelled `c` (in
particular the leaves keep their labels), every node with two leaves of different labels is
labelled `-1`. -/
theorem reduceLabels_correct (I : Input α V w) (h : I.Valid) (hn : 2 ≤ I.n) (schedB : List ℕ)
    (hf : I.Finished schedB) (ord : List ℕ) (ho : ord.Perm (List.range (2 * I.n - 2)))
    (lab : ℕ → ℤ) (hv : ∀ i < I.n, lab i ≠ -1 ∧ lab i ≠ -2) :
    ∃ par, findParents (I.build schedB) ord = some par ∧
      ∀ sched, (∀ t < I.n, (wrun I.n par lab sched).thr t ≠ .fault) ∧
        (Complete I.n (wrun I.n par lab sched).toState →
          ∀ S id r, Layout (I.build schedB) (fun i => I.values (I.perm i)) I.vol S id r →
            (∀ c, (∀ i ∈ S.leaves, lab i = c) → (wrun I.n par lab sched).lab id = c) ∧
            (∀ i ∈ S.leaves, ∀ j ∈ S.leaves, lab i ≠ lab j → (wrun I.n par lab sched).lab id = -1)) := by
  obtain ⟨T, hT⟩ := build_tidy I h hn
  have t := hT schedB hf
  have hs := build_size I schedB
  obtain ⟨par, L, R, leaves, e1, sh, hl⟩ := t.shape (ord := ord) (by rw [hs]; exact ho)
  rw [hs] at sh
  refine ⟨par, e1, fun sched => ?_⟩
  rw [wrun_eq sh hv]
  obtain ⟨arr, inv⟩ := inv_run sh hv (sched.map (·.1))
  refine ⟨inv.fault, fun hc S id r hS => ?_⟩
  have hid : id < 2 * I.n - 1 := by rw [← hs]; exact t.id_lt hS
  have e := (inv.final sh hc _ id le_rfl hid).1
  rw [val, hl S id r hS] at e
  have hpos := leaves_pos S
  have hlt : ∀ i ∈ S.leaves, i < I.n := by
    intro i hi
    rw [← hl S id r hS] at hi
    exact sh.leaf_lt _ id hid le_rfl i hi
  refine ⟨fun c hcc => ?_, fun i hi j hj hij => ?_⟩
  · obtain ⟨z, hz⟩ := List.exists_mem_of_length_pos hpos
    have : c ≠ -1 := by rw [← hcc z hz]; exact (hv z (hlt z hz)).1
    rw [e]
    exact (common_eq_iff hpos this).mpr hcc
  · rw [e]
    by_contra hne
    have := (common_eq_iff hpos hne).mp rfl
    exact hij ((this i hi).trans (this j hj).symm)

/-- **C26 (progress).** No thread of `reduceLabels` ever waits: each returns after at most `3 n`
steps of its own, under every interleaving and whatever the loads return. -/
theorem reduceLabels_wait_free (I : Input α V w) (h : I.Valid) (hn : 2 ≤ I.n) (schedB : List ℕ)
    (hf : I.Finished schedB) (ord : List ℕ) (ho : ord.Perm (List.range (2 * I.n - 2)))
    (lab : ℕ → ℤ) (hv : ∀ i < I.n, lab i ≠ -1 ∧ lab i ≠ -2) :
    ∃ par, findParents (I.build schedB) ord = some par ∧
      ∀ sched, ∀ t < I.n, 3 * I.n ≤ (sched.map (·.1)).count t → (wrun I.n par lab sched).thr t = .done := by
  obtain ⟨T, hT⟩ := build_tidy I h hn
  have t := hT schedB hf
  have hs := build_size I schedB
  obtain ⟨par, L, R, leaves, e1, sh, hl⟩ := t.shape (ord := ord) (by rw [hs]; exact ho)
  rw [hs] at sh
  refine ⟨par, e1, fun sched u hu hc => ?_⟩
  rw [wrun_eq sh hv]
  generalize sched.map (·.1) = sched at hc ⊢
  rcases run_rank sh hv hu sched (init I.n lab) ⟨_, inv_init sh⟩ with hr | hr
  · obtain ⟨arr, inv⟩ := inv_run sh hv sched
    have h0 : ((init I.n lab).thr u).rank I.n leaves ≤ 3 * I.n := by
      simp only [init, TS.rank]
      rw [sh.leaf u hu]
      simp only [List.length_singleton]
      omega
    have : ((run I.n par lab sched).thr u).rank I.n leaves = 0 := by
      unfold run; omega
    cases hts : (run I.n par lab sched).thr u with
    | read i => rw [hts] at this; simp [TS.rank] at this
    | cas i l => rw [hts] at this; simp [TS.rank] at this
    | mark p => rw [hts] at this; simp [TS.rank] at this
    | done => rfl
    | fault => exact absurd hts (inv.fault u hu)
  · exact hr

/-! ## Non-vacuity -/

open Traversal (exampleInput exampleInput_valid)

/-- Labels of the example: two components. -/
def exampleLabels : ℕ → ℤ := fun i => if i < 2 then 4 else 7

example : 2 ≤ exampleInput.n ∧ (∃ schedB, exampleInput.Finished schedB) ∧
    (List.range (2 * exampleInput.n - 2)).reverse.Perm (List.range (2 * exampleInput.n - 2)) ∧
    ∀ i < exampleInput.n, exampleLabels i ≠ -1 ∧ exampleLabels i ≠ -2 := by
  refine ⟨by decide, ?_, List.reverse_perm _, by decide⟩
  obtain ⟨s, hs⟩ := Construction.exists_complete exampleInput.params (exampleInput_valid.keys (by decide))
  exact ⟨s, fun _ => hs⟩

end ArborX.Labels
