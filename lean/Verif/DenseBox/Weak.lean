import Verif.DenseBox.WeakModel
import Verif.DenseBox.Theorems
import Verif.Dbscan.Weak

/-!
# FDBSCAN-DenseBox on a machine with weak memory (C79)
-/

namespace ArborX.DenseBox

open Traversal BVH Dbscan Perm UF

variable {V : Type} {w : ℕ} [SemilatticeSup V] [OrderBot V]

section

variable (D : DIn V w) (hD : D.Valid) (S : WSched V) (hS : S.base.Fair D.n)
  (hB : ∀ l, D.layout S.base = some l → 2 ≤ (D.tree l).n →
    ∀ t < (D.tree l).n, (Construction.runW ⟨true, true⟩ (D.tree l).params S.tree).base.thr t = .done)
  (fuel : ℕ) (hfuel : 2 * D.n ≤ fuel)

include hD hB

omit hB in
lemma tree_finishedW {l : Lay} (ok : LayOk D l)
    (hBl : 2 ≤ (D.tree l).n → ∀ t < (D.tree l).n,
      (Construction.runW ⟨true, true⟩ (D.tree l).params S.tree).base.thr t = .done) :
    (D.tree l).Finished (S.tree.map Prod.fst) := by
  intro h2 t ht
  rw [← (weak_build (D.tree l) (tree_valid ok hD) S.tree).2 h2]
  have ht' : t ≤ (D.tree l).n - 1 := ht
  exact hBl h2 t (by omega)

include hS hfuel

lemma outcomeW_eq :
    (D.dbscanW S fuel = .running ∨
    (∃ l L, LayOk D l ∧ (D.tree l).Finished (S.tree.map Prod.fst) ∧
      Stage D.n (D.isCore ((D.tree l).build (S.tree.map Prod.fst)) l fuel) D.near (D.star && !decide (D.minPts = 2)) L ∧
      D.dbscanW S fuel = .labels ((List.range D.n).map
        (lab D.n (decide (D.minPts = 2)) (D.isCore ((D.tree l).build (S.tree.map Prod.fst)) l fuel) L)))) ∧
    ((∀ c < (D.cells S.base).m, (D.cells S.base).size c + 2 ≤ S.base.reorder.count c) →
      (∀ l, D.layout S.base = some l → ∀ c < (D.chunks1 l.nd).length,
        cost D.n (D.prog1 l c) ≤ (S.dense.map Prod.fst).count c) →
      (∀ l, D.layout S.base = some l → ∀ c < D.chunks2.length,
        cost D.n (D.prog2 ((D.tree l).build (S.tree.map Prod.fst)) l fuel c) ≤ (S.query.map Prod.fst).count c) →
      (∀ i < D.n, D.n + 5 ≤ (S.final.map Prod.fst).count i) → D.dbscanW S fuel ≠ .running) := by
  unfold DIn.dbscanW
  dsimp only
  have hm := hD.minPts
  rw [if_neg (by omega)]
  by_cases hr : ((List.range (D.cells S.base).m).all fun c =>
      decide ((reorder (D.cells S.base) D.n S.base.reorder).thr c = .done)) = true
  swap
  · refine ⟨Or.inl ?_, fun hR => ?_⟩
    · rw [Bool.not_eq_true] at hr
      rw [hr]; rfl
    · refine absurd ?_ hr
      rw [List.all_eq_true]
      intro c hc
      rw [decide_eq_true_eq]
      exact reorder_wait_free (D.cells S.base) D.n S.base.reorder c (List.mem_range.mp hc) (hR c (List.mem_range.mp hc))
  have hdone : ∀ c < (D.cells S.base).m, (reorder (D.cells S.base) D.n S.base.reorder).thr c = .done := by
    intro c hc
    have := List.all_eq_true.mp hr c (List.mem_range.mpr hc)
    simpa using this
  obtain ⟨l, hl, ok⟩ := layout_ok D S.base hD.sort hS.ord1 hS.ord2 hdone
  have hBl := tree_finishedW D hD S ok (hB l hl)
  rw [hr, hl]
  simp only [Bool.not_true, Bool.false_eq_true, if_false, Option.some.injEq, forall_eq']
  rw [(weak_build (D.tree l) (tree_valid ok hD) S.tree).1]
  generalize S.tree.map Prod.fst = sB at *
  have hdc : ∀ i, l.isDense i = true → D.isCore ((D.tree l).build sB) l fuel i = true :=
    fun i hi => isCore_dense sB fuel hi
  have hs1 : ∀ t < (D.chunks1 l.nd).length, Safe D.n (CP D.n (D.isCore ((D.tree l).build sB) l fuel))
      (Relation.EqvGen (Link D.n (D.isCore ((D.tree l).build sB) l fuel) D.near))
      (fun b j => (D.star && !decide (D.minPts = 2)) = false ∧ D.near b j = true) (D.prog1 l t) :=
    fun t _ => prog1_safe ok hD sB hBl fuel hfuel hdc _ t
  have hs2 := fun t (_ : t < D.chunks2.length) => prog2_safe ok hD sB hBl fuel hfuel t
  have hnf : ((List.range (D.chunks1 l.nd).length).any fun t => isFault
      ((UF.runW D.n (D.chunks1 l.nd).length (D.prog1 l) id S.dense).thr t)) = false := by
    rw [List.any_eq_false]
    intro t ht hf
    rw [isFault_iff] at hf
    exact weak_no_fault (spec_cp D.n _ _) (linv_init _ _ _ _) hs1 S.dense t (List.mem_range.mp ht) hf
  rw [hnf]
  simp only [Bool.false_eq_true, if_false]
  by_cases hc : ((List.range (D.chunks1 l.nd).length).all fun t => isRet
      ((UF.runW D.n (D.chunks1 l.nd).length (D.prog1 l) id S.dense).thr t)) = true
  swap
  · refine ⟨Or.inl ?_, fun _ hU1 => ?_⟩
    · rw [Bool.not_eq_true] at hc
      rw [hc]; rfl
    · refine absurd ?_ hc
      rw [List.all_eq_true]
      intro t ht
      have ht := List.mem_range.mp ht
      exact (isRet_iff _).mpr (weak_wait_free (spec_cp D.n _ _) (linv_init _ _ _ _) hs1 S.dense t ht (hU1 t ht))
  rw [hc, queries_ok ok hD sB hBl fuel hfuel]
  simp only [Bool.not_true, Bool.false_eq_true, if_false]
  have hU1 : CompleteW (D.chunks1 l.nd).length (UF.runW D.n (D.chunks1 l.nd).length (D.prog1 l) id S.dense) :=
    fun t ht => (isRet_iff _).mp (List.all_eq_true.mp hc t (List.mem_range.mpr ht))
  obtain ⟨hI1, hF1⟩ := weak_complete_spec (spec_cp D.n _ _) (linv_init _ _ _ _) hs1 S.dense hU1
  generalize (UF.runW D.n (D.chunks1 l.nd).length (D.prog1 l) id S.dense).mem.L = L1 at *
  have hnf2 : ((List.range D.chunks2.length).any fun t => isFault
      ((UF.runW D.n D.chunks2.length (D.prog2 ((D.tree l).build sB) l fuel) L1 S.query).thr t)) = false := by
    rw [List.any_eq_false]
    intro t ht hf
    rw [isFault_iff] at hf
    exact weak_no_fault (spec_cp D.n _ _) hI1 hs2 S.query t (List.mem_range.mp ht) hf
  rw [hnf2]
  simp only [Bool.false_eq_true, if_false]
  by_cases hc2 : ((List.range D.chunks2.length).all fun t => isRet
      ((UF.runW D.n D.chunks2.length (D.prog2 ((D.tree l).build sB) l fuel) L1 S.query).thr t)) = true
  swap
  · refine ⟨Or.inl ?_, fun _ _ hU2 => ?_⟩
    · rw [Bool.not_eq_true] at hc2
      rw [hc2]; rfl
    · refine absurd ?_ hc2
      rw [List.all_eq_true]
      intro t ht
      have ht := List.mem_range.mp ht
      exact (isRet_iff _).mpr (weak_wait_free (spec_cp D.n _ _) hI1 hs2 S.query t ht (hU2 t ht))
  rw [hc2]
  simp only [Bool.not_true, Bool.false_eq_true, if_false]
  have hU2 : CompleteW D.chunks2.length
      (UF.runW D.n D.chunks2.length (D.prog2 ((D.tree l).build sB) l fuel) L1 S.query) :=
    fun t ht => (isRet_iff _).mp (List.all_eq_true.mp hc2 t (List.mem_range.mpr ht))
  obtain ⟨hI, hF⟩ := weak_complete_spec (spec_cp D.n _ _) hI1 hs2 S.query hU2
  have St := stage_of_facts ok hD sB hBl fuel hfuel hF1
    (weak_run_grow (spec_cp D.n _ _) hI1 hs2 S.query) hI hF
  refine ⟨?_, fun _ _ _ hF => finishW_terminates St _ S.final hF⟩
  rcases finishW_eq St (decide (D.minPts = 2)) S.final with h | h
  · exact Or.inl h
  · exact Or.inr ⟨l, _, ok, hBl, St, h⟩

/-- **C79.** `dbscan` with dense boxes on a machine with weak memory returns a DBSCAN clustering (or
the DBSCAN* clustering), labelled as on every other machine: the loads of the construction that
no synchronisation orders return anything, the loads of the labels return any value which the
label has held, stores of labels are ordered arbitrarily. -/
theorem weak_densebox_correct :
    D.dbscanW S fuel = .running ∨
    ∃ l, D.dbscanW S fuel = .labels l ∧ l.length = D.n ∧
      (D.star = false → IsDBSCAN D.n D.near D.minPts (labelOf l)) ∧
      (D.star = true → IsDBSCANStar D.n D.near D.minPts (labelOf l)) ∧
      Canonical D.n D.near D.minPts (labelOf l) := by
  rcases (outcomeW_eq D hD S hS hB fuel hfuel).1 with h | ⟨l, L, ok, hBl, St, h⟩
  · exact Or.inl h
  right
  obtain ⟨h1, h2, h3⟩ := labels_correct hD.symm (fun i _ _ => hD.refl i) (isCore_two _ fuel)
    (fun e i hi => isCore_many ok hD _ hBl fuel hfuel e hi) St
  exact ⟨_, h, by simp, h1, h2, h3⟩

/-- **C79.** It finishes if every thread gets a bounded number of steps in every kernel. -/
theorem weak_densebox_terminates
    (hR : ∀ c < (D.cells S.base).m, (D.cells S.base).size c + 2 ≤ S.base.reorder.count c)
    (hU1 : ∀ l, D.layout S.base = some l → ∀ c < (D.chunks1 l.nd).length,
      cost D.n (D.prog1 l c) ≤ (S.dense.map Prod.fst).count c)
    (hU2 : ∀ l, D.layout S.base = some l → ∀ c < D.chunks2.length,
      cost D.n (D.prog2 ((D.tree l).build (S.tree.map Prod.fst)) l fuel c) ≤ (S.query.map Prod.fst).count c)
    (hF : ∀ i < D.n, D.n + 5 ≤ (S.final.map Prod.fst).count i) :
    D.dbscanW S fuel ≠ .running :=
  (outcomeW_eq D hD S hS hB fuel hfuel).2 hR hU1 hU2 hF

end

/-- **C79.** It throws exactly if `core_min_size < 2`. -/
theorem weak_densebox_throws {V : Type} {w : ℕ} [SemilatticeSup V] [OrderBot V] (D : DIn V w) (S : WSched V) (fuel : ℕ) :
    D.dbscanW S fuel = .throw ↔ D.minPts < 2 := by
  unfold DIn.dbscanW finishW
  dsimp only
  cases D.layout S.base <;> dsimp only <;> split_ifs <;> simp_all

/-- The schedule of `roundRobin`, with stale loads and lost stores in all kernels. -/
def staleRobin (n : ℕ) : WSched (Finset ℕ) where
  base := roundRobin n
  dense := (roundRobin n).dense.map (fun t => (t, ⟨some 1, false⟩))
  tree := (roundRobin n).tree.map (fun t => (t, some ∅))
  query := (roundRobin n).query.map (fun t => (t, ⟨some 1, false⟩))
  final := (roundRobin n).final.map (fun t => (t, true))

/-- The points of the example of `densebox_correct`. -/
def lineEx : DIn (Finset ℕ) 64 := lineIn [10, 3, 11, 0, 10, 8, 20] halfCell halfBox [3, 1, 5, 0, 2, 4, 6] false

theorem lineEx_valid : lineEx.Valid := exampleValid false

/-- The hypotheses are met. -/
example : (∀ l, lineEx.layout (staleRobin 7).base
      = some l → 2 ≤ (lineEx.tree l).n →
      ∀ t < (lineEx.tree l).n,
        (Construction.runW ⟨true, true⟩ (lineEx.tree
          l).params (staleRobin 7).tree).base.thr t = .done) ∧
    lineEx.dbscanW (staleRobin 7) 14
      = .labels [0, -1, 0, -1, 0, 0, -1] := by
  refine ⟨?_, by decide +kernel⟩
  intro l hl h2 t ht
  have hfin := densebox_tree_finished lineEx lineEx_valid (roundRobin 7) (roundRobin_fair 7) (by
    intro t ht
    have ht : t < 7 := ht
    interval_cases t <;> decide +kernel) l hl
  have hdone : ∀ c < (lineEx.cells (roundRobin 7)).m,
      (reorder (lineEx.cells (roundRobin 7)) lineEx.n
        (roundRobin 7).reorder).thr c = .done := by
    decide +kernel
  obtain ⟨l', hl', ok⟩ := layout_ok lineEx (roundRobin 7) lineEx_valid.sort (roundRobin_fair 7).ord1 (roundRobin_fair 7).ord2 hdone
  have hl : lineEx.layout (roundRobin 7) = some l := hl
  rw [hl, Option.some.injEq] at hl'
  subst hl'
  rw [(weak_build (lineEx.tree l) (tree_valid ok lineEx_valid) (staleRobin 7).tree).2 h2]
  have e : (staleRobin 7).tree.map Prod.fst = (roundRobin 7).tree := by
    simp [staleRobin, Function.comp_def]
  rw [e]
  refine hfin h2 t ?_
  change t ≤ _ - 1
  omega

end ArborX.DenseBox
