import Verif.DenseBox.Stage
import Verif.DenseBox.Grid
import Mathlib.Order.Interval.Finset.Nat

/-!
# Property theorems: DBSCAN, implementation FDBSCAN-DenseBox (C19, C20, C21)
-/

namespace ArborX.DenseBox

open Traversal BVH Dbscan Perm UF

variable {V : Type} {w : ℕ} [SemilatticeSup V] [OrderBot V]

/-- The parts of the schedule that are not the programmer's: the scans visit every index once. -/
structure DSched.Fair (S : DSched) (n : ℕ) : Prop where
  ord1 : IsOrder (n + 1) S.ord1
  ord2 : ∀ m, IsOrder (m + 1) (S.ord2 m)

section

variable (D : DIn V w) (hD : D.Valid) (S : DSched) (hS : S.Fair D.n)
  (hB : ∀ l, D.layout S = some l → (D.tree l).Finished S.tree) (fuel : ℕ) (hfuel : 2 * D.n ≤ fuel)

include hD hS hB hfuel

/-- The outcome, when all threads of all kernels have finished, is the labels of `lab`. -/
lemma outcome_eq :
    D.dbscan S fuel = .running ∨
    (∃ l L, LayOk D l ∧ (D.tree l).Finished S.tree ∧
      Stage D.n (D.isCore ((D.tree l).build S.tree) l fuel) D.near (D.star && !decide (D.minPts = 2)) L ∧
      D.dbscan S fuel = .labels ((List.range D.n).map
        (lab D.n (decide (D.minPts = 2)) (D.isCore ((D.tree l).build S.tree) l fuel) L))) := by
  unfold DIn.dbscan
  dsimp only
  have hm := hD.minPts
  rw [if_neg (by omega)]
  by_cases hr : ((List.range (D.cells S).m).all fun c =>
      decide ((reorder (D.cells S) D.n S.reorder).thr c = .done)) = true
  swap
  · left
    rw [Bool.not_eq_true] at hr
    rw [hr]; rfl
  have hdone : ∀ c < (D.cells S).m, (reorder (D.cells S) D.n S.reorder).thr c = .done := by
    intro c hc
    have := List.all_eq_true.mp hr c (List.mem_range.mpr hc)
    simpa using this
  obtain ⟨l, hl, ok⟩ := layout_ok D S hD.sort hS.ord1 hS.ord2 hdone
  have hBl := hB l hl
  rw [hr, hl]
  simp only [Bool.not_true, Bool.false_eq_true, if_false]
  have hdc : ∀ i, l.isDense i = true → D.isCore ((D.tree l).build S.tree) l fuel i = true :=
    fun i hi => isCore_dense S.tree fuel hi
  have hs1 : ∀ t, Safe D.n (CP D.n (D.isCore ((D.tree l).build S.tree) l fuel))
      (Relation.EqvGen (Link D.n (D.isCore ((D.tree l).build S.tree) l fuel) D.near))
      (fun b j => (D.star && !decide (D.minPts = 2)) = false ∧ D.near b j = true) (D.prog1 l t) :=
    fun t => prog1_safe ok hD S.tree hBl fuel hfuel hdc _ t
  have hnf : ((List.range (D.chunks1 l.nd).length).any fun t => isFault
      ((UF.run ⟨D.n, (D.chunks1 l.nd).length, D.serial⟩ (D.prog1 l) id S.dense).thr t)) = false := by
    rw [List.any_eq_false]
    intro t ht hf
    rw [isFault_iff] at hf
    exact no_fault (P := ⟨D.n, (D.chunks1 l.nd).length, D.serial⟩) (spec_cp D.n _ _) (hD.serial1 l.nd)
      (linv_init _ _ _ _) (fun t _ => hs1 t) S.dense t (List.mem_range.mp ht) hf
  rw [hnf]
  simp only [Bool.false_eq_true, if_false]
  by_cases hc : ((List.range (D.chunks1 l.nd).length).all fun t => isRet
      ((UF.run ⟨D.n, (D.chunks1 l.nd).length, D.serial⟩ (D.prog1 l) id S.dense).thr t)) = true
  swap
  · left
    rw [Bool.not_eq_true] at hc
    rw [hc]; rfl
  rw [hc, queries_ok ok hD S.tree hBl fuel hfuel]
  simp only [Bool.not_true, Bool.false_eq_true, if_false]
  have hU1 : Complete ⟨D.n, (D.chunks1 l.nd).length, D.serial⟩
      (UF.run ⟨D.n, (D.chunks1 l.nd).length, D.serial⟩ (D.prog1 l) id S.dense) := by
    intro t ht
    exact (isRet_iff _).mp (List.all_eq_true.mp hc t (List.mem_range.mpr ht))
  have hI1 := (complete_spec (P := ⟨D.n, (D.chunks1 l.nd).length, D.serial⟩) (spec_cp D.n _ _) (hD.serial1 l.nd)
      (linv_init _ _ _ _) (fun t _ => hs1 t) S.dense hU1).1
  have hnf2 : ((List.range D.chunks2.length).any fun t => isFault
      ((UF.run ⟨D.n, D.chunks2.length, D.serial⟩ (D.prog2 ((D.tree l).build S.tree) l fuel)
        (UF.run ⟨D.n, (D.chunks1 l.nd).length, D.serial⟩ (D.prog1 l) id S.dense).L S.query).thr t)) = false := by
    rw [List.any_eq_false]
    intro t ht hf
    rw [isFault_iff] at hf
    exact no_fault (P := ⟨D.n, D.chunks2.length, D.serial⟩) (spec_cp D.n _ _) hD.serial2
      hI1 (fun t _ => prog2_safe ok hD S.tree hBl fuel hfuel t) S.query t (List.mem_range.mp ht) hf
  rw [hnf2]
  simp only [Bool.false_eq_true, if_false]
  by_cases hc2 : ((List.range D.chunks2.length).all fun t => isRet
      ((UF.run ⟨D.n, D.chunks2.length, D.serial⟩ (D.prog2 ((D.tree l).build S.tree) l fuel)
        (UF.run ⟨D.n, (D.chunks1 l.nd).length, D.serial⟩ (D.prog1 l) id S.dense).L S.query).thr t)) = true
  swap
  · left
    rw [Bool.not_eq_true] at hc2
    rw [hc2]; rfl
  rw [hc2]
  simp only [Bool.not_true, Bool.false_eq_true, if_false]
  have hU2 : Complete ⟨D.n, D.chunks2.length, D.serial⟩
      (UF.run ⟨D.n, D.chunks2.length, D.serial⟩ (D.prog2 ((D.tree l).build S.tree) l fuel)
        (UF.run ⟨D.n, (D.chunks1 l.nd).length, D.serial⟩ (D.prog1 l) id S.dense).L S.query) := by
    intro t ht
    exact (isRet_iff _).mp (List.all_eq_true.mp hc2 t (List.mem_range.mpr ht))
  have St := stage_of_complete ok hD S.tree hBl fuel hfuel S.dense S.query hU1 hU2
  rcases finish_eq St (decide (D.minPts = 2)) S.final with h | h
  · exact Or.inl h
  · exact Or.inr ⟨l, _, ok, hBl, St, h⟩

/-- **C21 (with C19).** For all points, radii, `core_min_size ≥ 2`, for every grid that puts only
points within the radius of each other into one cell and whose boxes contain the points of
their cells, under all schedules: when the kernels have finished, `dbscan` with dense boxes
returns a DBSCAN clustering of the points; there is no out-of-bounds access. -/
theorem densebox_correct (hstar : D.star = false) :
    D.dbscan S fuel = .running ∨
    ∃ l, D.dbscan S fuel = .labels l ∧ l.length = D.n ∧
      IsDBSCAN D.n D.near D.minPts (labelOf l) ∧ Canonical D.n D.near D.minPts (labelOf l) := by
  rcases outcome_eq D hD S hS hB fuel hfuel with h | ⟨l, L, ok, hBl, St, h⟩
  · exact Or.inl h
  right
  obtain ⟨h1, h2, h3⟩ := labels_correct hD.symm (fun i _ _ => hD.refl i) (isCore_two S.tree fuel)
    (fun e i hi => isCore_many ok hD S.tree hBl fuel hfuel e hi) St
  exact ⟨_, h, by simp, h1 hstar, h3⟩

/-- **C21 (with C20).** The same for DBSCAN*. -/
theorem densebox_star_correct (hstar : D.star = true) :
    D.dbscan S fuel = .running ∨
    ∃ l, D.dbscan S fuel = .labels l ∧ l.length = D.n ∧
      IsDBSCANStar D.n D.near D.minPts (labelOf l) ∧ Canonical D.n D.near D.minPts (labelOf l) := by
  rcases outcome_eq D hD S hS hB fuel hfuel with h | ⟨l, L, ok, hBl, St, h⟩
  · exact Or.inl h
  right
  obtain ⟨h1, h2, h3⟩ := labels_correct hD.symm (fun i _ _ => hD.refl i) (isCore_two S.tree fuel)
    (fun e i hi => isCore_many ok hD S.tree hBl fuel hfuel e hi) St
  exact ⟨_, h, by simp, h2 hstar, h3⟩

/-- **C21.** `dbscan` with dense boxes finishes: it is enough that every thread gets a bounded
number of steps in every kernel, whatever the others do. -/
theorem densebox_terminates
    (hR : ∀ c < (D.cells S).m, (D.cells S).size c + 2 ≤ S.reorder.count c)
    (hU1 : ∀ l, D.layout S = some l → ∀ c < (D.chunks1 l.nd).length, cost D.n (D.prog1 l c) ≤ S.dense.count c)
    (hU2 : ∀ l, D.layout S = some l → ∀ c < D.chunks2.length,
      cost D.n (D.prog2 ((D.tree l).build S.tree) l fuel c) ≤ S.query.count c)
    (hF : ∀ i < D.n, D.n + 5 ≤ S.final.count i) :
    D.dbscan S fuel ≠ .running := by
  unfold DIn.dbscan
  dsimp only
  have hm := hD.minPts
  rw [if_neg (by omega)]
  have hdone : ∀ c < (D.cells S).m, (reorder (D.cells S) D.n S.reorder).thr c = .done :=
    fun c hc => reorder_wait_free (D.cells S) D.n S.reorder c hc (hR c hc)
  have hr : ((List.range (D.cells S).m).all fun c =>
      decide ((reorder (D.cells S) D.n S.reorder).thr c = .done)) = true := by
    rw [List.all_eq_true]
    intro c hc
    rw [decide_eq_true_eq]
    exact hdone c (List.mem_range.mp hc)
  obtain ⟨l, hl, ok⟩ := layout_ok D S hD.sort hS.ord1 hS.ord2 hdone
  have hBl := hB l hl
  rw [hr, hl]
  simp only [Bool.not_true, Bool.false_eq_true, if_false]
  have hdc : ∀ i, l.isDense i = true → D.isCore ((D.tree l).build S.tree) l fuel i = true :=
    fun i hi => isCore_dense S.tree fuel hi
  have hs1 : ∀ t, Safe D.n (CP D.n (D.isCore ((D.tree l).build S.tree) l fuel))
      (Relation.EqvGen (Link D.n (D.isCore ((D.tree l).build S.tree) l fuel) D.near))
      (fun b j => (D.star && !decide (D.minPts = 2)) = false ∧ D.near b j = true) (D.prog1 l t) :=
    fun t => prog1_safe ok hD S.tree hBl fuel hfuel hdc _ t
  have hC1 : Complete ⟨D.n, (D.chunks1 l.nd).length, D.serial⟩
      (UF.run ⟨D.n, (D.chunks1 l.nd).length, D.serial⟩ (D.prog1 l) id S.dense) := by
    intro t ht
    exact wait_free (P := ⟨D.n, (D.chunks1 l.nd).length, D.serial⟩) (spec_cp D.n _ _) (hD.serial1 l.nd)
      (linv_init _ _ _ _) (fun t _ => hs1 t) S.dense t ht (hU1 l hl t ht)
  have hI1 := (complete_spec (P := ⟨D.n, (D.chunks1 l.nd).length, D.serial⟩) (spec_cp D.n _ _) (hD.serial1 l.nd)
      (linv_init _ _ _ _) (fun t _ => hs1 t) S.dense hC1).1
  have hC2 : Complete ⟨D.n, D.chunks2.length, D.serial⟩
      (UF.run ⟨D.n, D.chunks2.length, D.serial⟩ (D.prog2 ((D.tree l).build S.tree) l fuel)
        (UF.run ⟨D.n, (D.chunks1 l.nd).length, D.serial⟩ (D.prog1 l) id S.dense).L S.query) := by
    intro t ht
    exact wait_free (P := ⟨D.n, D.chunks2.length, D.serial⟩) (spec_cp D.n _ _) hD.serial2
      hI1 (fun t _ => prog2_safe ok hD S.tree hBl fuel hfuel t) S.query t ht (hU2 l hl t ht)
  have St := stage_of_complete ok hD S.tree hBl fuel hfuel S.dense S.query hC1 hC2
  have ha1 : ((List.range (D.chunks1 l.nd).length).all fun t => isRet
      ((UF.run ⟨D.n, (D.chunks1 l.nd).length, D.serial⟩ (D.prog1 l) id S.dense).thr t)) = true := by
    rw [List.all_eq_true]
    intro t ht
    exact (isRet_iff _).mpr (hC1 t (List.mem_range.mp ht))
  have ha2 : ((List.range D.chunks2.length).all fun t => isRet
      ((UF.run ⟨D.n, D.chunks2.length, D.serial⟩ (D.prog2 ((D.tree l).build S.tree) l fuel)
        (UF.run ⟨D.n, (D.chunks1 l.nd).length, D.serial⟩ (D.prog1 l) id S.dense).L S.query).thr t)) = true := by
    rw [List.all_eq_true]
    intro t ht
    exact (isRet_iff _).mpr (hC2 t (List.mem_range.mp ht))
  rw [ha1, ha2, queries_ok ok hD S.tree hBl fuel hfuel]
  simp only [Bool.not_true, Bool.false_eq_true, if_false]
  split_ifs
  · simp
  · simp
  · exact finish_terminates St _ S.final hF

end

/-- `dbscan` throws exactly if `core_min_size < 2`. -/
theorem densebox_throws {V : Type} {w : ℕ} [SemilatticeSup V] [OrderBot V] (D : DIn V w) (S : DSched) (fuel : ℕ) :
    D.dbscan S fuel = .throw ↔ D.minPts < 2 := by
  unfold DIn.dbscan finish
  dsimp only
  cases D.layout S <;> dsimp only <;> split_ifs <;> simp_all

/-- **C21.** Both implementations agree: on the same points and parameters every core point gets
the same label, and a point is noise for one exactly if it is for the other. -/
theorem densebox_agrees (D : DIn V w) (hD : D.Valid) (S : DSched) (hS : S.Fair D.n)
    (hB : ∀ l, D.layout S = some l → (D.tree l).Finished S.tree) (fuel : ℕ) (hfuel : 2 * D.n ≤ fuel)
    {V' : Type} {w' : ℕ} [SemilatticeSup V'] [OrderBot V'] (E : In V' w') (hE : E.Valid)
    (schedB : List ℕ) (hEB : E.tree.Finished schedB) (hfuel' : 2 * E.n ≤ fuel) (schedU schedF : List ℕ)
    (hn : E.n = D.n) (hnear : E.near = D.near) (hmin : E.minPts = D.minPts) (hst : E.star = D.star)
    (l l' : List ℤ) (hl : D.dbscan S fuel = .labels l)
    (hl' : E.fdbscan fuel schedB schedU schedF = .labels l') (i : ℕ) (hi : i < D.n) :
    (Core D.n D.near D.minPts i → labelOf l i = labelOf l' i) ∧ (labelOf l i = -1 ↔ labelOf l' i = -1) := by
  have dec : ∀ P : Prop, P ∨ ¬ P := fun P => Classical.em P
  cases hs : D.star
  · obtain ⟨l1, h1, -, a1, c1⟩ := (densebox_correct D hD S hS hB fuel hfuel hs).resolve_left (by rw [hl]; simp)
    obtain ⟨l2, h2, -, a2, c2⟩ := (fdbscan_correct E hE schedB hEB fuel hfuel' (by rw [hst, hs]) schedU schedF).resolve_left
      (by rw [hl']; simp)
    rw [hl] at h1; rw [hl'] at h2
    simp only [Outcome.labels.injEq] at h1 h2
    subst h1; subst h2
    rw [hn, hnear, hmin] at a2 c2
    refine ⟨canonical_unique c1 c2 i hi, ?_⟩
    have key : ∀ f : ℕ → ℤ, IsDBSCAN D.n D.near D.minPts f →
        (f i = -1 ↔ ¬ Core D.n D.near D.minPts i ∧ ¬ NearCore D.n D.near D.minPts i) := by
      intro f hf
      constructor
      · intro h
        refine ⟨fun hc => ?_, fun hc => ?_⟩
        · have := hf.core i hi hc; omega
        · rcases dec (Core D.n D.near D.minPts i) with hco | hco
          · have := hf.core i hi hco; omega
          · obtain ⟨j, hj, cj, -, e⟩ := hf.border i hi hco hc
            have := hf.core j hj cj; omega
      · rintro ⟨h1, h2⟩
        exact hf.noise i hi h1 h2
    rw [key _ a1, key _ a2]
  · obtain ⟨l1, h1, -, a1, c1⟩ := (densebox_star_correct D hD S hS hB fuel hfuel hs).resolve_left (by rw [hl]; simp)
    obtain ⟨l2, h2, -, a2, c2⟩ := (fdbscan_star_correct E hE schedB hEB fuel hfuel' (by rw [hst, hs]) schedU schedF).resolve_left
      (by rw [hl']; simp)
    rw [hl] at h1; rw [hl'] at h2
    simp only [Outcome.labels.injEq] at h1 h2
    subst h1; subst h2
    rw [hn, hnear, hmin] at a2 c2
    refine ⟨canonical_unique c1 c2 i hi, ?_⟩
    have key : ∀ f : ℕ → ℤ, IsDBSCANStar D.n D.near D.minPts f →
        (f i = -1 ↔ ¬ Core D.n D.near D.minPts i) := by
      intro f hf
      constructor
      · intro h hc
        have := hf.core i hi hc; omega
      · exact hf.noise i hi
    rw [key _ a1, key _ a2]

/-! ## A concrete case, and the defect of the grid seen from outside -/

/-- Coordinates on a line of an input below. -/
def coordOf (xs : List ℕ) (i : ℕ) : ℕ := xs.getD i 0

/-- Dense-box clustering of integer points on a line with radius 2, at least 3 points, for a given
assignment of cells and boxes. A volume is a set of integer coordinates (a box is an interval),
so that the predicate of a point on a volume is: some coordinate of it within the radius. -/
def lineIn (xs : List ℕ) (cell : ℕ → ℕ) (box : ℕ → Finset ℕ) (σ : List ℕ) (star : Bool) : DIn (Finset ℕ) 64 where
  n := xs.length
  near := fun i j => decide (coordOf xs i ≤ coordOf xs j + 2 ∧ coordOf xs j ≤ coordOf xs i + 2)
  pv := fun i v => decide (∃ y ∈ v, coordOf xs i ≤ y + 2 ∧ y ≤ coordOf xs i + 2)
  pvol := fun i => {coordOf xs i}
  cell := fun i => cell (coordOf xs i)
  box := box
  nearBox := fun i c => decide (∃ y ∈ box c, coordOf xs i ≤ y + 2 ∧ y ≤ coordOf xs i + 2)
  σ := fun i => σ.getD i i
  code := fun _ _ i => BitVec.ofNat 64 (i / 2)
  tperm := fun _ _ i => i
  minPts := 3
  star := star
  serial := false
  chunks1 := fun m => [(List.range' 1 (m - 1)).filter (· % 2 = 0), (List.range' 1 (m - 1)).filter (· % 2 = 1)]
  chunks2 := [(List.range xs.length).filter (· % 2 = 0), (List.range xs.length).filter (· % 2 = 1)]

/-- A schedule of the kernels, round robin. -/
def roundRobin (n : ℕ) : DSched where
  ord1 := List.range (n + 1)
  ord2 := fun m => (List.range (m + 1)).reverse
  garbage1 := fun _ => 77
  garbage2 := fun _ => 99
  reorder := (List.replicate 12 [0, 1, 2, 3, 4, 5, 6, 7]).flatten
  dense := (List.replicate 40 [0, 1]).flatten
  tree := (List.replicate 22 [0, 1, 2, 3, 4, 5, 6]).flatten
  query := (List.replicate 100 [0, 1]).flatten
  final := (List.replicate 14 [0, 1, 2, 3, 4, 5, 6]).flatten

lemma split_perm (l : List ℕ) : ([l.filter (· % 2 = 0), l.filter (· % 2 = 1)].flatten).Perm l := by
  simp only [List.flatten_cons, List.flatten_nil, List.append_nil]
  have := List.filter_append_perm (fun x => decide (x % 2 = 0)) l
  refine List.Perm.trans ?_ this
  apply List.Perm.append_left
  apply List.Perm.of_eq
  apply List.filter_congr
  intro x _
  rcases Nat.mod_two_eq_zero_or_one x with h | h <;> simp [h]

/-- Cells of length 2 on a line. -/
def halfCell (x : ℕ) : ℕ := x / 2

def halfBox (c : ℕ) : Finset ℕ := Finset.Icc (2 * c) (2 * c + 2)

theorem exampleValid (star : Bool) :
    (lineIn [10, 3, 11, 0, 10, 8, 20] halfCell halfBox [3, 1, 5, 0, 2, 4, 6] star).Valid where
  symm := by intro i j; simp only [lineIn]; rw [decide_eq_decide]; tauto
  refl := by intro i; simp [lineIn]
  pvmono := by
    intro i v v' h hv
    simp only [lineIn, decide_eq_true_eq] at hv ⊢
    obtain ⟨y, hy, h1⟩ := hv
    exact ⟨y, h hy, h1⟩
  nearpv := by
    intro i j h
    simp only [lineIn, decide_eq_true_eq] at h ⊢
    exact ⟨_, Finset.mem_singleton_self _, h⟩
  boxpv := by intro i c; rfl
  cellNear := by
    intro i _ j _ h
    simp only [lineIn, halfCell, decide_eq_true_eq] at h ⊢
    omega
  cellBox := by
    intro i _ j _ h
    simp only [lineIn, decide_eq_true_eq, halfBox, halfCell] at h ⊢
    exact ⟨_, Finset.mem_Icc.mpr (by omega), h⟩
  sort := by
    refine ⟨by cases star <;> decide +kernel, ?_⟩
    intro i hi
    have : i < 6 := by have : i + 1 < 7 := hi; omega
    interval_cases i <;> (simp only [lineIn]; decide)
  tree := by
    intro m hm f
    have hm : m ≤ 7 := hm
    refine ⟨by decide, ?_, ⟨?_, ?_⟩, ?_⟩
    · change m ≤ 2 ^ 63
      omega
    · change ((List.range m).map (fun i => i)).Perm (List.range m)
      simp
    · intro i hi
      have hi : i + 1 < m := hi
      change (BitVec.ofNat 64 (i / 2)) ≤ (BitVec.ofNat 64 ((i + 1) / 2))
      rw [BitVec.le_def, BitVec.toNat_ofNat, BitVec.toNat_ofNat, Nat.mod_eq_of_lt (by omega), Nat.mod_eq_of_lt (by omega)]
      omega
    · intro i hi
      have hi : i < m := hi
      change (BitVec.ofNat 64 (i / 2)).toNat < 2 ^ 63
      rw [BitVec.toNat_ofNat, Nat.mod_eq_of_lt (by omega)]
      omega
  minPts := by simp [lineIn]
  chunks1 := fun m => split_perm _
  chunks2 := split_perm _
  serial1 := by simp [lineIn]
  serial2 := by simp [lineIn]

/-- The construction of the tree over the mixed primitives finishes when every thread gets a
bounded number of steps. -/
theorem densebox_tree_finished (D : DIn V w) (hD : D.Valid) (S : DSched) (hS : S.Fair D.n)
    (hc : ∀ t < D.n, 3 * D.n + 1 ≤ S.tree.count t) (l : Lay) (hl : D.layout S = some l) :
    (D.tree l).Finished S.tree := by
  have hdone : ∀ c < (D.cells S).m, (reorder (D.cells S) D.n S.reorder).thr c = .done := by
    unfold DIn.layout at hl
    dsimp only at hl
    split_ifs at hl with h
    simp only [Bool.or_eq_true, Bool.not_eq_true', not_or, Bool.not_eq_false] at h
    intro c hcm
    have := List.all_eq_true.mp h.1.2 c (List.mem_range.mpr hcm)
    simpa using this
  obtain ⟨l', hl', ok⟩ := layout_ok D S hD.sort hS.ord1 hS.ord2 hdone
  rw [hl, Option.some.injEq] at hl'
  subst hl'
  intro h2 t ht
  have hp := prims_le ok
  have e : (D.tree l).n = l.prims D.n := rfl
  have em : (D.tree l).params.m = (D.tree l).n - 1 := rfl
  have := hc t (by omega)
  exact Construction.wait_free _ ((tree_valid ok hD).keys h2) _ t ht (by omega)

theorem roundRobin_fair (n : ℕ) : (roundRobin n).Fair n :=
  ⟨List.Perm.refl _, fun _ => List.reverse_perm _⟩

/-- The hypotheses are met: three points of the same cell and their neighbours form a cluster,
the three other points are noise; the same labels with DBSCAN* but for border points. -/
example : (∀ l, (lineIn [10, 3, 11, 0, 10, 8, 20] halfCell halfBox [3, 1, 5, 0, 2, 4, 6] false).layout (roundRobin 7)
      = some l → ((lineIn [10, 3, 11, 0, 10, 8, 20] halfCell halfBox [3, 1, 5, 0, 2, 4, 6] false).tree l).Finished
        (roundRobin 7).tree) ∧
    (lineIn [10, 3, 11, 0, 10, 8, 20] halfCell halfBox [3, 1, 5, 0, 2, 4, 6] false).dbscan (roundRobin 7) 14
      = .labels [0, -1, 0, -1, 0, 0, -1] ∧
    (lineIn [10, 3, 11, 0, 10, 8, 20] halfCell halfBox [3, 1, 5, 0, 2, 4, 6] true).dbscan (roundRobin 7) 14
      = .labels [0, -1, 0, -1, 0, 0, -1] := by
  refine ⟨?_, by decide +kernel, by decide +kernel⟩
  refine densebox_tree_finished _ (exampleValid false) _ (roundRobin_fair 7) ?_
  intro t ht
  have ht : t < 7 := ht
  interval_cases t <;> decide +kernel

/-! ### The defect of the grid, seen from outside -/

/-- What `cellIndex` and `cellBox` compute for integer points of `[0,20]` and radius 2 (see
`faceGrid`). -/
def faceBox (c : ℕ) : Finset ℕ := Finset.Icc (2 * (c % 10)) (2 * (c % 10) + 2)

theorem faceGrid : ∃ g : Grid ℚ 1, Grid.build ![0] ![20] 2 (1 / 1000000) = some g ∧
    (∀ x : ℕ, x ≤ 20 → g.cellIndex ![(x : ℚ)] = some (halfCell x)) ∧
    ∀ c x : ℕ, x ∈ faceBox c ↔ InBox (g.cellBox c) ![(x : ℚ)] := by
  have c0 : cellCount (20 : ℚ) 2 = 10 := by norm_num [cellCount]; rfl
  refine ⟨⟨![0], ![20], fun _ => 2, fun a => cellCount (![20] a - ![0] a) (2 : ℚ)⟩, ?_, ?_, ?_⟩
  · simp [Grid.build, List.finRange_succ, c0, sizeCheck]
  · intro x hx
    have hf : ⌊((x : ℚ) / 2)⌋ = ((x / 2 : ℕ) : ℤ) := by
      have := Rat.floor_natCast_div_natCast x 2
      push_cast at this ⊢
      exact this
    simp only [Grid.cellIndex, List.finRange_succ, Grid.index, Grid.coord]
    have h3 : x / 2 ≤ 10 := by omega
    have h4 : ((x / 2 : ℕ) : ℤ) < 2147483648 := by omega
    simp [hf, halfCell]
    rw [if_pos ⟨by omega, by omega⟩]
    simp only [Grid.index, Option.some.injEq]
    rw [Nat.zero_mul, Nat.zero_add, Nat.mod_eq_of_lt (by omega)]
    omega
  · intro c x
    simp only [faceBox, Finset.mem_Icc, InBox, Grid.cellBox, List.finRange_succ, Grid.boxLoop]
    simp [c0]
    generalize c % 10 = i
    have h1 : 2 * i ≤ x ↔ (i : ℚ) * 2 ≤ x := by
      rw [mul_comm]; exact_mod_cast Iff.rfl
    have h2 : x ≤ 2 * i + 2 ↔ (x : ℚ) ≤ (i + 1) * 2 := by
      rw [show 2 * i + 2 = (i + 1) * 2 by ring]; exact_mod_cast Iff.rfl
    rw [h1, h2]

/-- **C21 (defect).** With the grid of the code, dense-box DBSCAN and plain DBSCAN differ: for the
points 0, 17, 19, 20, 20, 20 on a line, radius 2, at least 3 points, the last three get cell index
10, whose box is `[0,2]`. The query of 19 misses them, so 19 is not recognised as a core point,
and 17, which is within the radius of the core point 19, is labelled noise. -/
theorem densebox_face_defect :
    (lineIn [0, 17, 19, 20, 20, 20] halfCell faceBox [0, 1, 2, 3, 4, 5] false).dbscan (roundRobin 6) 12
      = .labels [-1, -1, 3, 3, 3, 3] ∧
    ¬ IsDBSCAN 6 (lineIn [0, 17, 19, 20, 20, 20] halfCell faceBox [0, 1, 2, 3, 4, 5] false).near 3
      (labelOf [-1, -1, 3, 3, 3, 3]) := by
  refine ⟨by decide +kernel, ?_⟩
  intro h
  have hn : NearCore 6 (lineIn [0, 17, 19, 20, 20, 20] halfCell faceBox [0, 1, 2, 3, 4, 5] false).near 3 1 :=
    ⟨2, by decide, by decide, by decide⟩
  obtain ⟨j, hj, cj, -, e⟩ := h.border 1 (by decide) (by decide) hn
  have := h.core j hj cj
  rw [← e] at this
  exact absurd this (by decide)

end ArborX.DenseBox
