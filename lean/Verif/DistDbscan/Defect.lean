import Verif.DistDbscan.Theorems

/-!
# The distributed DBSCAN does not always compute a clustering (C48)

Six processes with one point each. Also shows that the hypotheses of the theorems about C48 can be met.
-/

namespace ArborX.DistDbscan

open Distributed BVH Traversal Dbscan

/-! ## A clustering exists for all points -/

lemma linked_symm {n : ℕ} {near : ℕ → ℕ → Bool} {k : ℕ} (hs : ∀ i j, near i j = near j i) {i j : ℕ} (h : Chained n near k i j) : Chained n near k j i := by
  induction h with
  | refl => exact .refl
  | tail _ h ih => exact .head ⟨h.2.1, h.1, h.2.2.2.1, h.2.2.1, by rw [hs]; exact h.2.2.2.2⟩ ih

/-- The smallest core point of the cluster of a core point. -/
lemma exists_smallest {n : ℕ} {near : ℕ → ℕ → Bool} {k i : ℕ} (hi : i < n) (hc : Core n near k i) :
    ∃ r, r < n ∧ Core n near k r ∧ Chained n near k i r ∧ ∀ j < n, Core n near k j → Chained n near k i j → r ≤ j := by
  classical
  have hex : ∃ r, r < n ∧ Core n near k r ∧ Chained n near k i r := ⟨i, hi, hc, .refl⟩
  obtain ⟨h1, h2, h3⟩ := Nat.find_spec hex
  exact ⟨Nat.find hex, h1, h2, h3, fun j hj hcj hch => Nat.find_min' hex ⟨hj, hcj, hch⟩⟩

open Classical in
lemma exists_clustering (star : Bool) (n : ℕ) (near : ℕ → ℕ → Bool) (k : ℕ) (hs : ∀ i j, near i j = near j i) :
    ∃ l : List ℤ, l.length = n ∧ IsClustering star n near k (labelAt l) ∧ Canonical n near k (labelAt l) := by
  choose! rep hr using fun i (hi : i < n) (hc : Core n near k i) => exists_smallest hi hc
  choose! core hcore using fun i (h : NearCore n near k i) => h
  let f : ℕ → ℤ := fun i => if Core n near k i then (rep i : ℤ) else if star = false ∧ NearCore n near k i then (rep (core i) : ℤ) else -1
  have hf : ∀ i < n, labelAt ((List.range n).map f) i = f i := by
    intro i hi
    simp [labelAt, List.getD_eq_getElem?_getD, hi]
  have hcl : ∀ i < n, ∀ j < n, Core n near k i → Core n near k j → (rep i = rep j ↔ Chained n near k i j) := by
    intro i hi j hj hci hcj
    obtain ⟨a1, a2, a3, a4⟩ := hr i hi hci
    obtain ⟨b1, b2, b3, b4⟩ := hr j hj hcj
    constructor
    · intro h
      rw [h] at a3
      exact a3.trans (linked_symm hs b3)
    · intro h
      exact le_antisymm (a4 _ b1 b2 (h.trans b3)) (b4 _ a1 a2 ((linked_symm hs h).trans a3))
  refine ⟨(List.range n).map f, by simp, ?_, ?_⟩
  · have hcl' : ∀ i < n, ∀ j < n, Core n near k i → Core n near k j →
        (labelAt ((List.range n).map f) i = labelAt ((List.range n).map f) j ↔ Chained n near k i j) := by
      intro i hi j hj hci hcj
      rw [hf i hi, hf j hj, ← hcl i hi j hj hci hcj]
      simp only [f, if_pos hci, if_pos hcj]
      exact Nat.cast_inj
    have hco : ∀ i < n, Core n near k i → 0 ≤ labelAt ((List.range n).map f) i := by
      intro i hi hci
      rw [hf i hi]
      simp only [f, if_pos hci]
      exact Int.natCast_nonneg _
    unfold IsClustering
    cases star
    · simp only [Bool.false_eq_true, if_false]
      refine ⟨hco, hcl', fun i hi hnc hn => ?_, fun i hi hnc hn => ?_⟩
      · obtain ⟨h1, h2, h3⟩ := hcore i hn
        refine ⟨core i, h1, h2, h3, ?_⟩
        rw [hf i hi, hf _ h1]
        simp only [f, if_neg hnc, if_pos h2]
        rw [if_pos ⟨trivial, hn⟩]
      · rw [hf i hi]
        simp only [f, if_neg hnc]
        rw [if_neg (fun h => hn h.2)]
    · simp only [if_true]
      refine ⟨hco, hcl', fun i hi hnc => ?_⟩
      rw [hf i hi]
      simp only [f, if_neg hnc]
      rw [if_neg (fun h => by simp at h)]
  · intro i hi hci
    refine ⟨rep i, ?_, hr i hi hci⟩
    rw [hf i hi]
    simp only [f, if_pos hci]

/-! ## Six points on a line -/

/-- An interval, or the empty one. -/
abbrev Interval := WithBot (ℤᵒᵈ × ℤ)

def Interval.hits (p : ℤ) (r : ℤ) : Interval → Bool :=
  WithBot.recBotCoe false (fun b => decide (OrderDual.ofDual b.1 - r ≤ p ∧ p ≤ b.2 + r))

def Interval.close (r : ℤ) (u v : Interval) : Bool :=
  WithBot.recBotCoe false (fun a => WithBot.recBotCoe false
    (fun b => decide (OrderDual.ofDual a.1 - r ≤ b.2 ∧ OrderDual.ofDual b.1 - r ≤ a.2)) v) u

def lineNear (p q : ℤ) : Bool := decide (p - q ≤ 1 ∧ q - p ≤ 1)

/-- Points of a line, `eps = 1` and `core_min_size = 2`. -/
def lineOf (points : List (List ℤ)) : In ℤ Interval where
  P := points.length
  points r := points.getD r []
  near := lineNear
  hit p v := v.hits p 1
  close u v := Interval.close 1 u v
  boxOf p := ((OrderDual.toDual p, p) : ℤᵒᵈ × ℤ)
  minPts := 2

lemma lineOf_geometry (points : List (List ℤ)) : (lineOf points).Geometry where
  symm p q := by
    simp only [lineOf, lineNear, decide_eq_decide]
    omega
  refl p := by simp [lineOf, lineNear]
  hit_mono p u v huv h := by
    simp only [lineOf] at *
    induction u using WithBot.recBotCoe with
    | bot => simp [Interval.hits] at h
    | coe a =>
      induction v using WithBot.recBotCoe with
      | bot => exact absurd huv (by simp)
      | coe b =>
        have huv := WithBot.coe_le_coe.mp huv
        have h1 : OrderDual.ofDual b.1 ≤ OrderDual.ofDual a.1 := huv.1
        have h2 : a.2 ≤ b.2 := huv.2
        simp only [Interval.hits, WithBot.recBotCoe_coe, decide_eq_true_eq] at *
        omega
  close p u v hp h := by
    simp only [lineOf] at *
    induction u using WithBot.recBotCoe with
    | bot => simp [Interval.hits] at h
    | coe a =>
      induction v using WithBot.recBotCoe with
      | bot => exact absurd hp (by simp)
      | coe b =>
        have hp := WithBot.coe_le_coe.mp hp
        have h1 : OrderDual.ofDual b.1 ≤ p := hp.1
        have h2 : p ≤ b.2 := hp.2
        simp only [Interval.hits, Interval.close, WithBot.recBotCoe_coe, decide_eq_true_eq] at *
        omega
  one p q v hpq hq := by
    simp only [lineOf, lineNear] at *
    induction v using WithBot.recBotCoe with
    | bot => exact absurd hq (by simp)
    | coe b =>
      have hq := WithBot.coe_le_coe.mp hq
      have h1 : OrderDual.ofDual b.1 ≤ q := hq.1
      have h2 : q ≤ b.2 := hq.2
      simp only [Interval.hits, WithBot.recBotCoe_coe, decide_eq_true_eq] at *
      omega
  two h := absurd rfl h

lemma lineNear_symm (p q : ℤ) : lineNear p q = lineNear q p := (lineOf_geometry []).symm p q

lemma line_symm (pts : List ℤ) (i j : ℕ) : nearOf lineNear pts i j = nearOf lineNear pts j i := by
  unfold nearOf
  cases pts[i]? <;> cases pts[j]? <;> simp [lineNear_symm]

/-- The local clustering: points that are all near the first one are one cluster; otherwise some clustering. -/
noncomputable def lineDbscan (pts : List ℤ) : List ℤ :=
  if 2 ≤ pts.length ∧ pts.all (lineNear (pts.headD 0)) = true then List.replicate pts.length 0
  else (exists_clustering false pts.length (nearOf lineNear pts) 2 (line_symm pts)).choose

/-- Sorting by insertion. -/
def lineSort (ids : List ℕ) (i : ℕ) : ℕ := ((List.range ids.length).insertionSort (fun a b => ids.getD a 0 ≤ ids.getD b 0)).getD i 0

/-- The points of processes 0, 1, ..., 5. -/
def lineIn : In ℤ Interval := lineOf [[0], [5], [1], [2], [3], [4]]

/-- An execution: every process has one thread. -/
noncomputable def lineEnv : XEnv ℤ 64 where
  scan _ n := (List.range n).reverse
  code _ _ := 0
  perm _ i := i
  tsched _ := (List.replicate 10 [0, 1, 2]).flatten
  query _ := someLEnv
  fwd _ := someEnv
  dbscan _ pts := some (lineDbscan pts)
  threads _ _ := 1
  cut _ n t := t * n
  csched _ n := List.replicate n 0
  back _ := someEnv
  sort _ ids := lineSort ids
  garbage _ _ := 0
  offsetOrder _ n := (List.range n).reverse
  mergeOrder _ n := (List.range n).reverse
  merge := someMEnv

/-- The result: the last point is a cluster of its own. -/
lemma line_run : (lineIn.dbscan lineEnv 12 10).map (fun res => (List.range 6).map res) = some [[0], [1], [0], [0], [0], [1]] := by
  decide +kernel

/-! ## The hypotheses are met -/

lemma lineDbscan_spec (pts : List ℤ) : (lineDbscan pts).length = pts.length ∧
    IsClustering false pts.length (nearOf lineNear pts) 2 (labelAt (lineDbscan pts)) ∧
    Canonical pts.length (nearOf lineNear pts) 2 (labelAt (lineDbscan pts)) := by
  unfold lineDbscan
  by_cases h : 2 ≤ pts.length ∧ pts.all (lineNear (pts.headD 0)) = true
  · rw [if_pos h]
    obtain ⟨h1, h2⟩ := h
    rw [List.all_eq_true] at h2
    have hat : ∀ i < pts.length, labelAt (List.replicate pts.length 0) i = 0 := by
      intro i hi
      simp [labelAt, List.getD_eq_getElem?_getD, hi]
    have hnear : ∀ i < pts.length, nearOf lineNear pts 0 i = true := by
      intro i hi
      have h0 : pts[0]? = some (pts.headD 0) := by
        cases pts with
        | nil => simp at hi
        | cons a l => rfl
      rw [nearOf_some h0 (List.getElem?_eq_getElem hi)]
      exact h2 _ (List.getElem_mem hi)
    have hnear' : ∀ i < pts.length, nearOf lineNear pts i 0 = true := by
      intro i hi
      have := hnear i hi
      unfold nearOf at *
      cases e1 : pts[i]? <;> cases e2 : pts[0]? <;> simp only [e1, e2] at this ⊢
      rw [lineNear_symm]
      exact this
    have hself : ∀ i, nearOf lineNear pts i i = true := by
      intro i
      unfold nearOf
      cases pts[i]? <;> simp [lineNear]
    have hcore : ∀ i < pts.length, Core pts.length (nearOf lineNear pts) 2 i := by
      intro i hi
      unfold Core
      by_cases e : i = 0
      · subst e
        have hsub : [0, 1].Subperm ((List.range pts.length).filter (nearOf lineNear pts 0)) := by
          apply List.subperm_of_subset (by simp)
          intro x hx
          rw [List.mem_filter, List.mem_range]
          rcases List.mem_cons.mp hx with rfl | hx
          · exact ⟨hi, hnear 0 hi⟩
          · rw [List.mem_singleton] at hx
            subst hx
            exact ⟨by omega, hnear 1 (by omega)⟩
        simpa using hsub.length_le
      · have hsub : [i, 0].Subperm ((List.range pts.length).filter (nearOf lineNear pts i)) := by
          apply List.subperm_of_subset (by simp [e])
          intro x hx
          rw [List.mem_filter, List.mem_range]
          rcases List.mem_cons.mp hx with rfl | hx
          · exact ⟨hi, hself x⟩
          · rw [List.mem_singleton] at hx
            subst hx
            exact ⟨by omega, hnear' i hi⟩
        simpa using hsub.length_le
    have hch : ∀ i < pts.length, Chained pts.length (nearOf lineNear pts) 2 i 0 := fun i hi =>
      .single ⟨hi, by omega, hcore i hi, hcore 0 (by omega), hnear' i hi⟩
    have hch' : ∀ i < pts.length, Chained pts.length (nearOf lineNear pts) 2 0 i := fun i hi =>
      .single ⟨by omega, hi, hcore 0 (by omega), hcore i hi, hnear i hi⟩
    refine ⟨by simp, ?_, ?_⟩
    · unfold IsClustering
      simp only [Bool.false_eq_true, if_false]
      refine ⟨fun i hi _ => by rw [hat i hi], fun i hi j hj _ _ => ?_, fun i hi h => absurd (hcore i hi) h, fun i hi h => absurd (hcore i hi) h⟩
      rw [hat i hi, hat j hj]
      exact iff_of_true rfl ((hch i hi).trans (hch' j hj))
    · intro i hi _
      refine ⟨0, by rw [hat i hi]; rfl, by omega, hcore 0 (by omega), hch i hi, fun j _ _ _ => Nat.zero_le j⟩
  · rw [if_neg h]
    exact (exists_clustering false pts.length (nearOf lineNear pts) 2 (line_symm pts)).choose_spec

lemma lineEnv_local (points : List (List ℤ)) : lineEnv.Local (lineOf points) false := fun _ _ pts _ => ⟨lineDbscan pts, rfl, lineDbscan_spec pts⟩

lemma line_prims : ∀ r < 6, lineIn.prims lineEnv r = some ([[2], [5], [0, 3], [2, 4], [3, 5], [1, 4]].getD r []) := by
  decide +kernel

lemma someLEnv_valid : someLEnv.Valid where
  permute n := by
    have : (List.range n).map (someLEnv.permute n) = (List.range n).reverse := by
      apply List.ext_getElem
      · simp
      · intro i h1 h2
        simp [someLEnv]
    rw [this]
    exact List.reverse_perm _
  sched1 := sequential_fair
  sched2 := sequential_fair

lemma line_finished : ∀ r < 6, (lineIn.tree lineEnv ([[2], [5], [0, 3], [2, 4], [3, 5], [1, 4]].getD r []) r).Finished (lineEnv.tsched r) := by
  intro r hr h2 t ht
  have hall : ∀ r < 6, 2 ≤ ([[2], [5], [0, 3], [2, 4], [3, 5], [1, 4]].getD r [] : List ℕ).length → ∀ t ≤ 1, TSdone ((Construction.run (lineIn.tree lineEnv ([[2], [5], [0, 3], [2, 4], [3, 5], [1, 4]].getD r []) r).params
      (lineEnv.tsched r)).thr t) = true := by
    decide +kernel
  have ht' : t ≤ 1 := by
    have h1 : ∀ r < 6, ([[2], [5], [0, 3], [2, 4], [3, 5], [1, 4]].getD r [] : List ℕ).length ≤ 2 := by decide
    have h3 : t ≤ ([[2], [5], [0, 3], [2, 4], [3, 5], [1, 4]].getD r [] : List ℕ).length - 1 := ht
    have h4 := h1 r hr
    omega
  have := hall r hr h2 t ht'
  revert this
  cases (Construction.run (lineIn.tree lineEnv ([[2], [5], [0, 3], [2, 4], [3, 5], [1, 4]].getD r []) r).params (lineEnv.tsched r)).thr t <;> simp [TSdone]

lemma lineEnv_valid_of (points : List (List ℤ)) (ht : ∀ r < points.length, ∀ prims, (lineOf points).prims lineEnv r = some prims →
    ((lineOf points).tree lineEnv prims r).Valid ∧ ((lineOf points).tree lineEnv prims r).Finished (lineEnv.tsched r)) : lineEnv.Valid (lineOf points) where
  scan _ _ := List.reverse_perm _
  tree := ht
  query _ _ := someLEnv_valid
  fwd _ := someEnv_valid
  threads _ n := by
    refine ⟨by simp [lineEnv], by simp [lineEnv], fun a b h => Nat.mul_le_mul_right n h,
      fun t ht => by have := (List.mem_replicate.mp ht).2; simp [lineEnv]; omega, ?_⟩
    intro t ht
    obtain rfl : t = 0 := by simp [lineEnv] at ht; omega
    simp [lineEnv]
  back _ := someEnv_valid
  sort _ ids := isSort_insertion ids.length (fun i => ids.getD i 0)
  offsetOrder _ _ := List.reverse_perm _
  mergeOrder _ _ := List.reverse_perm _
  merge := someMEnv_valid

lemma lineEnv_valid : lineEnv.Valid lineIn := by
  refine lineEnv_valid_of _ (fun r hr prims hp => ?_)
  have hr : r < 6 := hr
  have hp : lineIn.prims lineEnv r = some prims := hp
  rw [line_prims r hr] at hp
  obtain rfl := Option.some.inj hp
  refine ⟨equalCodes_valid _ rfl rfl ?_, line_finished r hr⟩
  have : ∀ r < 6, ([[2], [5], [0, 3], [2, 4], [3, 5], [1, 4]].getD r [] : List ℕ).length ≤ 2 := by decide
  exact (this r hr).trans (by norm_num)

lemma lineEnv_inOrder : ∀ r n, InOrder (lineEnv.csched r n) := by
  intro r n
  unfold InOrder
  show (List.replicate n 0).Pairwise (· ≤ ·)
  rw [List.pairwise_replicate]
  simp

/-- **C48 is false.** Six processes with one point each: `0, 5, 1, 2, 3, 4` on a line, with `eps = 1` and `core_min_size = 2`. All points
are one cluster. There is an execution, without a race and with correct local clusterings, that ends with two clusters: the points 4 and 5 get
the label 1, the others 0. -/
theorem distributed_dbscan_defect : ∃ (D : In ℤ Interval) (E : XEnv ℤ 64), D.Geometry ∧ D.minPts = 2 ∧ E.Valid D ∧ E.Local D false ∧
    (∀ r n, InOrder (E.csched r n)) ∧ D.all = [0, 5, 1, 2, 3, 4] ∧ (∀ p q : ℤ, D.near p q = decide (p - q ≤ 1 ∧ q - p ≤ 1)) ∧
    ∃ res, D.dbscan E 12 10 = some res ∧ (List.range D.P).flatMap res = [0, 1, 0, 0, 0, 1] ∧
      ¬ IsClustering false D.all.length (nearOf D.near D.all) D.minPts (labelAt ((List.range D.P).flatMap res)) := by
  have hrun := line_run
  cases hres : lineIn.dbscan lineEnv 12 10 with
  | none => rw [hres] at hrun; simp at hrun
  | some res =>
    rw [hres, Option.map_some, Option.some.injEq] at hrun
    have hcat : (List.range lineIn.P).flatMap res = [0, 1, 0, 0, 0, 1] := by
      rw [List.flatMap_def]
      show ((List.range 6).map res).flatten = _
      rw [hrun]
      rfl
    refine ⟨lineIn, lineEnv, lineOf_geometry _, rfl, lineEnv_valid, lineEnv_local _, lineEnv_inOrder, by decide, fun _ _ => rfl, res, hres, hcat, ?_⟩
    rw [hcat]
    have hall : lineIn.all = [0, 5, 1, 2, 3, 4] := by decide
    rw [hall]
    intro h
    unfold IsClustering at h
    simp only [Bool.false_eq_true, if_false] at h
    have hl : ∀ i j, i < 6 → j < 6 → (nearOf lineNear [0, 5, 1, 2, 3, 4] i j) = true →
        Chained 6 (nearOf lineNear [0, 5, 1, 2, 3, 4]) 2 i j := by
      intro i j hi hj hn
      have hc : ∀ i < 6, Core 6 (nearOf lineNear [0, 5, 1, 2, 3, 4]) 2 i := by decide
      exact .single ⟨hi, hj, hc i hi, hc j hj, hn⟩
    have hch : Chained 6 (nearOf lineNear [0, 5, 1, 2, 3, 4]) 2 0 1 :=
      (hl 0 2 (by decide) (by decide) (by decide)).trans ((hl 2 3 (by decide) (by decide) (by decide)).trans
        ((hl 3 4 (by decide) (by decide) (by decide)).trans ((hl 4 5 (by decide) (by decide) (by decide)).trans
          (hl 5 1 (by decide) (by decide) (by decide)))))
    have := (h.clusters 0 (by decide) 1 (by decide) (by decide) (by decide)).mpr hch
    revert this
    decide

/-! ## A case that meets the hypotheses of `distributed_dbscan_partial`

Two processes with two points each; the cluster has the labels 0 and 2 before the merge. -/

def pairIn : In ℤ Interval := lineOf [[1, 0], [2, 3]]

lemma pairEnv_valid : lineEnv.Valid pairIn := by
  refine lineEnv_valid_of _ (fun r hr prims hp => ?_)
  have hr : r < 2 := hr
  have hprims : ∀ r < 2, pairIn.prims lineEnv r = some ([[1], [0]].getD r []) := by decide +kernel
  have hp : pairIn.prims lineEnv r = some prims := hp
  rw [hprims r hr] at hp
  obtain rfl := Option.some.inj hp
  have : ∀ r < 2, ([[1], [0]].getD r [] : List ℕ).length = 1 := by decide
  refine ⟨equalCodes_valid _ rfl rfl ?_, fun h => ?_⟩
  · exact (this r hr).le.trans (by norm_num)
  · have h : 2 ≤ ([[1], [0]].getD r [] : List ℕ).length := h
    rw [this r hr] at h
    omega

lemma pair_few : pairIn.FewLabels lineEnv 4 := by
  have hg : (pairIn.ghosts lineEnv 4).map (fun g => (List.range 2).map (fun r => (g.1 r, g.2.1 r, g.2.2 r))) =
      some [([2], [0], [1]), ([1], [0], [0])] := by decide +kernel
  have h0 : pairIn.labels lineEnv 0 [2] [0] [1] = some [0, 0, 0] := by decide +kernel
  have h1 : pairIn.labels lineEnv 1 [1] [0] [0] = some [2, 2, 2] := by decide +kernel
  intro g _ _
  refine ⟨0, 2, 0, fun h _ _ c hc => ?_⟩
  obtain ⟨gp, gi, gr, e, r, hr, l, hl, i, -, hi, -⟩ := hc
  have hr : r < 2 := hr
  rw [e, Option.map_some, Option.some.injEq] at hg
  simp only [show List.range 2 = [0, 1] from rfl, List.map_cons, List.map_nil, List.cons.injEq, Prod.mk.injEq, and_true] at hg
  obtain ⟨⟨a1, a2, a3⟩, b1, b2, b3⟩ := hg
  have hmem := List.mem_of_getElem? hi
  have : r = 0 ∨ r = 1 := by omega
  rcases this with rfl | rfl
  · rw [a1, a2, a3, h0] at hl
    obtain rfl := Option.some.inj hl
    simp at hmem
    exact Or.inl hmem
  · rw [b1, b2, b3, h1] at hl
    obtain rfl := Option.some.inj hl
    simp at hmem
    exact Or.inr (Or.inl hmem)

example : pairIn.Geometry ∧ 2 ≤ pairIn.minPts ∧ lineEnv.Valid pairIn ∧ lineEnv.Local pairIn false ∧ (∀ r n, InOrder (lineEnv.csched r n)) ∧
    2 * pairIn.P ≤ 4 ∧ pairIn.FewLabels lineEnv 4 ∧
    (pairIn.dbscan lineEnv 4 10).map (fun res => (List.range 2).map res) = some [[0, 0], [0, 0]] :=
  ⟨lineOf_geometry _, le_rfl, pairEnv_valid, lineEnv_local _, lineEnv_inOrder, le_rfl, pair_few, by decide +kernel⟩

/-! ## Executions exist -/

/-- Whatever the points and the local clustering, there is an execution. -/
lemma exists_env {X V : Type} [SemilatticeSup V] [OrderBot V] (D : In X V) (hP : D.P ≤ 2 ^ 63) (f : ℕ → List X → Option (List ℤ)) :
    ∃ E : XEnv X 64, E.Valid D ∧ E.dbscan = f ∧ ∀ r n, InOrder (E.csched r n) := by
  set E0 : XEnv X 64 :=
    { scan := fun _ n => (List.range n).reverse, code := fun _ _ => 0, perm := fun _ i => i, tsched := fun _ => [], query := fun _ => someLEnv,
      fwd := fun _ => someEnv, dbscan := f, threads := fun _ _ => 1, cut := fun _ n t => t * n, csched := fun _ n => List.replicate n 0,
      back := fun _ => someEnv, sort := fun _ ids => lineSort ids, garbage := fun _ _ => 0, offsetOrder := fun _ n => (List.range n).reverse,
      mergeOrder := fun _ n => (List.range n).reverse, merge := someMEnv } with hE0
  have hprims := prims_spec D E0 (fun _ _ => List.reverse_perm _)
  have htree : ∀ r, ∃ sched, ∀ prims, D.prims E0 r = some prims → (D.tree E0 prims r).Valid ∧ (D.tree E0 prims r).Finished sched := by
    intro r
    rw [hprims r]
    have hv : (D.tree E0 ((List.range D.P).filter (fun i => decide (i ≠ r ∧ D.close (D.box i) (D.box r) = true))) r).Valid := by
      refine equalCodes_valid _ rfl rfl ?_
      refine le_trans (List.length_filter_le _ _) ?_
      rw [List.length_range]
      exact hP
    obtain ⟨sched, hs⟩ := exists_finished _ hv
    refine ⟨sched, fun prims hp => ?_⟩
    obtain rfl := Option.some.inj hp
    exact ⟨hv, hs⟩
  choose sched hsched using htree
  refine ⟨{ E0 with tsched := sched }, ?_, rfl, lineEnv_inOrder⟩
  exact
    { scan := fun _ _ => List.reverse_perm _
      tree := fun r _ prims hp => hsched r prims hp
      query := fun _ _ => someLEnv_valid
      fwd := fun _ => someEnv_valid
      threads := (lineEnv_valid_of [] (fun r hr => absurd hr (Nat.not_lt_zero r))).threads
      back := fun _ => someEnv_valid
      sort := fun _ ids => isSort_insertion ids.length (fun i => ids.getD i 0)
      offsetOrder := fun _ _ => List.reverse_perm _
      mergeOrder := fun _ _ => List.reverse_perm _
      merge := someMEnv_valid }

end ArborX.DistDbscan
