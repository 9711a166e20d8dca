import Verif.Verify.Unique
import Verif.Dbscan.Theorems

/-!
# Property theorems: the verification of clusterings (C108)
-/

namespace ArborX.Verify

open Dbscan

variable {n minPts : ℕ} {near : ℕ → ℕ → Bool} {rows : ℕ → List ℕ} {lab : ℕ → ℤ}

/-- What the query returns: the row of each point lists the points within the radius, in any order. -/
def Found (n : ℕ) (near : ℕ → ℕ → Bool) (rows : ℕ → List ℕ) : Prop := ∀ i < n, (rows i).Perm ((List.range n).filter (near i))

lemma Found.mem (hq : Found n near rows) {i j : ℕ} (hi : i < n) : j ∈ rows i ↔ j < n ∧ near i j = true := by
  rw [(hq i hi).mem_iff, List.mem_filter, List.mem_range]

/-- The outcome in terms of the points. -/
lemma verify_spec (star : Bool) (hmin : 2 ≤ minPts) (hsymm : ∀ i j, near i j = near j i) (hrefl : ∀ i < n, near i i = true) (hq : Found n near rows) (fuel : ℕ) (hfuel : n * n + 1 < fuel) :
    ∃ b, verify n minPts star rows lab fuel = some b ∧ (b = true ↔
      (∀ i < n, Core n near minPts i → 0 ≤ lab i) ∧
      (∀ i < n, ∀ j < n, Core n near minPts i → Core n near minPts j → near i j = true → lab i = lab j) ∧
      (∀ i < n, ¬Core n near minPts i → (¬∃ j < n, near i j = true ∧ Core n near minPts j) → lab i = -1) ∧
      (∀ i < n, ¬Core n near minPts i → (∃ j < n, near i j = true ∧ Core n near minPts j) → if star then lab i = -1 else ∃ j < n, near i j = true ∧ Core n near minPts j ∧ lab i = lab j) ∧
      ∀ i < n, ∀ j < n, Core n near minPts i → Core n near minPts j → lab i = lab j → Chained n near minPts i j) := by
  obtain ⟨R, hR, H⟩ := allRows_spec (List.range n) minPts (fun j => (rows j).length) lab rows
    (fun i hi => (hq i (List.mem_range.1 hi)).nodup_iff.2 (List.nodup_range.filter _)) (fun i hi => (hq.mem (List.mem_range.1 hi)).2 ⟨List.mem_range.1 hi, hrefl i (List.mem_range.1 hi)⟩)
  have hcore : ∀ i < n, (decide (minPts ≤ (rows i).length) = true ↔ Core n near minPts i) := by
    intro i hi
    rw [decide_eq_true_eq, (hq i hi).length_eq]
    rfl
  have hcore' : ∀ i < n, (decide (minPts ≤ (rows i).length) = false ↔ ¬Core n near minPts i) := by
    intro i hi
    rw [← hcore i hi, Bool.not_eq_true]
  have hex : ∀ i < n, (∃ j ∈ rows i, decide (minPts ≤ (rows j).length) = true) ↔ ∃ j < n, near i j = true ∧ Core n near minPts j := by
    intro i hi
    constructor
    · rintro ⟨j, hj, h⟩
      obtain ⟨h1, h2⟩ := (hq.mem hi).1 hj
      exact ⟨j, h1, h2, (hcore j h1).1 h⟩
    · rintro ⟨j, h1, h2, h3⟩
      exact ⟨j, (hq.mem hi).2 ⟨h1, h2⟩, (hcore j h1).2 h3⟩
  have k1 : coreNonnegative (List.range n) R = true ↔ ∀ i < n, Core n near minPts i → 0 ≤ lab i := by
    rw [coreNonnegative_iff H]
    exact ⟨fun h i hi hc => h i (List.mem_range.2 hi) ((hcore i hi).2 hc), fun h i hi hc => h i (List.mem_range.1 hi) ((hcore i (List.mem_range.1 hi)).1 hc)⟩
  have k2 : coresShare (List.range n) R = true ↔ ∀ i < n, ∀ j < n, Core n near minPts i → Core n near minPts j → near i j = true → lab i = lab j := by
    rw [coresShare_iff H]
    constructor
    · intro h i hi j hj h1 h2 h3
      exact h i (List.mem_range.2 hi) ((hcore i hi).2 h1) j ((hq.mem hi).2 ⟨hj, h3⟩) ((hcore j hj).2 h2)
    · intro h i hi h1 j hj h2
      rw [List.mem_range] at hi
      obtain ⟨h3, h4⟩ := (hq.mem hi).1 hj
      exact h i hi j h3 ((hcore i hi).1 h1) ((hcore j h3).1 h2) h4
  have k3 : noisePoints (List.range n) R = true ↔ ∀ i < n, ¬Core n near minPts i → (¬∃ j < n, near i j = true ∧ Core n near minPts j) → lab i = -1 := by
    rw [noisePoints_iff H]
    refine ⟨fun h i hi h1 h2 => h i (List.mem_range.2 hi) ((hcore' i hi).2 h1) fun h3 => h2 ((hex i hi).1 h3), fun h i hi h1 h2 => ?_⟩
    rw [List.mem_range] at hi
    exact h i hi ((hcore' i hi).1 h1) fun h3 => h2 ((hex i hi).2 h3)
  have k4 : (if star then ignoredBorderPoints (List.range n) R else borderPoints (List.range n) R) = true ↔
      ∀ i < n, ¬Core n near minPts i → (∃ j < n, near i j = true ∧ Core n near minPts j) → if star then lab i = -1 else ∃ j < n, near i j = true ∧ Core n near minPts j ∧ lab i = lab j := by
    cases star
    · simp only [Bool.false_eq_true, if_false]
      rw [borderPoints_iff H]
      constructor
      · intro h i hi h1 h2
        obtain ⟨j, hj, h3, h4⟩ := h i (List.mem_range.2 hi) ((hcore' i hi).2 h1) ((hex i hi).2 h2)
        obtain ⟨h5, h6⟩ := (hq.mem hi).1 hj
        exact ⟨j, h5, h6, (hcore j h5).1 h3, h4⟩
      · intro h i hi h1 h2
        rw [List.mem_range] at hi
        obtain ⟨j, h3, h4, h5, h6⟩ := h i hi ((hcore' i hi).1 h1) ((hex i hi).1 h2)
        exact ⟨j, (hq.mem hi).2 ⟨h3, h4⟩, (hcore j h3).2 h5, h6⟩
    · simp only [if_true]
      rw [ignoredBorderPoints_iff H]
      refine ⟨fun h i hi h1 h2 => h i (List.mem_range.2 hi) ((hcore' i hi).2 h1) ((hex i hi).2 h2), fun h i hi h1 h2 => ?_⟩
      rw [List.mem_range] at hi
      exact h i hi ((hcore' i hi).1 h1) ((hex i hi).1 h2)
  rw [verify, if_neg (by omega), hR, Option.bind_some]
  by_cases hall : (coreNonnegative (List.range n) R && coresShare (List.range n) R && noisePoints (List.range n) R
      && (if star then ignoredBorderPoints (List.range n) R else borderPoints (List.range n) R)) = true
  · rw [if_pos hall]
    rw [Bool.and_eq_true, Bool.and_eq_true, Bool.and_eq_true, k1, k2, k3, k4] at hall
    obtain ⟨⟨⟨a1, a2⟩, a3⟩, a4⟩ := hall
    have hc : ∀ i < n, decide (minPts ≤ (rows i).length) = decide (Core n near minPts i) := fun i hi => by
      rw [Bool.eq_iff_iff, hcore i hi, decide_eq_true_eq]
    have HR : Ready n minPts near lab R := by
      refine ⟨hsymm, hrefl, fun i hi => ?_, fun i hi e => ?_, fun i hi => ?_, a1, a2, a3⟩
      · rw [(H i (List.mem_range.2 hi)).1]
        simp only [hc i hi]
      · rw [(H i (List.mem_range.2 hi)).2.1]
        constructor
        · rintro ⟨j, hj, hji, rfl⟩
          obtain ⟨h1, h2⟩ := (hq.mem hi).1 hj
          exact ⟨j, h1, h2, hji, by simp only [hc j h1]⟩
        · rintro ⟨j, h1, h2, hji, rfl⟩
          exact ⟨j, (hq.mem hi).2 ⟨h1, h2⟩, hji, by simp only [hc j h1]⟩
      · rw [(H i (List.mem_range.2 hi)).2.2, (hq i hi).length_eq]
        exact (List.length_filter_le _ _).trans (by simp)
    obtain ⟨b, hb, hiff⟩ := clustersUnique_spec HR fuel hfuel
    exact ⟨b, hb, hiff.trans ⟨fun h => ⟨a1, a2, a3, a4, h⟩, fun h => h.2.2.2.2⟩⟩
  · rw [if_neg hall]
    refine ⟨false, rfl, ⟨fun h => absurd h (by simp), fun h => absurd ?_ hall⟩⟩
    rw [Bool.and_eq_true, Bool.and_eq_true, Bool.and_eq_true, k1, k2, k3, k4]
    exact ⟨⟨⟨h.1, h.2.1⟩, h.2.2.1⟩, h.2.2.2.1⟩

/-- **C108** for DBSCAN.  Whatever the order in which the queries return the points: the verification terminates without a fault and accepts the labels exactly if they are a clustering in the sense of DBSCAN. -/
theorem verify_iff (hmin : 2 ≤ minPts) (hsymm : ∀ i j, near i j = near j i) (hrefl : ∀ i < n, near i i = true) (hq : Found n near rows) (fuel : ℕ) (hfuel : n * n + 1 < fuel) :
    ∃ b, verify n minPts false rows lab fuel = some b ∧ (b = true ↔ IsDBSCAN n near minPts lab) := by
  obtain ⟨b, hb, hiff⟩ := verify_spec (lab := lab) false hmin hsymm hrefl hq fuel hfuel
  refine ⟨b, hb, hiff.trans ⟨fun ⟨h1, h2, h3, h4, h5⟩ => ⟨h1, fun i hi j hj hci hcj => ⟨h5 i hi j hj hci hcj, fun h => ?_⟩, ?_, ?_⟩, fun h => ⟨h.core, ?_, ?_, ?_, ?_⟩⟩⟩
  · clear h4 h5
    induction h with
    | refl => rfl
    | tail h' h ih => rw [ih h.1 h.2.2.1]; exact h2 _ h.1 _ h.2.1 h.2.2.1 h.2.2.2.1 h.2.2.2.2
  · rintro i hi hc ⟨j, hj, hcj, hij⟩
    obtain ⟨k, hk, a, b, c⟩ := by simpa using h4 i hi hc ⟨j, hj, hij, hcj⟩
    exact ⟨k, hk, b, a, c⟩
  · intro i hi hc hn
    exact h3 i hi hc fun ⟨j, hj, hij, hcj⟩ => hn ⟨j, hj, hcj, hij⟩
  · intro i hi j hj hci hcj hij
    exact (h.clusters i hi j hj hci hcj).2 (.single ⟨hi, hj, hci, hcj, hij⟩)
  · intro i hi hc hn
    exact h.noise i hi hc fun ⟨j, hj, hcj, hij⟩ => hn ⟨j, hj, hij, hcj⟩
  · rintro i hi hc ⟨j, hj, hij, hcj⟩
    obtain ⟨k, hk, a, b, c⟩ := h.border i hi hc ⟨j, hj, hcj, hij⟩
    simp only [Bool.false_eq_true, if_false]
    exact ⟨k, hk, b, a, c⟩
  · exact fun i hi j hj hci hcj => (h.clusters i hi j hj hci hcj).1

/-- **C108** for DBSCAN*. -/
theorem verify_star_iff (hmin : 2 ≤ minPts) (hsymm : ∀ i j, near i j = near j i) (hrefl : ∀ i < n, near i i = true) (hq : Found n near rows) (fuel : ℕ) (hfuel : n * n + 1 < fuel) :
    ∃ b, verify n minPts true rows lab fuel = some b ∧ (b = true ↔ IsDBSCANStar n near minPts lab) := by
  obtain ⟨b, hb, hiff⟩ := verify_spec (lab := lab) true hmin hsymm hrefl hq fuel hfuel
  refine ⟨b, hb, hiff.trans ⟨fun ⟨h1, h2, h3, h4, h5⟩ => ⟨h1, fun i hi j hj hci hcj => ⟨h5 i hi j hj hci hcj, fun h => ?_⟩, ?_⟩, fun h => ⟨h.core, ?_, ?_, ?_, ?_⟩⟩⟩
  · clear h4 h5
    induction h with
    | refl => rfl
    | tail h' h ih => rw [ih h.1 h.2.2.1]; exact h2 _ h.1 _ h.2.1 h.2.2.1 h.2.2.2.1 h.2.2.2.2
  · intro i hi hc
    by_cases hn : ∃ j < n, near i j = true ∧ Core n near minPts j
    · simpa using h4 i hi hc hn
    · exact h3 i hi hc hn
  · intro i hi j hj hci hcj hij
    exact (h.clusters i hi j hj hci hcj).2 (.single ⟨hi, hj, hci, hcj, hij⟩)
  · exact fun i hi hc _ => h.noise i hi hc
  · intro i hi hc _
    simpa using h.noise i hi hc
  · exact fun i hi j hj hci hcj => (h.clusters i hi j hj hci hcj).1

/-- A point that its own query does not find, such as one with a NaN coordinate, makes the verification access the view before its beginning. -/
theorem verify_fault (star : Bool) (i : ℕ) (hi : i < n) (hrow : i ∉ rows i) (fuel : ℕ) : verify n minPts star rows lab fuel = none := by
  rw [verify]
  split
  · rfl
  · rw [allRows_none _ _ i (List.mem_range.2 hi)]
    · rfl
    · refine selfFirst_none i _ fun e he => ?_
      obtain ⟨j, hj, rfl⟩ := List.mem_map.1 he
      rintro rfl
      exact hrow hj

/-- The second of two points is a NaN, near no point: its row is empty. -/
example : Found 2 (fun i j => decide (i = 0 ∧ j = 0)) (fun i => if i = 0 then [0] else []) ∧ verify 2 2 false (fun i => if i = 0 then [0] else []) (fun _ => -1) 6 = none :=
  ⟨by unfold Found; decide +kernel, verify_fault false 1 (by decide) (by decide) 6⟩

section

variable {V : Type} {w : ℕ} [SemilatticeSup V] [OrderBot V] (D : In V w) (hD : D.Valid) (schedB : List ℕ) (hB : D.tree.Finished schedB) (fuel : ℕ) (hfuel : 2 * D.n ≤ fuel)

include hD hB hfuel

omit hB hfuel hD in
/-- The rows that the query of the verification fills (lines 387-394), on a hierarchy built under the schedule `sched`. -/
def treeRows (sched : List ℕ) (fuel i : ℕ) : List ℕ :=
  match Traversal.spatialQuery (D.tree.build sched) (D.near i) (D.pv i) (fun _ => false) fuel with
  | .done calls => calls
  | _ => []

/-- The hierarchy finds the rows that `verify` needs. -/
theorem found_tree : Found D.n D.near (treeRows D schedB fuel) := by
  intro i _
  obtain ⟨order, hp, H⟩ := Traversal.spatial_query D.tree hD.tree (D.near i) (D.pv i) (hD.mono i)
  obtain ⟨calls, h1, _, _, h2⟩ := H schedB hB (fun _ => false) fuel hfuel
  have hst : D.tree.stored = List.range D.n := by simp [BVH.Input.stored, In.tree]
  rcases h2 with h2 | h2
  · rw [treeRows, h1]
    dsimp only
    rw [h2, ← hst]
    exact hp
  · exact absurd h2 (by simp)

/-- **C108**, applied to the clustering itself: if each point is near itself, the verification accepts the labels that the clustering returns, under any schedules of its threads. -/
theorem verify_fdbscan (hrefl : ∀ i < D.n, D.near i i = true) (hq : Found D.n D.near rows) (schedU schedF : List ℕ) (fuel' : ℕ) (hfuel' : D.n * D.n + 1 < fuel') :
    D.fdbscan fuel schedB schedU schedF = .running ∨
    ∃ l, D.fdbscan fuel schedB schedU schedF = .labels l ∧ verify D.n D.minPts D.star rows (labelOf l) fuel' = some true := by
  cases hs : D.star
  · rcases fdbscan_correct D hD schedB hB fuel hfuel hs schedU schedF with h | ⟨l, h1, _, h2, _⟩
    · exact .inl h
    obtain ⟨b, h3, h4⟩ := verify_iff (lab := labelOf l) hD.minPts hD.symm hrefl hq fuel' hfuel'
    exact .inr ⟨l, h1, by rw [h3, h4.2 h2]⟩
  · rcases fdbscan_star_correct D hD schedB hB fuel hfuel hs schedU schedF with h | ⟨l, h1, _, h2, _⟩
    · exact .inl h
    obtain ⟨b, h3, h4⟩ := verify_star_iff (lab := labelOf l) hD.minPts hD.symm hrefl hq fuel' hfuel'
    exact .inr ⟨l, h1, by rw [h3, h4.2 h2]⟩

end

/-- The points of `Dbscan.exampleIn`, in two groups with a core point and two border points each and one noise point: the hypotheses are met. The right labels are accepted, with any numbers for the
clusters; those that give both clusters the same label, a border point or a noise point a wrong one, or a core point -1 are not; nor are the labels of DBSCAN accepted for DBSCAN*. -/
example : Found 7 (exampleIn false).near (fun i => (List.range 7).filter ((exampleIn false).near i)) ∧ (∀ i < 7, (exampleIn false).near i i = true) ∧
    [[1, 1, 1, 4, 4, 4, -1], [5, 5, 5, 0, 0, 0, -1], [1, 1, 1, 1, 1, 1, -1], [1, 1, 4, 4, 4, 4, -1], [1, 1, -1, 4, 4, 4, -1], [1, 1, 1, 4, 4, 4, 6], [1, 1, 1, -1, -1, -1, -1]].map
      (fun l => verify 7 3 false (fun i => (List.range 7).filter ((exampleIn false).near i)) (labelOf l) 51)
      = [some true, some true, some false, some false, some false, some false, some false] ∧
    [[-1, 1, -1, -1, 4, -1, -1], [1, 1, 1, 4, 4, 4, -1]].map (fun l => verify 7 3 true (fun i => (List.range 7).filter ((exampleIn true).near i)) (labelOf l) 51) = [some true, some false] :=
  ⟨fun _ _ => List.Perm.refl _, by decide +kernel, by decide +kernel, by decide +kernel⟩

end ArborX.Verify
