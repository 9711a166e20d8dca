import Verif.Boruvka.Edges

/-!
# Components without an edge of finite weight (lemmas)

The edge of such a component keeps the default key, all ones, and `computeNextComponent` then uses its target, 2147483647, as
an index into the labels.
-/

namespace ArborX.Boruvka

open Function (update)
open Mst (DirectedEdge WeightedEdge)

variable {V W : Type} [LinearOrder W] [BoundedOrder W]
variable {P : Points V W} {value : ℕ → ℕ} {lab : ℕ → ℤ} {n : ℕ}

/-- No edge of finite weight leaves the component `c`. -/
def Isolated (P : Points V W) (value : ℕ → ℕ) (n : ℕ) (lab : ℕ → ℤ) (c : ℕ) : Prop :=
  ∀ a < n, ∀ b < n, comp lab a = c → comp lab b ≠ c → P.weight (value a) (value b) = ⊤

/-- The minima of the weights leave the entries of such a component as they are. -/
lemma tail_isolated {best : ℕ → Option (DirectedEdge W)} {c : ℕ}
    (hbest : ∀ a < n, comp lab a = c → ∀ e, best a = some e → e.weight = ⊤) (sched : List (ℕ × ℕ)) :
    ∀ a < n, comp lab a = c → (tail n lab best sched).out a = DirectedEdge.default ⊤ := by
  have main : ∀ (sched : List (ℕ × ℕ)) (s : Tail W),
      (∀ a < n, comp lab a = c → s.out a = DirectedEdge.default ⊤ ∧ s.thr a ≠ .swap) →
      ∀ a < n, comp lab a = c → (sched.foldl (tailStep n lab best) s).out a = DirectedEdge.default ⊤ := by
    intro sched
    induction sched with
    | nil => intro s hs a ha hc; exact (hs a ha hc).1
    | cons x sched ih =>
      obtain ⟨u, k⟩ := x
      intro s hs
      rw [List.foldl_cons]
      refine ih _ ?_
      intro a ha hc
      obtain ⟨h2, h3⟩ := hs a ha hc
      unfold tailStep
      dsimp only
      by_cases hu : n ≤ u
      · rw [if_pos hu]; exact ⟨h2, h3⟩
      rw [if_neg hu]
      have hdone : update s.thr u TT.done a ≠ .swap := by
        by_cases e : a = u
        · subst e; rw [Function.update_self]; simp
        · rw [Function.update_of_ne e]; exact h3
      cases ht : s.thr u with
      | check =>
        cases hb : best u with
        | none => exact ⟨h2, hdone⟩
        | some e =>
          dsimp only
          by_cases hcnd : e.weight < ⊤ ∧ e.weight ≤ seen (s.weights (comp lab u)) (s.past (comp lab u)) k
          · rw [if_pos hcnd]
            have hau : a ≠ u := by
              rintro rfl
              rw [hbest a ha hc e hb] at hcnd
              exact lt_irrefl _ hcnd.1
            refine ⟨h2, ?_⟩
            dsimp only
            rw [Function.update_of_ne hau]; exact h3
          · rw [if_neg hcnd]
            exact ⟨h2, hdone⟩
      | swap =>
        have hau : a ≠ u := by rintro rfl; exact h3 ht
        cases hb : best u with
        | none => exact ⟨h2, h3⟩
        | some e =>
          refine ⟨?_, hdone⟩
          dsimp only
          split_ifs
          · rw [Function.update_of_ne hau]; exact h2
          · exact h2
      | done => exact ⟨h2, h3⟩
  exact main sched _ (fun a _ _ => ⟨rfl, by simp⟩)

omit [BoundedOrder W] in
/-- So do the minima of the keys. -/
lemma retrieve_isolated (hl : Labelling n lab) {weights : ℕ → W} {out : ℕ → DirectedEdge W} {c : ℕ}
    (hout : ∀ a < n, comp lab a = c → (out a).key = BitVec.allOnes 64) (sched : List (ℕ × ℕ)) :
    ∀ a < n, comp lab a = c → ((retrieve n lab weights out sched).out a).key = BitVec.allOnes 64 := by
  have main : ∀ (sched : List (ℕ × ℕ)) (s : Retr W),
      (∀ a < n, comp lab a = c → (s.out a).key = BitVec.allOnes 64 ∧ (∀ k ∈ s.past a, k = BitVec.allOnes 64) ∧
        ∀ k, s.thr a = .amin k → k = BitVec.allOnes 64) →
      ∀ a < n, comp lab a = c → ((sched.foldl (retrStep n lab weights) s).out a).key = BitVec.allOnes 64 := by
    intro sched
    induction sched with
    | nil => intro s hs a ha hc; exact (hs a ha hc).1
    | cons x sched ih =>
      obtain ⟨u, k⟩ := x
      intro s hs
      rw [List.foldl_cons]
      refine ih _ ?_
      intro a ha hc
      obtain ⟨h1, h2, h3⟩ := hs a ha hc
      unfold retrStep
      dsimp only
      by_cases hu : n ≤ u
      · rw [if_pos hu]; exact ⟨h1, h2, h3⟩
      rw [if_neg hu]
      have hdone : ∀ k', update s.thr u TR.done a = .amin k' → k' = BitVec.allOnes 64 := by
        intro k' hk'
        by_cases hau : a = u
        · subst hau; rw [Function.update_self] at hk'; cases hk'
        · rw [Function.update_of_ne hau] at hk'; exact h3 k' hk'
      cases ht : s.thr u with
      | read =>
        dsimp only
        split_ifs with hw
        · refine ⟨h1, h2, ?_⟩
          intro k' hk'
          dsimp only at hk'
          by_cases hau : a = u
          · subst hau
            rw [Function.update_self, TR.amin.injEq] at hk'
            rw [← hk']
            rcases seen_mem (s.out a).key (s.past a) k with e | e
            · rw [e]; exact h1
            · exact h2 _ e
          · rw [Function.update_of_ne hau] at hk'; exact h3 k' hk'
        · exact ⟨h1, h2, hdone⟩
      | amin k' =>
        dsimp only
        by_cases hau : a = comp lab u
        · have huc : comp lab u = c := by rw [← hl.comp_idem (by omega : u < n), ← hau]; exact hc
          have hk' := (hs u (by omega) huc).2.2 k' ht
          subst hau
          rw [Function.update_self, Function.update_self]
          refine ⟨?_, ?_, hdone⟩
          · dsimp only
            rw [hk', h1]; simp
          · intro v hv
            rcases List.mem_cons.mp hv with rfl | hv
            · exact h1
            · exact h2 v hv
        · rw [Function.update_of_ne hau, Function.update_of_ne hau]
          exact ⟨h1, h2, hdone⟩
      | done => exact ⟨h1, h2, h3⟩
  refine main sched _ (fun a ha hc => ⟨?_, by simp, by simp⟩)
  dsimp only
  unfold resetEdges
  split_ifs
  · exact hout a ha hc
  · rfl
  · exact hout a ha hc

omit [LinearOrder W] [BoundedOrder W] in
/-- The target of the default edge is the largest `int`. -/
lemma target_allOnes {e : DirectedEdge W} (h : e.key = BitVec.allOnes 64) : e.target = 2 ^ 31 - 1 := by
  unfold DirectedEdge.target DirectedEdge.reverse
  rw [h]
  decide

omit [LinearOrder W] [BoundedOrder W] in
lemma append_none {out : ℕ → DirectedEdge W} {a : ℕ} (hlab : lab a = a) (h : nextComp n lab out a = none) {ord : List ℕ} (ha : a ∈ ord)
    (edges : List (WeightedEdge W)) : append n lab out edges ord = none := by
  have hnone : ∀ ord : List ℕ, ord.foldl (fun o i => o.bind (fun es => appendStep n lab out es i)) none = none := by
    intro ord
    induction ord with
    | nil => rfl
    | cons x ord ih => rw [List.foldl_cons]; exact ih
  have key : ∀ (ord : List ℕ) (o : Option (List (WeightedEdge W))), a ∈ ord →
      ord.foldl (fun o i => o.bind (fun es => appendStep n lab out es i)) o = none := by
    intro ord
    induction ord with
    | nil => intro o h; cases h
    | cons x ord ih =>
      intro o hm
      rw [List.foldl_cons]
      rcases List.mem_cons.mp hm with rfl | hm
      · have : (o.bind fun es => appendStep n lab out es a) = none := by
          cases o with
          | none => rfl
          | some es =>
            rw [Option.bind_some]
            unfold appendStep
            rw [if_neg (by rw [hlab]; simp), h]
        rw [this]; exact hnone ord
      · exact ih _ hm
  exact key ord _ ha

end ArborX.Boruvka
