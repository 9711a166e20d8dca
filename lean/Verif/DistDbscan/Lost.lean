import Verif.DistDbscan.Assemble

/-!
# Lemmas: a point that its owner takes for noise (C73)
-/

namespace ArborX.DistDbscan

open Distributed BVH Traversal Dbscan

variable {X V : Type} {w : ℕ} [SemilatticeSup V] [OrderBot V]

omit [SemilatticeSup V] [OrderBot V] in
/-- Fewer than `core_min_size` points are all noise. -/
lemma few_noise {star : Bool} {n minPts : ℕ} {near : ℕ → ℕ → Bool} {lab : ℕ → ℤ} (h : n < minPts) (H : IsClustering star n near minPts lab) :
    ∀ i < n, lab i = -1 := by
  have hc : ∀ i, ¬ Core n near minPts i := by
    intro i hi
    unfold Core at hi
    have := List.length_filter_le (near i) (List.range n)
    rw [List.length_range] at this
    omega
  intro i hi
  unfold IsClustering at H
  split_ifs at H with hs
  · exact H.noise i hi (hc i)
  · exact H.noise i hi (hc i) (fun ⟨j, _, hj, _⟩ => hc j hj)

/-- With two processes, a process that sees fewer than `core_min_size` points labels all of its points as noise, whatever the other one has found. -/
lemma two_processes_noise (D : In X V) (hD : D.Base) (hP : D.P = 2) (h2 : 2 ≤ D.minPts) (star : Bool) (E : XEnv X w) (hE : E.Valid D) (hL : E.Local D star)
    (hc : ∀ r n, InOrder (E.csched r n)) (queryFuel : ℕ) (hq : 2 * D.P ≤ queryFuel) (r : ℕ) (hr : r < 2)
    (hfew : ∀ l : List (ℕ × ℕ), l.Nodup → (∀ s q, (s, q) ∈ l → s < D.P ∧ s ≠ r ∧ ∃ p, (D.points s)[q]? = some p ∧ D.hit p (D.box r) = true) →
      (D.points r).length + l.length < D.minPts) :
    ∃ N, ∀ fuel ≥ N, ∃ res, D.dbscan E queryFuel fuel = some res ∧ (∀ s < D.P, (res s).length = (D.points s).length) ∧ ∀ x ∈ res r, x = -1 := by
  obtain ⟨gp, gi, gr, hg, F, l, own, idx, H⟩ := exists_found' hD hE hL queryFuel hq
  obtain ⟨L, pairs, hLm, hLc, hpm, hrun⟩ := H.run hE hc
  have hrP : r < D.P := by omega
  -- at most one label is received for a point
  have hone : ∀ s < D.P, ∀ id, (L s id).length ≤ 1 := by
    intro s hs id
    refine (hLc s hs id).trans ?_
    rw [hP, show List.range 2 = [0, 1] from rfl]
    simp only [List.flatMap_cons, List.flatMap_nil, List.append_nil, List.count_append]
    have hself : List.count (s, id) (F s) = 0 := List.count_eq_zero.mpr (fun h => ((H.mem s hs s id).mp h).2.1 rfl)
    have h0 := List.nodup_iff_count_le_one.mp (H.nodup 0 (by omega)) (s, id)
    have h1 := List.nodup_iff_count_le_one.mp (H.nodup 1 (by omega)) (s, id)
    have : s = 0 ∨ s = 1 := by omega
    rcases this with rfl | rfl <;> omega
  have hneg : ∀ s < D.P, ∀ id, ∀ x ∈ L s id, x ≠ -1 := by
    intro s hs id x hx
    obtain ⟨_, _, _, _, _, h⟩ := (hLm s hs id x).mp hx
    exact h
  have hpair : ∀ s < D.P, ∀ p ∈ pairs s, p.2 < p.1 ∧ p.1 ≠ -1 ∧ p.2 ≠ -1 := by
    intro s hs p hp
    obtain ⟨id, hid, h⟩ := (hpm s hs p).mp hp
    by_cases ho : gl D gi gr l s id = -1
    · rw [ho] at h
      unfold pairsOf at h
      rw [if_pos (by have := hone s hs id; simp; omega)] at h
      simp at h
    · obtain ⟨-, -, k3, k4, k5⟩ := pairsOf_sound ho h
      have : ∀ x ∈ gl D gi gr l s id :: L s id, x ≠ -1 := by
        intro x hx
        rcases List.mem_cons.mp hx with rfl | hx
        · exact ho
        · exact hneg s hs id x hx
      exact ⟨k3, this _ k4, this _ k5⟩
  obtain ⟨new, N, m1, m2, -, -⟩ := merge_labels_partial E.merge hE.merge D.P pairs (fun s hs p hp => (hpair s hs p hp).1)
  have hnew : new (-1) = -1 := by
    have key : ∀ a b, Joined D.P pairs a b → (a = -1 ↔ b = -1) := by
      intro a b h
      induction h with
      | rel a b h =>
        obtain ⟨s, hs, h⟩ := h
        have := (hpair s hs _ h).2
        exact ⟨fun e => absurd e this.1, fun e => absurd e this.2⟩
      | refl => exact Iff.rfl
      | symm _ _ _ ih => exact ih.symm
      | trans _ _ _ _ _ ih1 ih2 => exact ih1.trans ih2
    exact (key _ _ (m2 (-1))).mp rfl
  refine ⟨N, fun fuel hf => ?_⟩
  obtain ⟨res, h1, h3⟩ := hrun fuel new (fun s hs a => m1 s hs fuel hf a)
  refine ⟨res, ?_, fun s hs => by rw [h3 s hs]; simp, ?_⟩
  · unfold In.dbscan
    rw [if_neg (by omega), hg, Option.bind_some]
    exact h1
  · intro x hx
    rw [h3 r hrP] at hx
    obtain ⟨id, hid, rfl⟩ := List.mem_map.mp hx
    have hid := List.mem_range.mp hid
    obtain ⟨-, -, k3, -⟩ := H.dbscan r hrP
    have hlen : (D.points r ++ gp r).length < D.minPts := by
      rw [List.length_append, H.length hrP]
      exact hfew (F r) (H.nodup r hrP) (fun s q h => (H.mem r hrP s q).mp h)
    have hlab := few_noise hlen k3 id (by rw [List.length_append]; omega)
    have hgl : gl D gi gr l r id = -1 := if_pos hlab
    rw [hgl]
    unfold ownLabel
    rw [if_pos (by have := hone r hrP id; simp; omega)]
    exact hnew

/-- The labels before the merge are indices of points. -/
lemma labelled_lt {D : In X V} (hD : D.Base) {star : Bool} {E : XEnv X w} (hE : E.Valid D) (hL : E.Local D star) {queryFuel : ℕ}
    (hq : 2 * D.P ≤ queryFuel) {g : ℕ} {x : ℤ} (h : D.Labelled E queryFuel g x) : ∃ k < D.all.length, x = (k : ℤ) := by
  obtain ⟨gp, gi, gr, hg, F, l, own, idx, H⟩ := exists_found' hD hE hL queryFuel hq
  obtain ⟨gp', gi', gr', hg', r, hr, l', hl', i, -, hi, hne⟩ := h
  rw [hg] at hg'
  obtain ⟨rfl, rfl, rfl⟩ : gp = gp' ∧ gi = gi' ∧ gr = gr' := by simpa using hg'
  rw [H.labels hr] at hl'
  obtain rfl := Option.some.inj hl'
  obtain ⟨hi1, hi2⟩ := List.getElem?_eq_some_iff.mp hi
  simp only [List.length_map, List.length_range] at hi1
  simp only [List.getElem_map, List.getElem_range] at hi2
  obtain ⟨-, -, h3, h4⟩ := H.dbscan r hr
  have hgl : gl D gi gr l r i = if labelAt (l r) i = -1 then -1 else (D.seen r (gi r) (gr r) (labelAt (l r) i).toNat : ℤ) := rfl
  rw [hgl] at hi2
  rcases label_range h3 h4 hi1 with h | ⟨k, hk, h⟩
  · rw [if_pos h] at hi2
    exact absurd hi2.symm hne
  · rw [if_neg (by omega)] at hi2
    refine ⟨_, ?_, hi2.symm⟩
    rw [h, Int.toNat_natCast]
    have := (seen_spec H.points H.ids H.ranks H.mem hr).2.2 k
    rw [List.getElem?_eq_getElem hk] at this
    exact (List.getElem?_eq_some_iff.mp this).1

/-- At most three points have at most three labels. -/
lemma few_of_three {D : In X V} (hD : D.Base) {star : Bool} {E : XEnv X w} (hE : E.Valid D) (hL : E.Local D star) {queryFuel : ℕ}
    (hq : 2 * D.P ≤ queryFuel) (h3 : D.all.length ≤ 3) : D.FewLabels E queryFuel := by
  intro g _ _
  refine ⟨0, 1, 2, fun h _ _ c hc => ?_⟩
  obtain ⟨k, hk, rfl⟩ := labelled_lt hD hE hL hq hc
  omega

end ArborX.DistDbscan
