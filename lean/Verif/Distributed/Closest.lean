import Verif.Nearest.Theorems
import Mathlib.Data.List.Forall2

/-!
# The `k` closest values of several collections
-/

namespace ArborX.Distributed

open Nearest

variable {α K : Type} [LinearOrder K]

/-- `calls` is an answer to "the `k` closest of the values `stored`": stored values in non-decreasing distance, at most `k`, none of
the omitted values is closer than a returned one, and with fewer than `k` results every value at finite distance is returned. Unlike
`IsKNearest`, values at infinite distance may be returned too, after the others. -/
def IsKClosest (d : α → K) (inf : K) (k : ℕ) (stored calls : List α) : Prop :=
  ∃ omitted : List α, (calls ++ omitted).Perm stored ∧ calls.Pairwise (fun a b => d a ≤ d b) ∧ calls.length ≤ k ∧
    (∀ a ∈ calls, ∀ b ∈ omitted, d a ≤ d b) ∧ (calls.length < k → ∀ b ∈ omitted, ¬ d b < inf)

variable {d : α → K} {inf : K} {k : ℕ}

lemma isKClosest_of_isKNearest {stored calls : List α} (h : IsKNearest d inf k stored calls) : IsKClosest d inf k stored calls := by
  obtain ⟨om, h1, h2, -, h4, h5, h6⟩ := h
  exact ⟨om, h1, h2, h4, h5, h6⟩

lemma IsKClosest.isKNearest {stored calls : List α} (h : IsKClosest d inf k stored calls) (hf : ∀ a ∈ stored, d a < inf) :
    IsKNearest d inf k stored calls := by
  obtain ⟨om, h1, h2, h4, h5, h6⟩ := h
  exact ⟨om, h1, h2, fun a ha => hf a (h1.mem_iff.mp (by simp [ha])), h4, h5, h6⟩

lemma IsKClosest.count {stored calls : List α} (h : IsKClosest d inf k stored calls) (p : α → Bool)
    (hd : ∀ a b, p b = true → d a ≤ d b → p a = true) (hf : ∀ a, p a = true → d a < inf) :
    calls.countP p = min k (stored.countP p) := by
  obtain ⟨om, h1, h2, h4, h5, h6⟩ := h
  rw [← h1.countP_eq, List.countP_append]
  have hle : calls.countP p ≤ calls.length := List.countP_le_length
  by_cases h0 : om.countP p = 0
  · omega
  obtain ⟨b, hb, hpb⟩ := List.countP_pos_iff.mp (Nat.pos_of_ne_zero h0)
  have hk : calls.length = k := by
    by_contra hne
    exact h6 (by omega) b hb (hf b hpb)
  have : calls.countP p = calls.length := List.countP_eq_length.mpr (fun a ha => hd a b hpb (h5 a ha b hb))
  omega

lemma isKClosest_of_count {stored res om : List α} (hp : (res ++ om).Perm stored) (hs : res.Pairwise (fun a b => d a ≤ d b))
    (hk : res.length ≤ k) (hle : ∀ a ∈ stored, d a ≤ inf)
    (hc : ∀ x, x < inf → res.countP (fun a => decide (d a ≤ x)) = min k (stored.countP (fun a => decide (d a ≤ x)))) :
    IsKClosest d inf k stored res := by
  have key : ∀ b ∈ om, d b < inf → res.length = k ∧ ∀ a ∈ res, d a ≤ d b := by
    intro b hb hbi
    have h := hc (d b) hbi
    rw [← hp.countP_eq, List.countP_append] at h
    have h1 : 0 < om.countP (fun a => decide (d a ≤ d b)) := List.countP_pos_iff.mpr ⟨b, hb, by simp⟩
    have h2 : res.countP (fun a => decide (d a ≤ d b)) ≤ res.length := List.countP_le_length
    have h3 : res.countP (fun a => decide (d a ≤ d b)) = res.length := by omega
    refine ⟨by omega, fun a ha => ?_⟩
    simpa using List.countP_eq_length.mp h3 a ha
  refine ⟨om, hp, hs, hk, ?_, ?_⟩
  · intro a ha b hb
    by_cases hbi : d b < inf
    · exact (key b hb hbi).2 a ha
    · exact (hle a (hp.mem_iff.mp (by simp [ha]))).trans (not_lt.mp hbi)
  · intro hlt b hb hbi
    have := (key b hb hbi).1
    omega

lemma min_sum_min {ι : Type} (k : ℕ) (f : ι → ℕ) (l : List ι) : min k ((l.map (fun t => min k (f t))).sum) = min k ((l.map f).sum) := by
  induction l with
  | nil => simp
  | cons a l ih => simp only [List.map_cons, List.sum_cons]; omega

lemma countP_flatMap' {ι : Type} (p : α → Bool) (f : ι → List α) (l : List ι) :
    (l.flatMap f).countP p = (l.map (fun t => (f t).countP p)).sum := by
  induction l with
  | nil => rfl
  | cons a l ih => simp [List.countP_append, ih]

/-- The closest of the closest are the closest. -/
lemma IsKClosest.flatMap {ι : Type} {l : List ι} {st rows : ι → List α} {res : List α}
    (hr : ∀ t ∈ l, IsKClosest d inf k (st t) (rows t)) (h : IsKClosest d inf k (l.flatMap rows) res)
    (hle : ∀ a ∈ l.flatMap st, d a ≤ inf) : IsKClosest d inf k (l.flatMap st) res := by
  have hom : ∃ om, (res ++ om).Perm (l.flatMap st) := by
    obtain ⟨om1, h1, -⟩ := h
    have : ∃ om2, (l.flatMap rows ++ om2).Perm (l.flatMap st) := by
      clear h1 hle
      induction l with
      | nil => exact ⟨[], by simp⟩
      | cons t l ih =>
        obtain ⟨om2, h2⟩ := ih (fun t' ht' => hr t' (by simp [ht']))
        obtain ⟨om3, h3, -⟩ := hr t (by simp)
        refine ⟨om3 ++ om2, ?_⟩
        simp only [List.flatMap_cons]
        refine List.Perm.trans ?_ (h3.append h2)
        rw [List.append_assoc, List.append_assoc]
        apply List.Perm.append_left
        rw [← List.append_assoc, ← List.append_assoc]
        exact List.perm_append_comm.append_right _
    obtain ⟨om2, h2⟩ := this
    refine ⟨om1 ++ om2, ?_⟩
    rw [← List.append_assoc]
    exact (h1.append_right _).trans h2
  obtain ⟨om, hom⟩ := hom
  have hc := h.count
  obtain ⟨_, -, hs, hk, -⟩ := h
  refine isKClosest_of_count hom hs hk hle ?_
  intro x hx
  rw [hc _ (fun a b hb hab => by simp only [decide_eq_true_eq] at hb ⊢; exact hab.trans hb)
    (fun a ha => by simp only [decide_eq_true_eq] at ha; exact lt_of_le_of_lt ha hx)]
  rw [countP_flatMap', countP_flatMap', ← min_sum_min k (fun t => (st t).countP _)]
  congr 2
  apply List.map_congr_left
  intro t ht
  exact (hr t ht).count _ (fun a b hb hab => by simp only [decide_eq_true_eq] at hb ⊢; exact hab.trans hb)
    (fun a ha => by simp only [decide_eq_true_eq] at ha; exact lt_of_le_of_lt ha hx)

/-- Values that are farther than `k` others do not matter. -/
lemma IsKClosest.extend {st ex res : List α} (h : IsKClosest d inf k st res) (hle : ∀ a ∈ st, d a ≤ inf)
    (hex : ∀ b ∈ ex, d b < inf → k ≤ st.countP (fun a => decide (d a < d b))) : IsKClosest d inf k (st ++ ex) res := by
  have hc := h.count
  obtain ⟨om, h1, h2, h4, h5, h6⟩ := h
  have key : ∀ b ∈ ex, d b < inf → res.length = k ∧ ∀ a ∈ res, d a < d b := by
    intro b hb hbi
    have := hc (fun a => decide (d a < d b)) (fun a c hc hac => by simp only [decide_eq_true_eq] at hc ⊢; exact lt_of_le_of_lt hac hc)
      (fun a ha => by simp only [decide_eq_true_eq] at ha; exact ha.trans hbi)
    have h3 := hex b hb hbi
    have h4' : res.countP (fun a => decide (d a < d b)) ≤ res.length := List.countP_le_length
    have h5' : res.countP (fun a => decide (d a < d b)) = res.length := by omega
    refine ⟨by omega, fun a ha => ?_⟩
    simpa using List.countP_eq_length.mp h5' a ha
  refine ⟨om ++ ex, ?_, h2, h4, ?_, ?_⟩
  · rw [← List.append_assoc]; exact h1.append_right _
  · intro a ha b hb
    rcases List.mem_append.mp hb with hb | hb
    · exact h5 a ha b hb
    · by_cases hbi : d b < inf
      · exact ((key b hb hbi).2 a ha).le
      · exact (hle a (h1.mem_iff.mp (by simp [ha]))).trans (not_lt.mp hbi)
  · intro hlt b hb
    rcases List.mem_append.mp hb with hb | hb
    · exact h6 hlt b hb
    · intro hbi
      have := (key b hb hbi).1
      omega

lemma IsKClosest.perm {st st' res : List α} (h : IsKClosest d inf k st res) (hp : st.Perm st') : IsKClosest d inf k st' res := by
  obtain ⟨om, h1, h2⟩ := h
  exact ⟨om, h1.trans hp, h2⟩

/-- A permutation of the images comes from a permutation of the values. -/
lemma perm_map_lift {β : Type} {f : α → β} {l : List β} {L : List α} (h : l.Perm (L.map f)) : ∃ L' : List α, L'.Perm L ∧ L'.map f = l := by
  have hf : List.Forall₂ (fun b a => b = f a) (L.map f) L := by
    clear h
    induction L with
    | nil => exact .nil
    | cons a L ih => exact .cons rfl ih
  obtain ⟨L', h1, h2⟩ := List.perm_comp_forall₂ h hf
  refine ⟨L', h2, ?_⟩
  clear h2 hf h
  induction h1 with
  | nil => rfl
  | cons h _ ih => rw [List.map_cons, ih, ← h]

/-- Taking apart a collection distributed over processes into those that satisfy `S` and the others. -/
lemma flatMap_split {ι : Type} (S : ι → Prop) [DecidablePred S] (st : ι → List α) (l : List ι) :
    (l.flatMap (fun t => if S t then st t else []) ++ l.flatMap (fun t => if S t then [] else st t)).Perm (l.flatMap st) := by
  refine (List.flatMap_append_perm _ _ _).symm.symm.trans ?_
  apply List.Perm.flatMap_left
  intro t _
  by_cases h : S t <;> simp [h]

end ArborX.Distributed
