import Verif.Verify.Model
import Verif.Dbscan.Spec
import Mathlib.Data.List.FinRange
import Mathlib.Data.Finset.Dedup
import Mathlib.Data.List.Dedup
import Mathlib.Logic.Equiv.Fin.Basic
import Mathlib.Data.Fintype.Perm
import Mathlib.Tactic.Linarith
import Mathlib.Algebra.Order.BigOperators.Group.List
import Mathlib.Algebra.Order.Group.Nat

/-!
# Lemmas on the verification of clusterings
-/

namespace ArborX.Verify

open Dbscan

variable {V : Type}

/-! ### Rows -/

lemma fold_last {α : Type} (f : α → Prop) [DecidablePred f] (ps : List α) (s : Option α) (hs : ∀ q, s = some q → f q) :
    (∀ q, ps.foldl (fun s p => if f p then some p else s) s = some q → f q) ∧
    ((s.isSome ∨ ∃ p ∈ ps, f p) → (ps.foldl (fun s p => if f p then some p else s) s).isSome) := by
  induction ps generalizing s with
  | nil => exact ⟨hs, by rintro (h | ⟨p, h, _⟩); exacts [h, absurd h List.not_mem_nil]⟩
  | cons a l ih =>
    rw [List.foldl_cons]
    by_cases ha : f a
    · rw [if_pos ha]
      obtain ⟨h1, h2⟩ := ih (some a) (by rintro q ⟨⟩; exact ha)
      exact ⟨h1, fun _ => h2 (.inl rfl)⟩
    · rw [if_neg ha]
      obtain ⟨h1, h2⟩ := ih s hs
      refine ⟨h1, ?_⟩
      rintro (h | ⟨p, hp, hf⟩)
      · exact h2 (.inl h)
      · rcases List.mem_cons.1 hp with rfl | hp
        · exact absurd hf ha
        · exact h2 (.inr ⟨p, hp, hf⟩)

variable [DecidableEq V]

omit [DecidableEq V] in
lemma swapFirst_perm (l : List (Entry V)) (q : Fin l.length) : (swapFirst l q).Perm l := by
  have h := Equiv.Perm.ofFn_comp_perm (Equiv.swap ⟨0, q.pos⟩ q) l.get
  rw [List.ofFn_get] at h
  exact h

omit [DecidableEq V] in
lemma swapFirst_head (l : List (Entry V)) (q : Fin l.length) (a : Entry V) (r : List (Entry V)) (h : swapFirst l q = a :: r) : a = l.get q := by
  have h1 : (swapFirst l q)[0]? = some a := by rw [h]; rfl
  rw [swapFirst, List.getElem?_ofFn, dif_pos q.pos, Equiv.swap_apply_left] at h1
  exact (Option.some.inj h1).symm

lemma selfFirst_spec (i : V) (l : List (Entry V)) (h : ∃ e ∈ l, e.pt = i) : ∃ a r, selfFirst i l = some (a, r) ∧ a.pt = i ∧ (a :: r).Perm l := by
  obtain ⟨h1, h2⟩ := fold_last (fun p : Fin l.length => (l.get p).pt = i) (List.finRange l.length) none (by simp)
  obtain ⟨e, he, hi⟩ := h
  obtain ⟨p, hp⟩ := List.mem_iff_get.1 he
  obtain ⟨q, hq⟩ := Option.isSome_iff_exists.1 (h2 (.inr ⟨p, List.mem_finRange _, by rw [hp]; exact hi⟩))
  have hq' : selfIndex i l = some q := hq
  cases hs : swapFirst l q with
  | nil =>
    have := (swapFirst_perm l q).length_eq
    rw [hs] at this
    have := q.pos
    simp_all
  | cons a r =>
    refine ⟨a, r, by rw [selfFirst, hq', Option.bind_some, hs], ?_, hs ▸ swapFirst_perm l q⟩
    rw [swapFirst_head l q a r hs]
    exact h1 q hq

lemma selfFirst_none (i : V) (l : List (Entry V)) (h : ∀ e ∈ l, e.pt ≠ i) : selfFirst i l = none := by
  have : selfIndex i l = none := by
    cases hs : selfIndex i l with
    | none => rfl
    | some q =>
      have := (fold_last (fun p : Fin l.length => (l.get p).pt = i) (List.finRange l.length) none (by simp)).1 q hs
      exact absurd this (h _ (List.get_mem l q))
  rw [selfFirst, this, Option.bind_none]

lemma row_spec (minPts : ℕ) (size : V → ℕ) (lab : V → ℤ) (i : V) (row : List V) (hnd : row.Nodup) (hi : i ∈ row) :
    ∃ R, selfFirst i (entries minPts size lab row) = some R ∧ R.1 = ⟨i, lab i, decide (minPts ≤ size i)⟩ ∧
      (∀ e, e ∈ R.2 ↔ ∃ j ∈ row, j ≠ i ∧ e = ⟨j, lab j, decide (minPts ≤ size j)⟩) ∧ R.2.length + 1 = row.length := by
  obtain ⟨a, r, h1, h2, h3⟩ := selfFirst_spec i (entries minPts size lab row) ⟨_, List.mem_map.2 ⟨i, hi, rfl⟩, rfl⟩
  have hmem : ∀ e, e ∈ a :: r ↔ ∃ j ∈ row, ⟨j, lab j, decide (minPts ≤ size j)⟩ = e := fun e => by rw [h3.mem_iff, entries, List.mem_map]
  have ha : a = ⟨i, lab i, decide (minPts ≤ size i)⟩ := by
    obtain ⟨j, _, hj⟩ := (hmem a).1 List.mem_cons_self
    have : j = i := by rw [← h2, ← hj]
    rw [← hj, this]
  have hnd' : (a :: r).Nodup := h3.nodup_iff.2 (hnd.map fun x y hxy => congrArg Entry.pt hxy)
  refine ⟨(a, r), h1, ha, fun e => ⟨fun he => ?_, ?_⟩, ?_⟩
  · obtain ⟨j, hj, hje⟩ := (hmem e).1 (List.mem_cons_of_mem _ he)
    refine ⟨j, hj, ?_, hje.symm⟩
    rintro rfl
    rw [hje] at ha
    rw [ha] at hnd'
    exact (List.nodup_cons.1 hnd').1 he
  · rintro ⟨j, hj, hji, rfl⟩
    have := (hmem _).2 ⟨j, hj, rfl⟩
    rcases List.mem_cons.1 this with h | h
    · rw [ha] at h
      exact absurd (congrArg Entry.pt h) hji
    · exact h
  · have := h3.length_eq
    rw [List.length_cons, entries, List.length_map] at this
    exact this

/-- What is known of the rows. -/
def RowsOk (pts : List V) (rows : V → List V) (c : V → Bool) (lab : V → ℤ) (R : V → Row V) : Prop :=
  ∀ i ∈ pts, (R i).1 = ⟨i, lab i, c i⟩ ∧ (∀ e, e ∈ (R i).2 ↔ ∃ j ∈ rows i, j ≠ i ∧ e = ⟨j, lab j, c j⟩) ∧ (R i).2.length + 1 = (rows i).length

lemma allRows_spec (pts : List V) (minPts : ℕ) (size : V → ℕ) (lab : V → ℤ) (rows : V → List V) (hnd : ∀ i ∈ pts, (rows i).Nodup) (hi : ∀ i ∈ pts, i ∈ rows i) :
    ∃ R, allRows pts (fun i => selfFirst i (entries minPts size lab (rows i))) = some R ∧ RowsOk pts rows (fun i => decide (minPts ≤ size i)) lab R := by
  have H := fun i h => row_spec minPts size lab i (rows i) (hnd i h) (hi i h)
  rw [allRows, dif_pos fun i h => by obtain ⟨R, hR, _⟩ := H i h; rw [hR]; rfl]
  refine ⟨_, rfl, fun i h => ?_⟩
  obtain ⟨R, hR, h1, h2⟩ := H i h
  dsimp only
  rw [dif_pos h]
  simp only [hR, Option.get_some]
  exact ⟨h1, h2⟩

lemma allRows_none (pts : List V) (f : V → Option (Row V)) (i : V) (hi : i ∈ pts) (h : f i = none) : allRows pts f = none := by
  rw [allRows, dif_neg]
  intro H
  have := H i hi
  rw [h] at this
  exact absurd this (by simp)

/-! ### The checks of single points -/

variable {pts : List V} {rows : V → List V} {c : V → Bool} {lab : V → ℤ} {R : V → Row V}

omit [DecidableEq V] in
lemma countP_zero (p : V → Bool) : decide (pts.countP p = 0) = true ↔ ∀ i ∈ pts, p i = false := by
  rw [decide_eq_true_eq, List.countP_eq_zero]
  exact forall₂_congr fun i _ => by rw [Bool.not_eq_true]

omit [DecidableEq V] in
lemma coreNonnegative_iff (H : RowsOk pts rows c lab R) : coreNonnegative pts R = true ↔ ∀ i ∈ pts, c i = true → 0 ≤ lab i := by
  rw [coreNonnegative, countP_zero]
  refine forall₂_congr fun i hi => ?_
  rw [(H i hi).1]
  simp

lemma coresShare_iff (H : RowsOk pts rows c lab R) : coresShare pts R = true ↔ ∀ i ∈ pts, c i = true → ∀ j ∈ rows i, c j = true → lab i = lab j := by
  rw [coresShare, decide_eq_true_eq, List.sum_eq_zero_iff]
  simp only [List.mem_map, forall_exists_index, and_imp, forall_apply_eq_imp_iff₂]
  refine forall₂_congr fun i hi => ?_
  obtain ⟨h1, h2, _⟩ := H i hi
  rw [h1]
  dsimp only
  by_cases hc : c i = true
  · rw [if_pos hc, List.countP_eq_zero]
    simp only [hc, true_implies]
    constructor
    · intro h j hj hcj
      by_cases hji : j = i
      · rw [hji]
      · have := h _ ((h2 _).2 ⟨j, hj, hji, rfl⟩)
        simpa [hcj] using this
    · rintro h e he
      obtain ⟨j, hj, hji, rfl⟩ := (h2 e).1 he
      have := h j hj
      cases hcj : c j <;> simp_all
  · rw [if_neg hc]
    simp [hc]

omit [DecidableEq V] in
lemma any_core (H : RowsOk pts rows c lab R) (i : V) (hi : i ∈ pts) (hc : c i = false) : (R i).2.any (fun e => e.core) = true ↔ ∃ j ∈ rows i, c j = true := by
  obtain ⟨h1, h2, _⟩ := H i hi
  rw [List.any_eq_true]
  constructor
  · rintro ⟨e, he, hce⟩
    obtain ⟨j, hj, hji, rfl⟩ := (h2 e).1 he
    exact ⟨j, hj, hce⟩
  · rintro ⟨j, hj, hcj⟩
    refine ⟨_, (h2 _).2 ⟨j, hj, ?_, rfl⟩, hcj⟩
    rintro rfl
    rw [hc] at hcj
    exact absurd hcj (by simp)

omit [DecidableEq V] in
lemma noisePoints_iff (H : RowsOk pts rows c lab R) : noisePoints pts R = true ↔ ∀ i ∈ pts, c i = false → (¬∃ j ∈ rows i, c j = true) → lab i = -1 := by
  rw [noisePoints, countP_zero]
  refine forall₂_congr fun i hi => ?_
  by_cases hc : c i = true
  · rw [(H i hi).1]
    simp [hc]
  · rw [Bool.not_eq_true] at hc
    rw [← any_core H i hi hc, (H i hi).1]
    cases (R i).2.any fun e => e.core <;> simp [hc]

omit [DecidableEq V] in
lemma ignoredBorderPoints_iff (H : RowsOk pts rows c lab R) : ignoredBorderPoints pts R = true ↔ ∀ i ∈ pts, c i = false → (∃ j ∈ rows i, c j = true) → lab i = -1 := by
  rw [ignoredBorderPoints, countP_zero]
  refine forall₂_congr fun i hi => ?_
  by_cases hc : c i = true
  · rw [(H i hi).1]
    simp [hc]
  · rw [Bool.not_eq_true] at hc
    rw [← any_core H i hi hc, (H i hi).1]
    cases (R i).2.any fun e => e.core <;> simp [hc]

omit [DecidableEq V] in
lemma borderLoop_spec (l : ℤ) (r : List (Entry V)) (b : Bool) :
    ((borderLoop l r b).1 = true ↔ b = true ∨ ∃ e ∈ r, e.core = true) ∧ ((borderLoop l r b).2 = true ↔ ∃ e ∈ r, e.core = true ∧ l = e.label) := by
  induction r generalizing b with
  | nil => simp [borderLoop]
  | cons e r ih =>
    rw [borderLoop]
    split_ifs with h1 h2
    · simp [h1, h2]
    · obtain ⟨i1, i2⟩ := ih true
      rw [i1, i2]
      simp [h1, h2]
    · obtain ⟨i1, i2⟩ := ih b
      rw [i1, i2]
      simp [h1]

omit [DecidableEq V] in
lemma borderPoints_iff (H : RowsOk pts rows c lab R) : borderPoints pts R = true ↔
    ∀ i ∈ pts, c i = false → (∃ j ∈ rows i, c j = true) → ∃ j ∈ rows i, c j = true ∧ lab i = lab j := by
  rw [borderPoints, countP_zero]
  refine forall₂_congr fun i hi => ?_
  by_cases hc : c i = true
  · rw [(H i hi).1]
    simp [hc]
  · rw [Bool.not_eq_true] at hc
    obtain ⟨b1, b2⟩ := borderLoop_spec (R i).1.label (R i).2 false
    obtain ⟨h1, h2, _⟩ := H i hi
    have e1 : (borderLoop (R i).1.label (R i).2 false).1 = true ↔ ∃ j ∈ rows i, c j = true := by
      rw [b1, ← any_core H i hi hc, List.any_eq_true]
      simp
    have e2 : (borderLoop (R i).1.label (R i).2 false).2 = true ↔ ∃ j ∈ rows i, c j = true ∧ lab i = lab j := by
      rw [b2, h1]
      constructor
      · rintro ⟨e, he, h3, h4⟩
        obtain ⟨j, hj, hji, rfl⟩ := (h2 e).1 he
        exact ⟨j, hj, h3, h4⟩
      · rintro ⟨j, hj, h3, h4⟩
        refine ⟨_, (h2 _).2 ⟨j, hj, ?_, rfl⟩, h3, h4⟩
        rintro rfl
        rw [hc] at h3
        exact absurd h3 (by simp)
    rw [← e1, ← e2]
    have hcore : (R i).1.core = false := by rw [h1]; exact hc
    rw [hcore]
    cases (borderLoop (R i).1.label (R i).2 false).1 <;> cases (borderLoop (R i).1.label (R i).2 false).2 <;> simp [hc]

end ArborX.Verify
