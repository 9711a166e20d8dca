import Verif.Interp.SvdFloatNum
import Verif.Interp.SvdLemmas
import Mathlib.Algebra.BigOperators.Fin

/-!
# Symmetric singular value decomposition in floating-point arithmetic: matrices
-/

namespace ArborX.Fp

open Nearest

variable {n : ℕ}

/-- The symmetric matrix that an upper triangle describes. -/
def nsym (A : NMat n) : NMat n := fun i j => A (min i j) (max i j)

lemma nsym_comm (A : NMat n) (i j : Fin n) : nsym A i j = nsym A j i := by
  simp only [nsym, min_comm, max_comm]

lemma nsym_self (A : NMat n) (i : Fin n) : nsym A i i = A i i := by simp [nsym]

lemma nsym_lt (A : NMat n) {i j : Fin n} (h : i < j) : nsym A i j = A i j := by
  simp [nsym, min_eq_left h.le, max_eq_right h.le]

lemma nsym_of_symm (A : NMat n) (h : ∀ i j, A i j = A j i) : nsym A = A := by
  funext i j
  rcases le_total i j with hij | hij
  · simp [nsym, hij]
  · simp only [nsym, min_eq_right hij, max_eq_left hij]; exact h j i

lemma nsym_set (A : NMat n) (i j : Fin n) (v : Num) (i' j' : Fin n) :
    nsym (A.set (min i j) (max i j) v) i' j'
      = if (i' = i ∧ j' = j) ∨ (i' = j ∧ j' = i) then v else nsym A i' j' := by
  simp only [nsym, NMat.set]
  have : (min i' j' = min i j ∧ max i' j' = max i j)
      ↔ ((i' = i ∧ j' = j) ∨ (i' = j ∧ j' = i)) := by
    constructor
    · rintro ⟨h1, h2⟩
      rcases le_total i' j' with h | h <;> rcases le_total i j with h' | h' <;>
        simp only [h, h', min_eq_left, min_eq_right, max_eq_left, max_eq_right] at h1 h2 <;>
        simp [h1, h2]
    · rintro (⟨rfl, rfl⟩ | ⟨rfl, rfl⟩)
      · exact ⟨rfl, rfl⟩
      · exact ⟨min_comm _ _, max_comm _ _⟩
  by_cases h : (i' = i ∧ j' = j) ∨ (i' = j ∧ j' = i)
  · rw [if_pos h, if_pos (this.2 h)]
  · rw [if_neg h, if_neg (fun h' => h (this.1 h'))]

lemma rotateStep_nsym (F : Format) (p q : Fin n) (c s : Num) (A : NMat n) (i : Fin n)
    (hp : i ≠ p) (hq : i ≠ q) (i' j' : Fin n) :
    nsym (F.rotateStep p q c s A i) i' j' =
      if (i' = i ∧ j' = q) ∨ (i' = q ∧ j' = i) then F.ndot (nneg s) (nsym A i p) c (nsym A i q)
      else if (i' = i ∧ j' = p) ∨ (i' = p ∧ j' = i) then F.ndot c (nsym A i p) s (nsym A i q)
      else nsym A i' j' := by
  have h1 : ∀ r : Fin n, (if i > r then r else i) = min i r := by
    intro r
    by_cases h : i > r
    · rw [if_pos h, min_eq_right h.le]
    · rw [if_neg h, min_eq_left (not_lt.1 h)]
  have h2 : ∀ r : Fin n, (if i > r then i else r) = max i r := by
    intro r
    by_cases h : i > r
    · rw [if_pos h, max_eq_left h.le]
    · rw [if_neg h, max_eq_right (not_lt.1 h)]
  rw [Format.rotateStep, if_neg (by simp [hp, hq])]
  dsimp only
  rw [h1, h1, h2, h2, nsym_set, nsym_set]
  rfl

lemma rotateFold_nsym (F : Format) (p q : Fin n) (hpq : p ≠ q) (c s : Num) (l : List (Fin n)) (hl : l.Nodup)
    (A : NMat n) :
    (∀ i ∈ l, i ≠ p → i ≠ q →
      nsym (l.foldl (F.rotateStep p q c s) A) i p = F.ndot c (nsym A i p) s (nsym A i q) ∧
      nsym (l.foldl (F.rotateStep p q c s) A) i q = F.ndot (nneg s) (nsym A i p) c (nsym A i q)) ∧
    (∀ i j, ¬ (i ∈ l ∧ i ≠ p ∧ i ≠ q ∧ (j = p ∨ j = q)) →
      ¬ (j ∈ l ∧ j ≠ p ∧ j ≠ q ∧ (i = p ∨ i = q)) →
      nsym (l.foldl (F.rotateStep p q c s) A) i j = nsym A i j) := by
  induction l generalizing A with
  | nil => exact ⟨fun i hi => by simp at hi, fun i j _ _ => rfl⟩
  | cons k l ih =>
    obtain ⟨hk, hl⟩ := List.nodup_cons.1 hl
    rw [List.foldl_cons]
    obtain ⟨ih1, ih2⟩ := ih hl (F.rotateStep p q c s A k)
    by_cases hkp : k = p ∨ k = q
    · have e : F.rotateStep p q c s A k = A := by rw [Format.rotateStep, if_pos hkp]
      rw [e] at ih1 ih2 ⊢
      refine ⟨fun i hi hp hq => ?_, fun i j h1 h2 => ?_⟩
      · rcases List.mem_cons.1 hi with rfl | hi
        · rcases hkp with h | h
          · exact absurd h hp
          · exact absurd h hq
        · exact ih1 i hi hp hq
      · refine ih2 i j (fun h => h1 ⟨List.mem_cons_of_mem _ h.1, h.2⟩)
          (fun h => h2 ⟨List.mem_cons_of_mem _ h.1, h.2⟩)
    · have hkp' : k ≠ p := fun h => hkp (Or.inl h)
      have hkq' : k ≠ q := fun h => hkp (Or.inr h)
      have st := rotateStep_nsym F p q c s A k hkp' hkq'
      refine ⟨fun i hi hp hq => ?_, fun i j h1 h2 => ?_⟩
      · rcases List.mem_cons.1 hi with rfl | hi
        · constructor
          · rw [ih2 i p (fun h => hk h.1) (fun h => h.2.1 rfl), st, if_neg, if_pos (by simp)]
            rintro (⟨_, h⟩ | ⟨h, _⟩)
            · exact hpq h
            · exact hq h
          · rw [ih2 i q (fun h => hk h.1) (fun h => h.2.2.1 rfl), st, if_pos (by simp)]
        · have hik : i ≠ k := fun h => hk (h ▸ hi)
          have e1 : ∀ r, r ≠ k → nsym (F.rotateStep p q c s A k) i r = nsym A i r := by
            intro r hr
            rw [st, if_neg, if_neg]
            · rintro (⟨h, _⟩ | ⟨_, h⟩)
              · exact hik h
              · exact hr h
            · rintro (⟨h, _⟩ | ⟨_, h⟩)
              · exact hik h
              · exact hr h
          obtain ⟨a, b⟩ := ih1 i hi hp hq
          rw [e1 p (Ne.symm hkp'), e1 q (Ne.symm hkq')] at a b
          exact ⟨a, b⟩
      · rw [ih2 i j (fun h => h1 ⟨List.mem_cons_of_mem _ h.1, h.2⟩)
          (fun h => h2 ⟨List.mem_cons_of_mem _ h.1, h.2⟩), st, if_neg, if_neg]
        · rintro (⟨rfl, rfl⟩ | ⟨rfl, rfl⟩)
          · exact h1 ⟨by simp, hkp', hkq', Or.inl rfl⟩
          · exact h2 ⟨by simp, hkp', hkq', Or.inl rfl⟩
        · rintro (⟨rfl, rfl⟩ | ⟨rfl, rfl⟩)
          · exact h1 ⟨by simp, hkp', hkq', Or.inr rfl⟩
          · exact h2 ⟨by simp, hkp', hkq', Or.inr rfl⟩

/-- The matrix after one iteration. -/
structure Rotated (F : Format) (bit : Num → Num → Num → Bool) (p q : Fin n) (S S' : NMat n) : Prop where
  pp : S' p p = F.nmac (S p p) (nneg (F.tan bit (S p p) (S p q) (S q q))) (S p q)
  qq : S' q q = F.nmac (S q q) (F.tan bit (S p p) (S p q) (S q q)) (S p q)
  pq : S' p q = some 0
  ip : ∀ i, i ≠ p → i ≠ q → S' i p = F.ndot (F.cos (F.tan bit (S p p) (S p q) (S q q))) (S i p) (F.sin (F.tan bit (S p p) (S p q) (S q q))) (S i q)
  iq : ∀ i, i ≠ p → i ≠ q → S' i q = F.ndot (nneg (F.sin (F.tan bit (S p p) (S p q) (S q q)))) (S i p) (F.cos (F.tan bit (S p p) (S p q) (S q q))) (S i q)
  ij : ∀ i j, i ≠ p → i ≠ q → j ≠ p → j ≠ q → S' i j = S i j
  comm : ∀ i j, S' i j = S' j i

lemma rotateA_nsym (F : Format) (bit : Num → Num → Num → Bool) (p q : Fin n) (hpq : p < q) (A : NMat n) : Rotated F bit p q (nsym A) (nsym (F.rotateA bit p q A)) := by
  have hne : p ≠ q := hpq.ne
  have Spq : nsym A p q = A p q := nsym_lt A hpq
  have Spp := nsym_self A p
  have Sqq := nsym_self A q
  rw [Format.rotateA]
  rw [← Spq, ← Spp, ← Sqq]
  obtain ⟨t, ht⟩ : ∃ t, t = F.tan bit (nsym A p p) (nsym A p q) (nsym A q q) := ⟨_, rfl⟩
  rw [← ht]
  obtain ⟨x, hx⟩ : ∃ x, x = F.nmac (nsym A p p) (nneg t) (nsym A p q) := ⟨_, rfl⟩
  obtain ⟨y, hy⟩ : ∃ y, y = F.nmac (nsym A q q) t (nsym A p q) := ⟨_, rfl⟩
  rw [← hx, ← hy]
  have e0 : ∀ i j, nsym (((A.set p p x).set q q y).set p q (some 0)) i j = if (i = p ∧ j = q) ∨ (i = q ∧ j = p) then some 0
        else if i = q ∧ j = q then y else if i = p ∧ j = p then x else nsym A i j := by
    intro i j
    have h1 := nsym_set ((A.set p p x).set q q y) p q (some 0) i j
    rw [min_eq_left hpq.le, max_eq_right hpq.le] at h1
    have h2 := nsym_set (A.set p p x) q q y i j
    rw [min_self, max_self] at h2
    simp only [or_self] at h2
    have h3 := nsym_set A p p x i j
    rw [min_self, max_self] at h3
    simp only [or_self] at h3
    rw [h1, h2, h3]
  obtain ⟨f1, f2⟩ := rotateFold_nsym F p q hne (F.cos t) (F.sin t) (List.finRange n) (List.nodup_finRange n) (((A.set p p x).set q q y).set p q (some 0))
  have e1 : ∀ i r, i ≠ p → i ≠ q → nsym (((A.set p p x).set q q y).set p q (some 0)) i r = nsym A i r := by
    intro i r h1 h2
    rw [e0]
    simp [h1, h2]
  refine ⟨?_, ?_, ?_, ?_, ?_, ?_, fun i j => nsym_comm _ i j⟩
  · rw [f2 _ _ (by simp) (by simp), e0, ← ht, ← hx]
    simp [hne]
  · rw [f2 _ _ (by simp) (by simp), e0, ← ht, ← hy]
    simp [hne.symm]
  · rw [f2 _ _ (by simp) (by simp), e0]
    simp
  · intro i h1 h2
    rw [(f1 i (List.mem_finRange i) h1 h2).1, e1 _ _ h1 h2, e1 _ _ h1 h2, ht]
  · intro i h1 h2
    rw [(f1 i (List.mem_finRange i) h1 h2).2, e1 _ _ h1 h2, e1 _ _ h1 h2, ht]
  · intro i j h1 h2 h3 h4
    rw [f2 _ _ (by simp [h3, h4]) (by simp [h1, h2]), e1 _ _ h1 h2]

/-! ### The largest entry -/

lemma nargmaxFold (A : NMat n) (l : List (Fin n × Fin n)) (s : Num × Option (Fin n × Fin n)) (m : EReal) (hm : s.1 = some m) (hm0 : 0 ≤ m)
    (hs' : ∀ ij, s.2 = some ij → s.1 = nabs (A ij.1 ij.2) ∧ ij.1 < ij.2) (hn : s.2 = none → m = 0) (hl : ∀ ij ∈ l, ij.1 < ij.2) :
    ∃ m', (l.foldl (nargmaxStep A) s).1 = some m' ∧ 0 ≤ m' ∧ m ≤ m' ∧ (∀ ij ∈ l, ∀ x, nabs (A ij.1 ij.2) = some x → x ≤ m') ∧
    (∀ ij, (l.foldl (nargmaxStep A) s).2 = some ij → (l.foldl (nargmaxStep A) s).1 = nabs (A ij.1 ij.2) ∧ ij.1 < ij.2) ∧
    ((l.foldl (nargmaxStep A) s).2 = none → m' = 0) := by
  induction l generalizing s m with
  | nil => exact ⟨m, hm, hm0, le_rfl, fun ij h => by simp at h, hs', hn⟩
  | cons k l ih =>
    rw [List.foldl_cons]
    by_cases h : nanLt s.1 (nabs (A k.1 k.2)) = true
    · have e : nargmaxStep A s k = (nabs (A k.1 k.2), some k) := by rw [nargmaxStep, if_pos h]
      rw [e]
      rw [hm] at h
      cases hv : nabs (A k.1 k.2) with
      | none => rw [hv] at h; simp [nanLt] at h
      | some v =>
        rw [hv] at h
        have hlt : m < v := by simpa [nanLt] using h
        obtain ⟨m', a, b, c, d, f, g⟩ := ih (some v, some k) v rfl (hm0.trans hlt.le)
          (fun ij h => by cases h; exact ⟨hv.symm, hl k (by simp)⟩) (fun h => by cases h) (fun ij h => hl ij (List.mem_cons_of_mem _ h))
        refine ⟨m', a, b, hlt.le.trans c, fun ij h x hx => ?_, f, g⟩
        rcases List.mem_cons.1 h with rfl | h
        · rw [hv] at hx; cases hx; exact c
        · exact d ij h x hx
    · have e : nargmaxStep A s k = s := by rw [nargmaxStep, if_neg h]
      rw [e]
      obtain ⟨m', a, b, c, d, f, g⟩ := ih s m hm hm0 hs' hn (fun ij h => hl ij (List.mem_cons_of_mem _ h))
      refine ⟨m', a, b, c, fun ij h' x hx => ?_, f, g⟩
      rcases List.mem_cons.1 h' with rfl | h'
      · rw [hx, hm] at h
        have : ¬ m < x := by simpa [nanLt] using h
        exact (not_lt.1 this).trans c
      · exact d ij h' x hx

lemma nargmax_spec (A : NMat n) : ∃ m, (nargmax A).1 = some m ∧ 0 ≤ m ∧ (∀ i j, i ≠ j → ∀ x, nabs (nsym A i j) = some x → x ≤ m) ∧
    (∀ p q, (nargmax A).2 = some (p, q) → nabs (nsym A p q) = some m ∧ p < q) ∧ ((nargmax A).2 = none → m = 0) := by
  obtain ⟨m, a, b, _, d, f, g⟩ := nargmaxFold A (Interp.upperTriangle n) (some 0, none) 0 rfl le_rfl
    (fun ij h => by simp at h) (fun _ => rfl) (fun ij h => (Interp.mem_upperTriangle ij.1 ij.2).1 h)
  refine ⟨m, a, b, fun i j hij x hx => ?_, fun p q h => ?_, g⟩
  · refine d (min i j, max i j) ((Interp.mem_upperTriangle _ _).2 ?_) x hx
    rcases lt_or_gt_of_ne hij with h | h
    · rwa [min_eq_left h.le, max_eq_right h.le]
    · rwa [min_eq_right h.le, max_eq_left h.le]
  · obtain ⟨h1, h2⟩ := f (p, q) h
    rw [nsym_lt A h2]
    exact ⟨h1.symm.trans a, h2⟩

end ArborX.Fp
