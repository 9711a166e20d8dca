import Verif.Interp.Svd
import Mathlib.LinearAlgebra.Matrix.Trace
import Mathlib.LinearAlgebra.Matrix.NonsingularInverse
import Mathlib.Algebra.Order.BigOperators.Ring.Finset
import Mathlib.Algebra.BigOperators.Fin
import Mathlib.Tactic.Ring
import Mathlib.Tactic.Linarith
import Mathlib.Tactic.LinearCombination
import Mathlib.Tactic.FieldSimp
import Mathlib.Tactic.Positivity

/-!
# Symmetric singular value decomposition: lemmas

Every iteration of the Jacobi method is a similarity transformation with a rotation, and
decreases the sum of the squares away from the diagonal.
-/

namespace ArborX.Interp

open Matrix

variable {n : ℕ}

/-- The symmetric matrix that an upper triangle describes. -/
def sym (A : Mat n) : Matrix (Fin n) (Fin n) ℝ := fun i j => A (min i j) (max i j)

theorem sym_comm (A : Mat n) (i j : Fin n) : sym A i j = sym A j i := by
  simp only [sym, min_comm, max_comm]

theorem sym_self (A : Mat n) (i : Fin n) : sym A i i = A i i := by simp [sym]

theorem sym_lt (A : Mat n) {i j : Fin n} (h : i < j) : sym A i j = A i j := by
  simp [sym, min_eq_left h.le, max_eq_right h.le]

theorem sym_of_symm (A : Mat n) (h : ∀ i j, A i j = A j i) : sym A = A := by
  funext i j
  rcases le_total i j with hij | hij
  · simp [sym, hij]
  · simp only [sym, min_eq_right hij, max_eq_left hij]; exact h j i

theorem sym_set (A : Mat n) (i j : Fin n) (v : ℝ) (i' j' : Fin n) :
    sym (A.set (min i j) (max i j) v) i' j'
      = if (i' = i ∧ j' = j) ∨ (i' = j ∧ j' = i) then v else sym A i' j' := by
  simp only [sym, Mat.set]
  have : (min i' j' = min i j ∧ max i' j' = max i j)
      ↔ ((i' = i ∧ j' = j) ∨ (i' = j ∧ j' = i)) := by
    constructor
    · rintro ⟨h1, h2⟩
      rcases le_total i' j' with h | h <;> rcases le_total i j with h' | h' <;>
        simp only [h, h', min_eq_left, min_eq_right, max_eq_left, max_eq_right] at h1 h2 <;>
        simp [h1, h2]
    · rintro (⟨rfl, rfl⟩ | ⟨rfl, rfl⟩)
      · exact ⟨rfl, rfl⟩
      · exact ⟨min_comm _ _, max_comm _ _⟩
  by_cases h : (i' = i ∧ j' = j) ∨ (i' = j ∧ j' = i)
  · rw [if_pos h, if_pos (this.2 h)]
  · rw [if_neg h, if_neg (fun h' => h (this.1 h'))]

theorem rotateStep_sym (p q : Fin n) (c s : ℝ) (A : Mat n) (i : Fin n)
    (hp : i ≠ p) (hq : i ≠ q) (i' j' : Fin n) :
    sym (rotateStep p q c s A i) i' j' =
      if (i' = i ∧ j' = q) ∨ (i' = q ∧ j' = i) then -s * sym A i p + c * sym A i q
      else if (i' = i ∧ j' = p) ∨ (i' = p ∧ j' = i) then c * sym A i p + s * sym A i q
      else sym A i' j' := by
  have h1 : ∀ r : Fin n, (if i > r then r else i) = min i r := by
    intro r
    by_cases h : i > r
    · rw [if_pos h, min_eq_right h.le]
    · rw [if_neg h, min_eq_left (not_lt.1 h)]
  have h2 : ∀ r : Fin n, (if i > r then i else r) = max i r := by
    intro r
    by_cases h : i > r
    · rw [if_pos h, max_eq_left h.le]
    · rw [if_neg h, max_eq_right (not_lt.1 h)]
  rw [rotateStep, if_neg (by simp [hp, hq])]
  dsimp only
  rw [h1, h1, h2, h2, sym_set, sym_set]
  rfl

theorem rotateFold_sym (p q : Fin n) (hpq : p ≠ q) (c s : ℝ) (l : List (Fin n)) (hl : l.Nodup)
    (A : Mat n) :
    (∀ i ∈ l, i ≠ p → i ≠ q →
      sym (l.foldl (rotateStep p q c s) A) i p = c * sym A i p + s * sym A i q ∧
      sym (l.foldl (rotateStep p q c s) A) i q = -s * sym A i p + c * sym A i q) ∧
    (∀ i j, ¬ (i ∈ l ∧ i ≠ p ∧ i ≠ q ∧ (j = p ∨ j = q)) →
      ¬ (j ∈ l ∧ j ≠ p ∧ j ≠ q ∧ (i = p ∨ i = q)) →
      sym (l.foldl (rotateStep p q c s) A) i j = sym A i j) := by
  induction l generalizing A with
  | nil => exact ⟨fun i hi => by simp at hi, fun i j _ _ => rfl⟩
  | cons k l ih =>
    obtain ⟨hk, hl⟩ := List.nodup_cons.1 hl
    rw [List.foldl_cons]
    obtain ⟨ih1, ih2⟩ := ih hl (rotateStep p q c s A k)
    by_cases hkp : k = p ∨ k = q
    · have e : rotateStep p q c s A k = A := by rw [rotateStep, if_pos hkp]
      rw [e] at ih1 ih2 ⊢
      refine ⟨fun i hi hp hq => ?_, fun i j h1 h2 => ?_⟩
      · rcases List.mem_cons.1 hi with rfl | hi
        · rcases hkp with h | h
          · exact absurd h hp
          · exact absurd h hq
        · exact ih1 i hi hp hq
      · refine ih2 i j (fun h => h1 ⟨List.mem_cons_of_mem _ h.1, h.2⟩)
          (fun h => h2 ⟨List.mem_cons_of_mem _ h.1, h.2⟩)
    · have hkp' : k ≠ p := fun h => hkp (Or.inl h)
      have hkq' : k ≠ q := fun h => hkp (Or.inr h)
      have st := rotateStep_sym p q c s A k hkp' hkq'
      refine ⟨fun i hi hp hq => ?_, fun i j h1 h2 => ?_⟩
      · rcases List.mem_cons.1 hi with rfl | hi
        · constructor
          · rw [ih2 i p (fun h => hk h.1) (fun h => h.2.1 rfl), st, if_neg, if_pos (by simp)]
            rintro (⟨_, h⟩ | ⟨h, _⟩)
            · exact hpq h
            · exact hq h
          · rw [ih2 i q (fun h => hk h.1) (fun h => h.2.2.1 rfl), st, if_pos (by simp)]
        · have hik : i ≠ k := fun h => hk (h ▸ hi)
          have e1 : ∀ r, r ≠ k → sym (rotateStep p q c s A k) i r = sym A i r := by
            intro r hr
            rw [st, if_neg, if_neg]
            · rintro (⟨h, _⟩ | ⟨_, h⟩)
              · exact hik h
              · exact hr h
            · rintro (⟨h, _⟩ | ⟨_, h⟩)
              · exact hik h
              · exact hr h
          obtain ⟨a, b⟩ := ih1 i hi hp hq
          rw [e1 p (Ne.symm hkp'), e1 q (Ne.symm hkq')] at a b
          exact ⟨a, b⟩
      · rw [ih2 i j (fun h => h1 ⟨List.mem_cons_of_mem _ h.1, h.2⟩)
          (fun h => h2 ⟨List.mem_cons_of_mem _ h.1, h.2⟩), st, if_neg, if_neg]
        · rintro (⟨rfl, rfl⟩ | ⟨rfl, rfl⟩)
          · exact h1 ⟨by simp, hkp', hkq', Or.inl rfl⟩
          · exact h2 ⟨by simp, hkp', hkq', Or.inl rfl⟩
        · rintro (⟨rfl, rfl⟩ | ⟨rfl, rfl⟩)
          · exact h1 ⟨by simp, hkp', hkq', Or.inr rfl⟩
          · exact h2 ⟨by simp, hkp', hkq', Or.inr rfl⟩

/-- The rotation of the plane of `p` and `q`. -/
def rot (p q : Fin n) (c s : ℝ) : Matrix (Fin n) (Fin n) ℝ := fun i k =>
  if i = p then (if k = p then c else if k = q then s else 0)
  else if i = q then (if k = p then -s else if k = q then c else 0)
  else if i = k then 1 else 0

theorem rot_sum (p q : Fin n) (hpq : p ≠ q) (c s : ℝ) (f : Fin n → ℝ) (i : Fin n) :
    ∑ k, rot p q c s i k * f k =
      if i = p then c * f p + s * f q else if i = q then -s * f p + c * f q else f i := by
  have two : ∀ u v : ℝ, ∑ k, (if k = p then u else if k = q then v else 0) * f k
      = u * f p + v * f q := by
    intro u v
    have : ∀ k, (if k = p then u else if k = q then v else 0) * f k
        = (if k = p then u * f p else 0) + if k = q then v * f q else 0 := by
      intro k
      by_cases h1 : k = p
      · subst h1; simp [hpq]
      · by_cases h2 : k = q
        · subst h2; simp [h1]
        · simp [h1, h2]
    simp [this, Finset.sum_add_distrib]
  simp only [rot]
  by_cases h1 : i = p
  · simp only [if_pos h1, two]
  · by_cases h2 : i = q
    · simp only [if_neg h1, if_pos h2, two]
    · simp only [if_neg h1, if_neg h2]
      simp

theorem mul_rotT (p q : Fin n) (hpq : p ≠ q) (c s : ℝ) (M : Matrix (Fin n) (Fin n) ℝ)
    (i j : Fin n) :
    (M * (rot p q c s)ᵀ) i j =
      if j = p then c * M i p + s * M i q else if j = q then -s * M i p + c * M i q
      else M i j := by
  rw [Matrix.mul_apply, ← rot_sum p q hpq c s (fun k => M i k)]
  exact Finset.sum_congr rfl (fun k _ => mul_comm _ _)

theorem rot_mul (p q : Fin n) (hpq : p ≠ q) (c s : ℝ) (M : Matrix (Fin n) (Fin n) ℝ)
    (i j : Fin n) :
    (rot p q c s * M) i j =
      if i = p then c * M p j + s * M q j else if i = q then -s * M p j + c * M q j
      else M i j := by
  rw [Matrix.mul_apply, ← rot_sum p q hpq c s (fun k => M k j)]

theorem rot_orth (p q : Fin n) (hpq : p ≠ q) (c s : ℝ) (h : c ^ 2 + s ^ 2 = 1) :
    rot p q c s * (rot p q c s)ᵀ = 1 := by
  ext i j
  rw [rot_mul p q hpq]
  simp only [transpose_apply, rot, Matrix.one_apply]
  by_cases hip : i = p
  · subst hip
    by_cases hjp : j = i
    · subst hjp; simp [Ne.symm hpq]; linear_combination h
    · by_cases hjq : j = q
      · subst hjq; simp [hpq, Ne.symm hpq]; ring
      · simp [hjp, hjq, Ne.symm hjp]
  · by_cases hiq : i = q
    · subst hiq
      by_cases hjp : j = p
      · subst hjp; simp [Ne.symm hpq]; ring
      · by_cases hjq : j = i
        · subst hjq; simp [Ne.symm hpq]; linear_combination h
        · simp [hjp, hjq, Ne.symm hjq, hip]
    · by_cases hjp : j = p
      · subst hjp; simp [hip, hiq]
      · by_cases hjq : j = q
        · subst hjq; simp [hip, hiq, hjp]
        · simp [hip, hiq, hjp, hjq, eq_comm]

/-! ### The angle -/

theorem tan_spec (a b c : ℝ) (hb : b ≠ 0) :
    tanTheta a b c * (c - a) = b * (1 - tanTheta a b c ^ 2) := by
  have key : ∀ tau : ℝ, (copysignTau (1 / (|tau| + Real.sqrt (1 + tau * tau))) tau b) ^ 2
      + 2 * tau * copysignTau (1 / (|tau| + Real.sqrt (1 + tau * tau))) tau b = 1 := by
    intro tau
    have hs : Real.sqrt (1 + tau * tau) ^ 2 = 1 + tau * tau :=
      Real.sq_sqrt (by nlinarith [mul_self_nonneg tau])
    have hs0 : 0 < Real.sqrt (1 + tau * tau) :=
      Real.sqrt_pos.2 (by nlinarith [mul_self_nonneg tau])
    have hd : 0 < |tau| + Real.sqrt (1 + tau * tau) := by
      have := abs_nonneg tau; linarith
    have habs : |tau| ^ 2 = tau ^ 2 := sq_abs tau
    have hv : |1 / (|tau| + Real.sqrt (1 + tau * tau))|
        = 1 / (|tau| + Real.sqrt (1 + tau * tau)) := abs_of_pos (by positivity)
    generalize Real.sqrt (1 + tau * tau) = r at *
    have main : (1 / (|tau| + r)) ^ 2 + 2 * |tau| * (1 / (|tau| + r)) = 1 := by
      field_simp
      nlinarith
    rw [copysignTau]
    split_ifs with h
    · rw [hv]
      have : tau = -|tau| := by
        rcases h with h | ⟨h, _⟩
        · rw [abs_of_neg h]; ring
        · rw [h]; simp
      calc (-(1 / (|tau| + r))) ^ 2 + 2 * tau * -(1 / (|tau| + r))
          = (1 / (|tau| + r)) ^ 2 + 2 * (-tau) * (1 / (|tau| + r)) := by ring
        _ = 1 := by
          have h' : -tau = |tau| := by linarith
          rw [h', main]
    · rw [hv]
      have : tau = |tau| := by
        have : ¬ tau < 0 := fun h' => h (Or.inl h')
        rw [abs_of_nonneg (not_lt.1 this)]
      calc (1 / (|tau| + r)) ^ 2 + 2 * tau * (1 / (|tau| + r))
          = (1 / (|tau| + r)) ^ 2 + 2 * |tau| * (1 / (|tau| + r)) := by rw [← this]
        _ = 1 := main
  have h := key ((c - a) / (2 * b))
  rw [tanTheta]
  generalize copysignTau (1 / (|(c - a) / (2 * b)| + Real.sqrt (1 + (c - a) / (2 * b) *
    ((c - a) / (2 * b))))) ((c - a) / (2 * b)) b = t at *
  have e : 2 * ((c - a) / (2 * b)) * b = c - a := by field_simp
  linear_combination b * h - t * e

theorem cos_sq (a b c : ℝ) : cosTheta a b c ^ 2 * (1 + tanTheta a b c ^ 2) = 1 := by
  have h : 0 < 1 + tanTheta a b c * tanTheta a b c := by
    nlinarith [mul_self_nonneg (tanTheta a b c)]
  rw [cosTheta, div_pow, Real.sq_sqrt h.le, one_pow]
  have : 1 + tanTheta a b c ^ 2 = 1 + tanTheta a b c * tanTheta a b c := by ring
  rw [this]
  field_simp

theorem cos_sin (a b c : ℝ) : cosTheta a b c ^ 2 + sinTheta a b c ^ 2 = 1 := by
  have := cos_sq a b c
  rw [sinTheta]
  linear_combination this

/-- One iteration is a similarity transformation. -/
theorem rotateA_sym (p q : Fin n) (hpq : p < q) (A : Mat n) (hb : A p q ≠ 0) :
    sym (rotateA p q A) =
      rot p q (cosTheta (A p p) (A p q) (A q q)) (sinTheta (A p p) (A p q) (A q q)) * sym A *
      (rot p q (cosTheta (A p p) (A p q) (A q q)) (sinTheta (A p p) (A p q) (A q q)))ᵀ := by
  have hne : p ≠ q := hpq.ne
  rw [rotateA]
  have ht := tan_spec (A p p) (A p q) (A q q) hb
  have hc := cos_sq (A p p) (A p q) (A q q)
  have hsin : sinTheta (A p p) (A p q) (A q q)
      = -tanTheta (A p p) (A p q) (A q q) * cosTheta (A p p) (A p q) (A q q) := rfl
  generalize tanTheta (A p p) (A p q) (A q q) = t at *
  generalize cosTheta (A p p) (A p q) (A q q) = c at *
  generalize sinTheta (A p p) (A p q) (A q q) = s at *
  -- the entries of the matrix before the loop
  have e0 : ∀ i j, sym (((A.set p p (A p p - t * A p q)).set q q (A q q + t * A p q)).set p q 0)
      i j = if (i = p ∧ j = q) ∨ (i = q ∧ j = p) then 0
        else if i = q ∧ j = q then A q q + t * A p q
        else if i = p ∧ j = p then A p p - t * A p q else sym A i j := by
    intro i j
    have h1 := sym_set ((A.set p p (A p p - t * A p q)).set q q (A q q + t * A p q)) p q 0 i j
    rw [min_eq_left hpq.le, max_eq_right hpq.le] at h1
    have h2 := sym_set (A.set p p (A p p - t * A p q)) q q (A q q + t * A p q) i j
    rw [min_self, max_self] at h2
    simp only [or_self] at h2
    have h3 := sym_set A p p (A p p - t * A p q) i j
    rw [min_self, max_self] at h3
    simp only [or_self] at h3
    rw [h1, h2, h3]
  obtain ⟨f1, f2⟩ := rotateFold_sym p q hne c s (List.finRange n) (List.nodup_finRange n)
    (((A.set p p (A p p - t * A p q)).set q q (A q q + t * A p q)).set p q 0)
  have e1 : ∀ i r, i ≠ p → i ≠ q → sym (((A.set p p (A p p - t * A p q)).set q q
      (A q q + t * A p q)).set p q 0) i r = sym A i r := by
    intro i r h1 h2
    rw [e0]
    simp [h1, h2]
  ext i j
  rw [mul_rotT p q hne]
  simp only [rot_mul p q hne]
  have Spq : sym A p q = A p q := sym_lt A hpq
  have Sqp : sym A q p = A p q := by rw [sym_comm, Spq]
  have Spp := sym_self A p
  have Sqq := sym_self A q
  subst hsin
  by_cases hip : i = p
  · subst hip
    by_cases hjp : j = i
    · subst hjp
      rw [f2 _ _ (by simp) (by simp), e0]
      simp only [hne, and_false, false_and, or_self, if_false, if_true, and_self,
        Spq, Sqp, Spp, Sqq]
      linear_combination -(t * c ^ 2) * ht - (A j j - t * A j q) * hc
    · by_cases hjq : j = q
      · subst hjq
        rw [f2 _ _ (by simp) (by simp), e0]
        simp only [hne, Ne.symm hne, and_self, true_or, if_true, if_false,
          Spq, Sqp, Spp, Sqq]
        linear_combination c ^ 2 * ht
      · rw [sym_comm, (f1 j (List.mem_finRange j) hjp hjq).1, e1 _ _ hjp hjq, e1 _ _ hjp hjq]
        simp only [hjp, hjq, if_false, if_true]
        rw [sym_comm A j i, sym_comm A j q]
  · by_cases hiq : i = q
    · subst hiq
      by_cases hjp : j = p
      · subst hjp
        rw [f2 _ _ (by simp) (by simp), e0]
        simp only [hne, Ne.symm hne, and_self, or_true, if_true, if_false,
          Spq, Sqp, Spp, Sqq]
        linear_combination c ^ 2 * ht
      · by_cases hjq : j = i
        · subst hjq
          rw [f2 _ _ (by simp) (by simp), e0]
          simp only [Ne.symm hne, and_false, false_and, or_self, if_false, if_true, and_self,
            Spq, Sqp, Spp, Sqq]
          linear_combination (t * c ^ 2) * ht - (A j j + t * A p j) * hc
        · rw [sym_comm, (f1 j (List.mem_finRange j) hjp hjq).2, e1 _ _ hjp hjq, e1 _ _ hjp hjq]
          simp only [hjp, hjq, hip, if_false, if_true]
          rw [sym_comm A j i, sym_comm A j p]
    · by_cases hjp : j = p
      · subst hjp
        rw [(f1 i (List.mem_finRange i) hip hiq).1, e1 _ _ hip hiq, e1 _ _ hip hiq]
        simp only [hip, hiq, if_false, if_true]
      · by_cases hjq : j = q
        · subst hjq
          rw [(f1 i (List.mem_finRange i) hip hiq).2, e1 _ _ hip hiq, e1 _ _ hip hiq]
          simp only [hip, hiq, hjp, if_false, if_true]
        · rw [f2 _ _ (by simp [hjp, hjq]) (by simp [hip, hiq]), e1 _ _ hip hiq]
          simp only [hip, hiq, hjp, hjq, if_false]

theorem rotateUFold (p q : Fin n) (hpq : p ≠ q) (c s : ℝ) (l : List (Fin n)) (hl : l.Nodup)
    (U : Mat n) (i j : Fin n) :
    l.foldl (fun U i => (Mat.set U i p (c * U i p + s * U i q)).set i q (-s * U i p + c * U i q)) U
        i j =
      if i ∈ l then
        (if j = p then c * U i p + s * U i q else if j = q then -s * U i p + c * U i q else U i j)
      else U i j := by
  induction l generalizing U with
  | nil => simp
  | cons k l ih =>
    obtain ⟨hk, hl⟩ := List.nodup_cons.1 hl
    rw [List.foldl_cons, ih hl]
    by_cases hik : i = k
    · subst hik
      rw [if_neg hk, if_pos (by simp)]
      simp only [Mat.set, true_and]
      by_cases hjp : j = p
      · subst hjp; simp [hpq]
      · by_cases hjq : j = q
        · subst hjq; simp [hjp]
        · simp [hjp, hjq]
    · have e : ∀ r, (Mat.set U k p (c * U k p + s * U k q)).set k q (-s * U k p + c * U k q) i r
          = U i r := by
        intro r; simp [Mat.set, hik]
      simp only [e, List.mem_cons, hik, false_or]

theorem rotateU_eq (p q : Fin n) (hpq : p ≠ q) (c s : ℝ) (U : Mat n) :
    rotateU p q c s U = (U : Matrix (Fin n) (Fin n) ℝ) * (rot p q c s)ᵀ := by
  ext i j
  rw [mul_rotT p q hpq, rotateU, rotateUFold p q hpq c s _ (List.nodup_finRange n),
    if_pos (List.mem_finRange i)]

/-! ### The largest entry -/

theorem mem_upperTriangle (i j : Fin n) : (i, j) ∈ upperTriangle n ↔ i < j := by
  simp only [upperTriangle, List.mem_flatMap, List.mem_map, List.mem_filter,
    List.mem_finRange, true_and, decide_eq_true_eq]
  constructor
  · rintro ⟨a, b, h, e⟩
    simp only [Prod.mk.injEq] at e
    rw [← e.1, ← e.2]; exact h
  · intro h
    exact ⟨i, j, h, rfl⟩

theorem argmaxFold (A : Mat n) (l : List (Fin n × Fin n)) (s : ℝ × Option (Fin n × Fin n))
    (hs : 0 ≤ s.1) (hs' : ∀ ij, s.2 = some ij → s.1 = |A ij.1 ij.2| ∧ ij.1 < ij.2)
    (hn : s.2 = none → s.1 = 0) (hl : ∀ ij ∈ l, ij.1 < ij.2) :
    0 ≤ (l.foldl (argmaxStep A) s).1 ∧
    s.1 ≤ (l.foldl (argmaxStep A) s).1 ∧
    (∀ ij ∈ l, |A ij.1 ij.2| ≤ (l.foldl (argmaxStep A) s).1) ∧
    (∀ ij, (l.foldl (argmaxStep A) s).2 = some ij →
      (l.foldl (argmaxStep A) s).1 = |A ij.1 ij.2| ∧ ij.1 < ij.2) ∧
    ((l.foldl (argmaxStep A) s).2 = none → (l.foldl (argmaxStep A) s).1 = 0) := by
  induction l generalizing s with
  | nil => exact ⟨hs, le_rfl, fun ij h => by simp at h, hs', hn⟩
  | cons k l ih =>
    rw [List.foldl_cons]
    have hle : s.1 ≤ (argmaxStep A s k).1 ∧ |A k.1 k.2| ≤ (argmaxStep A s k).1 := by
      rw [argmaxStep]
      split_ifs with h
      · exact ⟨h.le, le_rfl⟩
      · exact ⟨le_rfl, not_lt.1 h⟩
    obtain ⟨a, b, c, d, e⟩ := ih (argmaxStep A s k) (hs.trans hle.1)
      (fun ij h => by
        rw [argmaxStep] at h ⊢
        split_ifs at h ⊢ with h'
        · simp only [Option.some.injEq] at h
          subst h
          exact ⟨rfl, hl k (by simp)⟩
        · exact hs' ij h)
      (fun h => by
        rw [argmaxStep] at h ⊢
        split_ifs at h ⊢ with h'
        · exact hn h)
      (fun ij h => hl ij (List.mem_cons_of_mem _ h))
    refine ⟨a, hle.1.trans b, fun ij h => ?_, d, e⟩
    rcases List.mem_cons.1 h with rfl | h
    · exact hle.2.trans b
    · exact c ij h

theorem argmax_spec (A : Mat n) :
    (∀ i j, i < j → |A i j| ≤ (argmaxUpper A).1) ∧
    (∀ p q, (argmaxUpper A).2 = some (p, q) → (argmaxUpper A).1 = |A p q| ∧ p < q) ∧
    ((argmaxUpper A).2 = none → (argmaxUpper A).1 = 0) := by
  obtain ⟨_, _, c, d, e⟩ := argmaxFold A (upperTriangle n) (0, none) le_rfl
    (fun ij h => by simp at h) (fun _ => rfl) (fun ij h => (mem_upperTriangle ij.1 ij.2).1 h)
  exact ⟨fun i j h => c (i, j) ((mem_upperTriangle i j).2 h), fun p q h => d (p, q) h, e⟩

end ArborX.Interp
