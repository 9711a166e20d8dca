import Verif.Interp.Echelon
import Mathlib.LinearAlgebra.Dimension.OrzechProperty
import Mathlib.LinearAlgebra.FiniteDimensional.Lemmas
import Mathlib.LinearAlgebra.LinearIndependent.Lemmas
import Mathlib.Tactic.Linarith
import Mathlib.Data.Fintype.Basic
import Mathlib.Tactic.FinCases

/-!
# What the row echelon form says about the monomials (C51)

When the search of the pivot never falls back to row 0 (see `rowEchelon_defect` for what happens then), the rows that are kept are independent and every
other row is a combination of them up to the tolerance.
-/

namespace ArborX.Interp

variable {n : ℕ} {K : Type} [Field K] [LinearOrder K] [IsStrictOrderedRing K]

/-- In the run of `rowEchelon` from this state the search of the pivot returns a row from `pivot_row` on, or an entry below the tolerance. -/
def NoFallback (tol : K) : (todo row : ℕ) → (M : Matrix (Fin n) (Fin n) K) → Prop
  | 0, _, _ => True
  | todo + 1, row, M =>
    if h : row < n ∧ n - (todo + 1) < n then
      let r : Fin n := ⟨row, h.1⟩
      let c : Fin n := ⟨n - (todo + 1), h.2⟩
      let i := findPivot M row c ⟨0, by omega⟩
      if |M i c| < tol then NoFallback tol todo row M
      else row ≤ (i : ℕ) ∧ NoFallback tol todo (row + 1) (eliminateBelow (swapRows M r i) r c)
    else True

omit [IsStrictOrderedRing K] in
lemma pivot_fold_max (f : Fin n → K) (l : List (Fin n)) (s : Fin n × K) (hs : s.2 = f s.1 ∨ (s.2 = 0 ∧ 0 ≤ f s.1)) :
    let t := l.foldl (fun s i => if f i > s.2 then (i, f i) else s) s
    s.2 ≤ t.2 ∧ (∀ i ∈ l, f i ≤ t.2) ∧ t.2 ≤ f t.1 := by
  induction l generalizing s with
  | nil =>
    refine ⟨le_rfl, fun i hi => by simp at hi, ?_⟩
    rcases hs with h | ⟨h1, h2⟩
    · exact h.le
    · rw [List.foldl_nil, h1]; exact h2
  | cons a l ih =>
    simp only [List.foldl_cons]
    by_cases h : f a > s.2
    · rw [if_pos h]
      obtain ⟨h1, h2, h3⟩ := ih (a, f a) (.inl rfl)
      refine ⟨h.le.trans h1, ?_, h3⟩
      intro i hi
      rcases List.mem_cons.mp hi with rfl | hi
      · exact h1
      · exact h2 i hi
    · rw [if_neg h]
      obtain ⟨h1, h2, h3⟩ := ih s hs
      refine ⟨h1, ?_, h3⟩
      intro i hi
      rcases List.mem_cons.mp hi with rfl | hi
      · exact (not_lt.mp h).trans h1
      · exact h2 i hi

/-- The entry found is the largest from the row on. -/
lemma findPivot_max (M : Matrix (Fin n) (Fin n) K) (row : ℕ) (c z a : Fin n) (ha : row ≤ (a : ℕ)) : |M a c| ≤ |M (findPivot M row c z) c| := by
  obtain ⟨-, h2, h3⟩ := pivot_fold_max (fun i => |M i c|) ((List.finRange n).filter fun i : Fin n => decide (row ≤ (i : ℕ))) (z, 0)
    (.inr ⟨rfl, abs_nonneg _⟩)
  exact (h2 a (List.mem_filter.mpr ⟨List.mem_finRange a, decide_eq_true ha⟩)).trans h3

/-- The state of `rowEchelonForm` on the matrix `A`: `T` are the rows as full row operations would make them, `L` the factors, `p` the columns of the
pivots. -/
structure Ech (tol : K) (A : Matrix (Fin n) (Fin n) K) (row c : ℕ) (M : Matrix (Fin n) (Fin n) K) (perm : Fin n → Fin n)
    (T : Fin n → Fin n → K) (L : Fin n → Fin n → K) (p : Fin n → Fin n) : Prop where
  rows : ∀ i b, T i b = A (perm i) b - ∑ j, L i j * A (perm j) b
  lower : ∀ i j, L i j ≠ 0 → (j : ℕ) < row ∧ j < i
  right : ∀ i : Fin n, row ≤ (i : ℕ) → ∀ b : Fin n, c ≤ (b : ℕ) → T i b = M i b
  left : ∀ i : Fin n, row ≤ (i : ℕ) → ∀ b : Fin n, (b : ℕ) < c → |T i b| ≤ 2 ^ row * tol
  small : ∀ i : Fin n, row ≤ (i : ℕ) → ∀ b : Fin n, (b : ℕ) < c → |M i b| < tol
  pivot : ∀ i : Fin n, (i : ℕ) < row → i ≤ p i ∧ tol ≤ |M i (p i)| ∧ T i (p i) = M i (p i) ∧ (p i : ℕ) < c
  zero : ∀ i : Fin n, (i : ℕ) < row → ∀ a, i < a → T a (p i) = 0
  le : row ≤ c

variable {tol : K} {A M : Matrix (Fin n) (Fin n) K} {perm : Fin n → Fin n} {T L : Fin n → Fin n → K} {p : Fin n → Fin n} {row c : ℕ}

lemma Ech.skip (htol : 0 < tol) (h : Ech tol A row c M perm T L p) (hc : c < n)
    (hs : ∀ i : Fin n, row ≤ (i : ℕ) → |M i ⟨c, hc⟩| < tol) : Ech tol A row (c + 1) M perm T L p where
  rows := h.rows
  lower := h.lower
  right i hi b hb := h.right i hi b (by omega)
  left i hi b hb := by
    rcases Nat.lt_or_ge b c with hb' | hb'
    · exact h.left i hi b hb'
    · obtain rfl : b = ⟨c, hc⟩ := Fin.ext (by show (b : ℕ) = c; omega)
      rw [h.right i hi _ le_rfl]
      refine (hs i hi).le.trans ?_
      exact le_mul_of_one_le_left htol.le (one_le_pow₀ one_le_two)
  small i hi b hb := by
    rcases Nat.lt_or_ge b c with hb' | hb'
    · exact h.small i hi b hb'
    · obtain rfl : b = ⟨c, hc⟩ := Fin.ext (by show (b : ℕ) = c; omega)
      exact hs i hi
  pivot i hi := by
    obtain ⟨h1, h2, h3, h4⟩ := h.pivot i hi
    exact ⟨h1, h2, h3, by omega⟩
  zero := h.zero
  le := by have := h.le; omega

omit [IsStrictOrderedRing K] in
lemma Ech.swap (h : Ech tol A row c M perm T L p) (r i : Fin n) (hr : (r : ℕ) = row) (hi : row ≤ (i : ℕ)) :
    Ech tol A row c (swapRows M r i) (swapPerm perm i r) (fun a => T (Equiv.swap r i a)) (fun a => L (Equiv.swap r i a)) p := by
  have hge : ∀ a : Fin n, row ≤ (a : ℕ) → row ≤ (Equiv.swap r i a : ℕ) := by
    intro a ha
    rw [Equiv.swap_apply_def]
    split_ifs <;> omega
  have hlt : ∀ a : Fin n, (a : ℕ) < row → Equiv.swap r i a = a := by
    intro a ha
    refine Equiv.swap_apply_of_ne_of_ne ?_ ?_ <;> (intro e; subst e; omega)
  refine ⟨?_, ?_, ?_, ?_, ?_, ?_, ?_, h.le⟩
  · intro a b
    rw [swapPerm_eq, h.rows]
    congr 1
    refine Finset.sum_congr rfl fun j _ => ?_
    by_cases hL : L (Equiv.swap r i a) j = 0
    · rw [hL, zero_mul, zero_mul]
    · rw [Function.comp, hlt j (h.lower _ _ hL).1]
  · intro a j hL
    obtain ⟨h1, h2⟩ := h.lower _ _ hL
    refine ⟨h1, ?_⟩
    by_cases ha : (a : ℕ) < row
    · rwa [hlt a ha] at h2
    · exact Fin.lt_def.mpr (by omega)
  · intro a ha b hb
    rw [swapRows_eq]
    exact h.right _ (hge a ha) b hb
  · intro a ha b hb
    exact h.left _ (hge a ha) b hb
  · intro a ha b hb
    rw [swapRows_eq]
    exact h.small _ (hge a ha) b hb
  · intro a ha
    obtain ⟨h1, h2, h3, h4⟩ := h.pivot a ha
    refine ⟨h1, ?_, ?_, h4⟩
    · rw [swapRows_eq, hlt a ha]; exact h2
    · rw [swapRows_eq]
      show T (Equiv.swap r i a) (p a) = _
      rw [hlt a ha]; exact h3
  · intro a ha b hb
    refine h.zero a ha _ ?_
    by_cases hb' : (b : ℕ) < row
    · rw [hlt b hb']; exact hb
    · have := hge b (by omega)
      exact Fin.lt_def.mpr (by omega)

lemma Ech.eliminate (htol : 0 < tol) (h : Ech tol A row c M perm T L p) (r cc : Fin n) (hr : (r : ℕ) = row) (hcc : (cc : ℕ) = c)
    (hpiv : tol ≤ |M r cc|) (hmax : ∀ a : Fin n, row ≤ (a : ℕ) → |M a cc| ≤ |M r cc|) :
    Ech tol A (row + 1) (c + 1) (eliminateBelow M r cc) perm
      (fun a b => if r < a then T a b - M a cc / M r cc * T r b else T a b)
      (fun a j => if r < a then L a j + M a cc / M r cc * ((if j = r then 1 else 0) - L r j) else L a j)
      (fun a => if a = r then cc else p a) := by
  have hne : M r cc ≠ 0 := by
    intro e
    rw [e, abs_zero] at hpiv
    exact absurd hpiv (not_le.mpr htol)
  have hf : ∀ a : Fin n, row ≤ (a : ℕ) → |M a cc / M r cc| ≤ 1 := by
    intro a ha
    rw [abs_div]
    exact div_le_one_of_le₀ (hmax a ha) (abs_nonneg _)
  have hLrr : L r r = 0 := by
    by_contra hh
    exact lt_irrefl _ (h.lower _ _ hh).2
  refine ⟨?_, ?_, ?_, ?_, ?_, ?_, ?_, by have := h.le; omega⟩
  · intro a b
    split_ifs with ha
    · rw [h.rows a b, h.rows r b]
      have : ∑ j, (L a j + M a cc / M r cc * ((if j = r then 1 else 0) - L r j)) * A (perm j) b
          = ∑ j, L a j * A (perm j) b + M a cc / M r cc * (A (perm r) b - ∑ j, L r j * A (perm j) b) := by
        have e1 : A (perm r) b = ∑ j, (if j = r then (1 : K) else 0) * A (perm j) b := by
          simp [ite_mul]
        rw [e1, ← Finset.sum_sub_distrib, Finset.mul_sum, ← Finset.sum_add_distrib]
        refine Finset.sum_congr rfl fun j _ => ?_
        ring
      rw [this]; ring
    · exact h.rows a b
  · intro a j hL
    split_ifs at hL with ha hj
    · subst hj
      exact ⟨by omega, ha⟩
    · have : L a j ≠ 0 ∨ L r j ≠ 0 := by
        by_contra hh
        push Not at hh
        rw [hh.1, hh.2] at hL
        simp at hL
      rcases this with h1 | h1
      · have := h.lower _ _ h1
        exact ⟨by omega, this.2⟩
      · have := h.lower _ _ h1
        exact ⟨by omega, this.2.trans ha⟩
    · have := h.lower _ _ hL
      exact ⟨by omega, this.2⟩
  · intro a ha b hb
    have hra : r < a := Fin.lt_def.mpr (by omega)
    rw [if_pos hra, eliminateBelow, if_pos hra, if_neg (by intro e; subst e; omega), if_pos (Fin.lt_def.mpr (by omega)),
      h.right a (by omega) b (by omega), h.right r (by omega) b (by omega)]
    ring
  · intro a ha b hb
    have hra : r < a := Fin.lt_def.mpr (by omega)
    rw [if_pos hra]
    rcases Nat.lt_or_ge b c with hb' | hb'
    · have h1 := h.left a (by omega) b hb'
      have h2 := h.left r (by omega) b hb'
      have h3 : |M a cc / M r cc * T r b| ≤ 2 ^ row * tol := by
        rw [abs_mul]
        calc _ ≤ 1 * (2 ^ row * tol) := mul_le_mul (hf a (by omega)) h2 (abs_nonneg _) zero_le_one
          _ = _ := one_mul _
      calc _ ≤ |T a b| + |M a cc / M r cc * T r b| := abs_sub _ _
        _ ≤ 2 ^ row * tol + 2 ^ row * tol := add_le_add h1 h3
        _ = 2 ^ (row + 1) * tol := by rw [pow_succ]; ring
    · obtain rfl : b = cc := Fin.ext (by omega)
      rw [h.right a (by omega) b (by omega), h.right r (by omega) b (by omega), div_mul_cancel₀ _ hne, sub_self, abs_zero]
      exact mul_nonneg (pow_nonneg zero_le_two _) htol.le
  · intro a ha b hb
    have hra : r < a := Fin.lt_def.mpr (by omega)
    rw [eliminateBelow, if_pos hra]
    rcases Nat.lt_or_ge b c with hb' | hb'
    · rw [if_neg (by intro e; subst e; omega), if_neg (by rw [Fin.lt_def]; omega)]
      exact h.small a (by omega) b hb'
    · rw [if_pos (Fin.ext (by omega)), abs_zero]; exact htol
  · intro a ha
    have hra : ¬ r < a := by rw [Fin.lt_def]; omega
    rw [eliminateBelow, if_neg hra, if_neg hra]
    by_cases e : a = r
    · subst e
      rw [if_pos rfl]
      exact ⟨Fin.le_def.mpr (by have := h.le; omega), hpiv, h.right a (by omega) cc (by omega), by omega⟩
    · rw [if_neg e]
      obtain ⟨h1, h2, h3, h4⟩ := h.pivot a (by have : (a : ℕ) ≠ r := fun e' => e (Fin.ext e'); omega)
      exact ⟨h1, h2, h3, by omega⟩
  · intro a ha b hb
    by_cases e : a = r
    · subst e
      rw [if_pos rfl, if_pos hb, h.right b (by have := Fin.lt_def.mp hb; omega) cc (by omega), h.right a (by omega) cc (by omega),
        div_mul_cancel₀ _ hne, sub_self]
    · have ha' : (a : ℕ) < row := by have : (a : ℕ) ≠ r := fun e' => e (Fin.ext e'); omega
      rw [if_neg e]
      split_ifs with hrb
      · rw [h.zero a ha' b hb, h.zero a ha' r (Fin.lt_def.mpr (by omega)), mul_zero, sub_self]
      · exact h.zero a ha' b hb

lemma rowEchelon_ech (htol : 0 < tol) (todo : ℕ) : ∀ (row : ℕ) (M : Matrix (Fin n) (Fin n) K) (perm : Fin n → Fin n) (T L : Fin n → Fin n → K)
    (p : Fin n → Fin n), todo ≤ n → Ech tol A row (n - todo) M perm T L p → NoFallback tol todo row M →
    ∀ e, rowEchelon tol todo row M perm = some e →
    ∃ row' c' T' L' p', Ech tol A row' c' e.1 e.2 T' L' p' ∧ (c' = n ∨ n ≤ row') := by
  induction todo with
  | zero =>
    intro row M perm T L p _ h _ e he
    rw [rowEchelon, Option.some.injEq] at he
    subst he
    exact ⟨row, _, T, L, p, h, .inl (by omega)⟩
  | succ todo ih =>
    intro row M perm T L p hle h hno e he
    rw [rowEchelon] at he
    rw [NoFallback] at hno
    split at he
    · rename_i hlt
      rw [dif_pos hlt] at hno
      dsimp only at he hno
      generalize hi : findPivot M row ⟨n - (todo + 1), hlt.2⟩ ⟨0, by omega⟩ = i at he hno
      have hmax : ∀ a : Fin n, row ≤ (a : ℕ) → |M a ⟨n - (todo + 1), hlt.2⟩| ≤ |M i ⟨n - (todo + 1), hlt.2⟩| := by
        intro a ha
        rw [← hi]
        exact findPivot_max M row _ _ a ha
      have hc : n - (todo + 1) + 1 = n - todo := by omega
      by_cases hsk : |M i ⟨n - (todo + 1), hlt.2⟩| < tol
      · rw [if_pos hsk] at he hno
        have := h.skip htol hlt.2 (fun a ha => (hmax a ha).trans_lt hsk)
        rw [hc] at this
        exact ih row M perm T L p (by omega) this hno e he
      · rw [if_neg hsk] at he hno
        split at he
        · exact absurd he (by simp)
        · have hsw := h.swap ⟨row, hlt.1⟩ i rfl hno.1
          have hMr : swapRows M ⟨row, hlt.1⟩ i ⟨row, hlt.1⟩ = M i := by
            funext b
            rw [swapRows, if_pos rfl]
          have := hsw.eliminate htol ⟨row, hlt.1⟩ ⟨n - (todo + 1), hlt.2⟩ rfl rfl (by rw [hMr]; exact not_lt.mp hsk) (by
            intro a ha
            rw [hMr, swapRows_eq]
            refine hmax _ ?_
            rw [Equiv.swap_apply_def]
            split_ifs
            · exact hno.1
            · exact le_rfl
            · exact ha)
          rw [hc] at this
          exact ih (row + 1) _ _ _ _ _ (by omega) this hno.2 e he
    · rename_i hlt
      rw [Option.some.injEq] at he
      subst he
      refine ⟨row, _, T, L, p, h, ?_⟩
      rcases Nat.lt_or_ge row n with hr | hr
      · exact absurd ⟨hr, by omega⟩ hlt
      · exact .inr hr

/-! ## Property theorem -/

omit [IsStrictOrderedRing K] in
lemma rowMax_lt (htol : 0 < tol) (M : Matrix (Fin n) (Fin n) K) (i : Fin n) (h : ∀ j, |M i j| < tol) : rowMax M i < tol := by
  unfold rowMax
  generalize (List.finRange n).filter (fun j : Fin n => decide (i ≤ j)) = l
  suffices ∀ m < tol, l.foldl (fun m j => if |M i j| > m then |M i j| else m) m < tol from this 0 htol
  induction l with
  | nil => exact fun m hm => hm
  | cons a l ih =>
    intro m hm
    rw [List.foldl_cons]
    refine ih _ ?_
    split_ifs
    · exact h a
    · exact hm

/-- **C51.** If the search of the pivot never falls back to row 0, then the rows of the moment matrix that belong to the monomials that are kept are
linearly independent, and each of the others is a combination of them, up to `2 ^ n` times the tolerance in each entry. -/
theorem rowEchelon_independent (tol : K) (htol : 0 < tol) (A : Matrix (Fin n) (Fin n) K) (hno : NoFallback tol n 0 A) (e)
    (he : rowEchelon tol n 0 A id = some e) :
    LinearIndependent K (fun r : {r // ¬ Dropped tol e.1 e.2 (List.finRange n) r} => A r) ∧
    ∀ r, Dropped tol e.1 e.2 (List.finRange n) r → ∃ a : Fin n → K, (∀ j, a j ≠ 0 → ¬ Dropped tol e.1 e.2 (List.finRange n) j) ∧
      ∀ b, |A r b - ∑ j, a j * A j b| ≤ 2 ^ n * tol := by
  have hinj := rowEchelon_perm tol _ _ _ _ Function.injective_id _ he
  have hbij : Function.Bijective e.2 := Finite.injective_iff_bijective.mp hinj
  obtain ⟨row, c, T, L, p, h, hend⟩ := rowEchelon_ech (A := A) htol n 0 A id (fun i => A i) 0 id le_rfl
    ⟨fun i b => by simp, fun i j hh => absurd rfl hh, fun i _ b _ => rfl, fun i _ b hb => by omega, fun i _ b hb => by omega,
      fun i hi => absurd hi (Nat.not_lt_zero _), fun i hi => absurd hi (Nat.not_lt_zero _), Nat.zero_le _⟩ hno e he
  have hdrop : ∀ i, Dropped tol e.1 e.2 (List.finRange n) (e.2 i) ↔ row ≤ (i : ℕ) := by
    intro i
    constructor
    · rintro ⟨i', -, hm, hi'⟩
      rw [hinj hi'] at hm
      by_contra hlt
      obtain ⟨h1, h2, -, -⟩ := h.pivot i (by omega)
      exact absurd (h2.trans (le_rowMax e.1 i (p i) h1)) (not_le.mpr hm)
    · intro hi
      refine ⟨i, List.mem_finRange i, rowMax_lt htol _ _ fun j => h.small i hi j ?_, rfl⟩
      rcases hend with hc | hr
      · rw [hc]; exact j.2
      · have := i.2; omega
  constructor
  · have hT : LinearIndependent K (fun i : {i : Fin n // (i : ℕ) < row} => T i) := by
      rw [Fintype.linearIndependent_iff]
      intro g hg
      by_contra hh
      push Not at hh
      obtain ⟨i0, hi0⟩ := hh
      obtain ⟨m, hm, hmin⟩ := Finset.exists_min_image (Finset.univ.filter fun i : {i : Fin n // (i : ℕ) < row} => g i ≠ 0) (fun i => i.1)
        ⟨i0, by simpa using hi0⟩
      have hgm : g m ≠ 0 := (Finset.mem_filter.mp hm).2
      have hev := congrFun hg (p m.1)
      rw [Finset.sum_apply, Finset.sum_eq_single m] at hev
      · obtain ⟨-, h2, h3, -⟩ := h.pivot m.1 m.2
        rw [Pi.smul_apply, smul_eq_mul, h3] at hev
        rcases mul_eq_zero.mp hev with h0 | h0
        · exact hgm h0
        · rw [h0, abs_zero] at h2
          exact absurd h2 (not_le.mpr htol)
      · intro b _ hb
        rw [Pi.smul_apply, smul_eq_mul]
        by_cases hgb : g b = 0
        · rw [hgb, zero_mul]
        · have hle := hmin b (by simpa using hgb)
          have hlt : m.1 < b.1 := lt_of_le_of_ne hle (fun e' => hb (Subtype.ext e'.symm))
          rw [h.zero m.1 m.2 b.1 hlt, mul_zero]
      · intro hnot
        exact absurd (Finset.mem_univ _) hnot
    have hspan : ∀ m : ℕ, ∀ i : Fin n, (i : ℕ) < m → (i : ℕ) < row →
        A (e.2 i) ∈ Submodule.span K (Set.range fun i : {i : Fin n // (i : ℕ) < row} => T i) := by
      intro m
      induction m with
      | zero => intro i hi; omega
      | succ m ih =>
        intro i hi hir
        have e1 : A (e.2 i) = T i + ∑ j, L i j • A (e.2 j) := by
          funext b
          rw [Pi.add_apply, h.rows i b, Finset.sum_apply]
          simp only [Pi.smul_apply, smul_eq_mul]
          ring
        rw [e1]
        refine Submodule.add_mem _ (Submodule.subset_span ⟨⟨i, hir⟩, rfl⟩) (Submodule.sum_mem _ fun j _ => ?_)
        by_cases hL : L i j = 0
        · rw [hL, zero_smul]; exact Submodule.zero_mem _
        · obtain ⟨h1, h2⟩ := h.lower i j hL
          exact Submodule.smul_mem _ _ (ih j (by have := Fin.lt_def.mp h2; omega) h1)
    have hA : LinearIndependent K (fun i : {i : Fin n // (i : ℕ) < row} => A (e.2 i)) := by
      rw [linearIndependent_iff_card_le_finrank_span]
      have h1 := linearIndependent_iff_card_eq_finrank_span.mp hT
      rw [h1]
      refine Submodule.finrank_mono (Submodule.span_le.mpr ?_)
      rintro _ ⟨i, rfl⟩
      have e1 : T i.1 = A (e.2 i) - ∑ j, L i.1 j • A (e.2 j) := by
        funext b
        rw [Pi.sub_apply, h.rows i.1 b, Finset.sum_apply]
        simp only [Pi.smul_apply, smul_eq_mul]
      show T i.1 ∈ Submodule.span K _
      rw [e1]
      refine Submodule.sub_mem _ (Submodule.subset_span ⟨i, rfl⟩) (Submodule.sum_mem _ fun j _ => ?_)
      by_cases hL : L i.1 j = 0
      · rw [hL, zero_smul]; exact Submodule.zero_mem _
      · exact Submodule.smul_mem _ _ (Submodule.subset_span ⟨⟨j, (h.lower _ _ hL).1⟩, rfl⟩)
    let f : {r // ¬ Dropped tol e.1 e.2 (List.finRange n) r} → {i : Fin n // (i : ℕ) < row} := fun r =>
      ⟨(Equiv.ofBijective e.2 hbij).symm r, by
        by_contra hh
        refine r.2 ?_
        have := (hdrop ((Equiv.ofBijective e.2 hbij).symm r)).mpr (by omega)
        rwa [show e.2 ((Equiv.ofBijective e.2 hbij).symm r) = r from Equiv.apply_symm_apply (Equiv.ofBijective e.2 hbij) _] at this⟩
    have hf : Function.Injective f := by
      intro r s hrs
      have := congrArg Subtype.val hrs
      exact Subtype.ext ((Equiv.ofBijective e.2 hbij).symm.injective this)
    have := hA.comp f hf
    convert this using 2 with r
    exact (congrArg A (Equiv.apply_symm_apply (Equiv.ofBijective e.2 hbij) _)).symm
  · intro r hr
    obtain ⟨i, rfl⟩ := hbij.2 r
    have hi := (hdrop i).mp hr
    refine ⟨fun j => L i ((Equiv.ofBijective e.2 hbij).symm j), fun j hj => ?_, fun b => ?_⟩
    · obtain ⟨h1, -⟩ := h.lower _ _ hj
      have := (hdrop ((Equiv.ofBijective e.2 hbij).symm j)).not.mpr (by omega)
      rwa [show e.2 ((Equiv.ofBijective e.2 hbij).symm j) = j from Equiv.apply_symm_apply (Equiv.ofBijective e.2 hbij) _] at this
    · have hs : ∑ j, L i ((Equiv.ofBijective e.2 hbij).symm j) * A j b = ∑ j, L i j * A (e.2 j) b := by
        rw [← Equiv.sum_comp (Equiv.ofBijective e.2 hbij)]
        refine Finset.sum_congr rfl fun j _ => ?_
        rw [Equiv.symm_apply_apply]
        rfl
      rw [hs, ← h.rows]
      have hb : (b : ℕ) < c := by
        rcases hend with hc | hr
        · rw [hc]; exact b.2
        · have := i.2; omega
      refine (h.left i hi b hb).trans ?_
      refine mul_le_mul_of_nonneg_right (pow_le_pow_right₀ one_le_two ?_) htol.le
      have := i.2
      omega

/-- **C51** (consequence).  For the moment matrix of values `P` of monomials at sources with weights `phi`, the kept monomials are independent on the
sources: the only combination of them that is zero at every source is zero. -/
theorem rowEchelon_sources {k : ℕ} (tol : K) (htol : 0 < tol) (phi : Fin k → K) (P : Fin k → Fin n → K)
    (A : Matrix (Fin n) (Fin n) K) (hA : ∀ i j, A i j = ∑ nb, P nb i * P nb j * phi nb) (hno : NoFallback tol n 0 A) (e)
    (he : rowEchelon tol n 0 A id = some e) (a : Fin n → K) (ha : ∀ i, Dropped tol e.1 e.2 (List.finRange n) i → a i = 0)
    (hzero : ∀ nb, ∑ i, a i * P nb i = 0) : a = 0 := by
  classical
  have hl := (rowEchelon_independent tol htol A hno e he).1
  rw [Fintype.linearIndependent_iff] at hl
  have key : ∑ r : {r // ¬ Dropped tol e.1 e.2 (List.finRange n) r}, a r • A r = 0 := by
    have h1 : ∑ r : {r // ¬ Dropped tol e.1 e.2 (List.finRange n) r}, a r • A r = ∑ r, a r • A r := by
      rw [← Finset.sum_subtype (Finset.univ.filter fun r => ¬ Dropped tol e.1 e.2 (List.finRange n) r) (fun x => by simp) (fun r => a r • A r)]
      refine Finset.sum_filter_of_ne fun x _ hx hd => hx ?_
      rw [ha x hd, zero_smul]
    rw [h1]
    funext b
    rw [Finset.sum_apply]
    simp only [Pi.smul_apply, smul_eq_mul, hA, Finset.mul_sum]
    rw [Finset.sum_comm]
    refine Finset.sum_eq_zero fun nb _ => ?_
    calc ∑ i, a i * (P nb i * P nb b * phi nb) = (∑ i, a i * P nb i) * (P nb b * phi nb) := by
          rw [Finset.sum_mul]
          exact Finset.sum_congr rfl fun i _ => by ring
      _ = 0 := by rw [hzero nb, zero_mul]
  funext r
  by_cases hr : Dropped tol e.1 e.2 (List.finRange n) r
  · exact ha r hr
  · exact hl (fun r => a r) key ⟨r, hr⟩

/-! ### The hypotheses are met: sources on a line of the plane -/

instance decNoFallback (tol : K) : (todo row : ℕ) → (M : Matrix (Fin n) (Fin n) K) → Decidable (NoFallback tol todo row M)
  | 0, _, _ => .isTrue trivial
  | todo + 1, row, M => by
    have h1 := fun row M => decNoFallback tol todo row M
    unfold NoFallback
    dsimp only
    infer_instance

/-- The values of `1, x, y` at the sources `(-1, -1), (0, 0), (1, 1)`. -/
def lineValues : Fin 3 → Fin 3 → ℚ := ![![1, -1, -1], ![1, 0, 0], ![1, 1, 1]]

/-- Their moment matrix for weights 1. -/
def lineMoment : Matrix (Fin 3) (Fin 3) ℚ := ![![3, 0, 0], ![0, 2, 2], ![0, 2, 2]]

example : (∀ i j, lineMoment i j = ∑ nb, lineValues nb i * lineValues nb j * 1) ∧ NoFallback (1 / 10 ^ 9) 3 0 lineMoment ∧
    ((rowEchelon (1 / 10 ^ 9) 3 0 lineMoment id).map fun e => (List.finRange 3).filter fun i => decide (rowMax e.1 i < 1 / 10 ^ 9)) = some [2] := by
  refine ⟨fun i j => by fin_cases i <;> fin_cases j <;> decide +kernel, by decide +kernel, by decide +kernel⟩

end ArborX.Interp
