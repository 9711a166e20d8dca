import Verif.Interp.Echelon

/-!
# Moving least squares with a singular moment matrix: linear algebra
-/

namespace ArborX.Interp

open Matrix

variable {n k : ℕ}

/-- More fuel does not change the result. -/
theorem svdLoop_mono (eps : ℝ) (f g : ℕ) (h : f ≤ g) (A U : Mat n) (r)
    (hr : svdLoop eps f A U = some r) : svdLoop eps g A U = some r := by
  induction f generalizing g A U with
  | zero => simp [svdLoop] at hr
  | succ f ih =>
    obtain ⟨g, rfl⟩ : ∃ m, g = m + 1 := ⟨g - 1, by omega⟩
    rw [svdLoop] at hr ⊢
    split
    · rename_i h1; rw [if_pos h1] at hr; exact hr
    · rename_i h1
      rw [if_neg h1] at hr
      generalize (argmaxUpper A).2 = o at hr ⊢
      cases o with
      | none => simp at hr
      | some pq => exact ih g (by omega) _ _ hr

theorem symmetricSVD_mono (eps : ℝ) (f g : ℕ) (h : f ≤ g) (A : Mat n) (r)
    (hr : symmetricSVD eps f A = some r) : symmetricSVD eps g A = some r := by
  rw [symmetricSVD, Option.map_eq_some_iff] at hr ⊢
  obtain ⟨s, hs, rfl⟩ := hr
  exact ⟨s, svdLoop_mono eps f g h _ _ _ hs, rfl⟩

/-- The pseudo-inverse times a matrix that differs from the decomposed one by the tolerance. -/
theorem inverse_bound (eps : ℝ) (heps : 0 ≤ eps) (M : Mat n) (D : Fin n → ℝ)
    (U E : Matrix (Fin n) (Fin n) ℝ) (hU : U * Uᵀ = 1) (hM : M = U * (diagonal D + E) * Uᵀ)
    (hE : ∀ i j, |E i j| ≤ eps) (delta : ℝ) (hdelta : 0 < delta) (hD : ∀ i, delta ≤ D i)
    (htol : ∀ i, tolerance eps D < |D i|) (G : Mat n) (g : ℝ) (hg : ∀ i j, |G i j| ≤ g)
    (z : Fin n) (a : Fin n → ℝ) :
    |((pseudoInverse eps D U * (M + G)) *ᵥ a) z - a z|
      ≤ (n * eps / delta + n * g / delta) * ∑ i, |a i| := by
  have hDpos : ∀ i, 0 < D i := fun i => hdelta.trans_le (hD i)
  have hinv : ∀ j, |1 / D j| ≤ 1 / delta := by
    intro j
    rw [abs_of_pos (one_div_pos.2 (hDpos j))]
    exact one_div_le_one_div_of_le hdelta (hD j)
  have hg0 : 0 ≤ g := (abs_nonneg _).trans (hg z z)
  rw [pseudoInverse_eq eps D U htol, Matrix.mul_add]
  conv_lhs => rw [hM]
  rw [inverse_mul D U E hU fun i => (hDpos i).ne', Matrix.add_mulVec, Matrix.add_mulVec,
    Matrix.one_mulVec, Pi.add_apply, Pi.add_apply, add_assoc, add_sub_cancel_left, add_mul]
  refine (abs_add_le _ _).trans (add_le_add ?_ ?_)
  · refine (mulVec_bound _ (n * (1 / delta * eps)) z (fun i => ?_) a).trans
      (le_of_eq (by ring))
    exact error_entry U hU _ E (1 / delta) eps hinv hE z i
  · refine (mulVec_bound _ (n * (1 / delta * g)) z (fun j => ?_) a).trans (le_of_eq (by ring))
    rw [Matrix.mul_apply]
    have hB : ∀ i, |(U * diagonal (fun i => 1 / D i) * Uᵀ) z i| ≤ 1 / delta := by
      intro i
      rw [Matrix.mul_apply]
      simp only [Matrix.mul_diagonal, Matrix.transpose_apply]
      have hrow : ∀ r, ∑ l, U r l ^ 2 = 1 := by
        intro r
        have := congrFun (congrFun hU r) r
        rw [Matrix.mul_apply, Matrix.one_apply_eq] at this
        rw [← this]
        exact Finset.sum_congr rfl fun k _ => by rw [Matrix.transpose_apply, pow_two]
      calc |∑ l, U z l * (1 / D l) * U i l|
          ≤ ∑ l, 1 / delta * ((U z l ^ 2 + U i l ^ 2) / 2) := by
            refine (Finset.abs_sum_le_sum_abs _ _).trans (Finset.sum_le_sum fun l _ => ?_)
            rw [abs_mul, abs_mul]
            have h1 : |U z l| * |U i l| ≤ (U z l ^ 2 + U i l ^ 2) / 2 := by
              rw [← sq_abs (U z l), ← sq_abs (U i l)]
              nlinarith [sq_nonneg (|U z l| - |U i l|)]
            calc |U z l| * |1 / D l| * |U i l| = |1 / D l| * (|U z l| * |U i l|) := by ring
              _ ≤ 1 / delta * ((U z l ^ 2 + U i l ^ 2) / 2) :=
                mul_le_mul (hinv l) h1 (by positivity) (by positivity)
        _ = 1 / delta := by
            rw [← Finset.mul_sum, ← Finset.sum_div, Finset.sum_add_distrib, hrow, hrow]
            norm_num
    calc |∑ i, (U * diagonal (fun i => 1 / D i) * Uᵀ) z i * G i j|
        ≤ ∑ _i : Fin n, 1 / delta * g := by
          refine (Finset.abs_sum_le_sum_abs _ _).trans (Finset.sum_le_sum fun i _ => ?_)
          rw [abs_mul]
          exact mul_le_mul (hB i) (hg i j) (abs_nonneg _) (by positivity)
      _ = n * (1 / delta * g) := by simp

/-- The diagonal of the decomposition of a moment matrix. -/
theorem moment_diag (phi : Fin k → ℝ) (hphi : ∀ nb, 0 ≤ phi nb) (P : Fin k → Fin n → ℝ)
    (D : Fin n → ℝ) (U E : Matrix (Fin n) (Fin n) ℝ) (hU : U * Uᵀ = 1) (hU' : Uᵀ * U = 1)
    (hM : momentMatrix phi P = U * (diagonal D + E) * Uᵀ) (hE0 : ∀ i, E i i = 0) :
    (∀ i, 0 ≤ D i) ∧ ∑ i, D i = ∑ i, ∑ nb, phi nb * P nb i ^ 2 := by
  constructor
  · intro i
    obtain ⟨h1, _⟩ := diag_quad (momentMatrix phi P) (diagonal D + E) U hU' hM i
    rw [Matrix.add_apply, diagonal_apply_eq, hE0, add_zero, moment_quad] at h1
    rw [h1]
    exact Finset.sum_nonneg fun nb _ => mul_nonneg (hphi nb) (sq_nonneg _)
  · have h1 : (momentMatrix phi P).trace = (diagonal D + E).trace := by
      rw [hM, Matrix.trace_mul_comm, ← Matrix.mul_assoc, hU', Matrix.one_mul]
    have h2 : (diagonal D + E).trace = ∑ i, D i := by
      rw [Matrix.trace]
      exact Finset.sum_congr rfl fun i _ => by
        rw [Matrix.diag, Matrix.add_apply, diagonal_apply_eq, hE0, add_zero]
    rw [← h2, ← h1, Matrix.trace]
    refine Finset.sum_congr rfl fun i _ => ?_
    rw [Matrix.diag, moment_apply]
    exact Finset.sum_congr rfl fun nb _ => by ring

theorem maxEigen_pos (phi : Fin k → ℝ) (hphi : ∀ nb, 0 ≤ phi nb) (P : Fin k → Fin n → ℝ)
    (z : Fin n) (hz : 0 < ∑ nb, phi nb * P nb z ^ 2)
    (D : Fin n → ℝ) (U E : Matrix (Fin n) (Fin n) ℝ) (hU : U * Uᵀ = 1) (hU' : Uᵀ * U = 1)
    (hM : momentMatrix phi P = U * (diagonal D + E) * Uᵀ) (hE0 : ∀ i, E i i = 0) :
    0 < maxEigen D := by
  obtain ⟨h1, h2⟩ := moment_diag phi hphi P D U E hU hU' hM hE0
  by_contra hneg
  have hD0 : ∀ i, D i = 0 := by
    intro i
    have := le_maxEigen D i
    rw [abs_of_nonneg (h1 i)] at this
    exact le_antisymm (this.trans (not_lt.1 hneg)) (h1 i)
  simp only [hD0, Finset.sum_const_zero] at h2
  have : ∑ nb, phi nb * P nb z ^ 2 ≤ ∑ i, ∑ nb, phi nb * P nb i ^ 2 :=
    Finset.single_le_sum (f := fun i => ∑ nb, phi nb * P nb i ^ 2)
      (fun i _ => Finset.sum_nonneg fun nb _ => mul_nonneg (hphi nb) (sq_nonneg _))
      (Finset.mem_univ z)
  linarith

open Classical in
/-- The indices of the basis functions that `solve` keeps: all of them if the moment matrix is
not taken for singular, and otherwise those that are not taken out after the elimination
(MovingLeastSquaresCoefficients.hpp 122-182). -/
noncomputable def keptSet (eps : ℝ) (fuel : ℕ) (phi : Fin k → ℝ) (P : Fin k → Fin n → ℝ) :
    Option (Finset (Fin n)) :=
  (symmetricSVD eps fuel (momentMatrix phi P)).bind fun s =>
    if ∃ i, |s.1 i| ≤ tolerance eps s.1 then
      (rowEchelon (tolerance eps s.1) n 0 (matrixFromSVD s.1 s.2) id).map fun e =>
        Finset.univ.filter fun r =>
          ¬ ∃ i, rowMax e.1 i < tolerance eps s.1 ∧ e.2 i = r
    else some Finset.univ

open Classical in
/-- The decomposition of the reduced matrix. -/
theorem reduced_diag (eps : ℝ) (phi : Fin k → ℝ) (P : Fin k → Fin n → ℝ) (d : Fin n → Prop)
    (F M2 : Mat n) (f : ℝ) (hF : ∀ i j, |F i j| ≤ f)
    (hM2 : ∀ i j, M2 i j = if d i ∨ d j then (if i = j then 1 else 0)
      else momentMatrix phi P i j - F i j)
    (D : Fin n → ℝ) (U E : Matrix (Fin n) (Fin n) ℝ) (hU' : Uᵀ * U = 1)
    (hM : M2 = U * (diagonal D + E) * Uᵀ) (hE0 : ∀ i, E i i = 0)
    (lam Lam : ℝ) (hlam1 : lam ≤ 1) (hLam1 : 1 ≤ Lam)
    (hform : ∀ a : Fin n → ℝ, (∀ i, d i → a i = 0) →
      lam * ∑ i, a i ^ 2 ≤ ∑ nb, phi nb * (∑ i, P nb i * a i) ^ 2 ∧
      ∑ nb, phi nb * (∑ i, P nb i * a i) ^ 2 ≤ Lam * ∑ i, a i ^ 2) (i : Fin n) :
    lam - n * f ≤ D i ∧ D i ≤ Lam + n * f := by
  obtain ⟨h1, h2⟩ := diag_quad M2 (diagonal D + E) U hU' hM i
  rw [Matrix.add_apply, diagonal_apply_eq, hE0, add_zero] at h1
  have hf0 : 0 ≤ f := (abs_nonneg _).trans (hF i i)
  set v : Fin n → ℝ := fun r => if d r then 0 else U r i with hv
  set w : Fin n → ℝ := fun r => if d r then U r i else 0 with hw
  have hsplit : ∑ r, U r i * ∑ s, M2 r s * U s i
      = ∑ r, v r * ∑ s, momentMatrix phi P r s * v s - ∑ r, ∑ s, v r * F r s * v s
        + ∑ r, w r ^ 2 := by
    have : ∀ r s, U r i * (M2 r s * U s i) = v r * (momentMatrix phi P r s * v s)
        - v r * F r s * v s + if r = s then w r ^ 2 else 0 := by
      intro r s
      rw [hM2]
      by_cases hr : d r <;> by_cases hs : d s <;> by_cases hrs : r = s
      · subst hrs; simp [hv, hw, hr]; ring
      · simp [hv, hr, hs, hrs]
      · subst hrs; exact absurd hr hs
      · simp [hv, hr, hs, hrs]
      · subst hrs; exact absurd hs hr
      · simp [hv, hr, hs, hrs]
      · subst hrs; simp [hv, hw, hr]; ring
      · simp [hv, hr, hs, hrs]; ring
    simp only [Finset.mul_sum, this, Finset.sum_add_distrib, Finset.sum_sub_distrib]
    congr 1
    exact Finset.sum_congr rfl fun r _ => by rw [Finset.sum_ite_eq, if_pos (Finset.mem_univ r)]
  have hsq : ∑ r, v r ^ 2 + ∑ r, w r ^ 2 = 1 := by
    rw [← h2, ← Finset.sum_add_distrib]
    refine Finset.sum_congr rfl fun r _ => ?_
    by_cases hr : d r <;> simp [hv, hw, hr]
  have hFv : |∑ r, ∑ s, v r * F r s * v s| ≤ n * f * ∑ r, v r ^ 2 := by
    have hcs := Finset.sum_mul_sq_le_sq_mul_sq Finset.univ (fun _ : Fin n => (1 : ℝ))
      (fun r => |v r|)
    simp only [one_mul, one_pow, Finset.sum_const, Finset.card_univ, Fintype.card_fin,
      nsmul_eq_mul, mul_one, sq_abs] at hcs
    calc |∑ r, ∑ s, v r * F r s * v s| ≤ ∑ r, ∑ s, |v r| * f * |v s| := by
          refine (Finset.abs_sum_le_sum_abs _ _).trans (Finset.sum_le_sum fun r _ => ?_)
          refine (Finset.abs_sum_le_sum_abs _ _).trans (Finset.sum_le_sum fun s _ => ?_)
          rw [abs_mul, abs_mul]
          exact mul_le_mul_of_nonneg_right (mul_le_mul_of_nonneg_left (hF r s) (abs_nonneg _))
            (abs_nonneg _)
      _ = f * (∑ r, |v r|) ^ 2 := by
          rw [pow_two, Finset.sum_mul_sum, Finset.mul_sum]
          refine Finset.sum_congr rfl fun r _ => ?_
          rw [Finset.mul_sum]
          exact Finset.sum_congr rfl fun s _ => by ring
      _ ≤ f * (n * ∑ r, v r ^ 2) := mul_le_mul_of_nonneg_left hcs hf0
      _ = n * f * ∑ r, v r ^ 2 := by ring
  have hv0 : 0 ≤ ∑ r, v r ^ 2 := Finset.sum_nonneg fun r _ => sq_nonneg _
  have hw0 : 0 ≤ ∑ r, w r ^ 2 := Finset.sum_nonneg fun r _ => sq_nonneg _
  obtain ⟨h3, h4⟩ := hform v fun r hr => by simp [hv, hr]
  rw [← moment_quad] at h3 h4
  rw [hsplit] at h1
  have hnf : 0 ≤ n * f := mul_nonneg (Nat.cast_nonneg n) hf0
  rw [abs_le] at hFv
  constructor
  · nlinarith
  · nlinarith

open Classical in
/-- Coefficients are computed for all sources, and they reproduce the combinations of the kept
basis functions up to the tolerance if these are independent on the sources. -/
theorem solve_kept (eps : ℝ) (heps : 0 < eps) (phi : Fin k → ℝ) (hphi : ∀ nb, 0 ≤ phi nb)
    (P : Fin k → Fin n → ℝ) (z : Fin n) (hz : 0 < ∑ nb, phi nb * P nb z ^ 2) :
    ∃ N : ℕ, ∀ fuel ≥ N, ∃ c S, solve eps fuel phi P z = some c ∧
      keptSet eps fuel phi P = some S ∧
      ∀ lam Lam : ℝ, lam ≤ 1 → 1 ≤ Lam →
        (∀ a : Fin n → ℝ, (∀ i, i ∉ S → a i = 0) →
          lam * ∑ i, a i ^ 2 ≤ ∑ nb, phi nb * (∑ i, P nb i * a i) ^ 2 ∧
          ∑ nb, phi nb * (∑ i, P nb i * a i) ^ 2 ≤ Lam * ∑ i, a i ^ 2) →
        n * (Lam + n * (n * eps)) * eps < lam - n * (n * eps) →
        ∀ a : Fin n → ℝ, (∀ i, i ∉ S → a i = 0) →
          |∑ nb, c nb * ∑ i, P nb i * a i - a z|
            ≤ (n + n * n) * eps / (lam - n * (n * eps)) * ∑ i, |a i| := by
  obtain ⟨N1, hN1⟩ := symmetricSVD_spec eps heps (momentMatrix phi P) (moment_symm phi P)
  obtain ⟨D, U, hrun, hU, hU', E, hM, hE, hE0, hEs⟩ := hN1 N1 le_rfl
  have hmax := maxEigen_pos phi hphi P z hz D U E hU hU' hM hE0
  have hn : 0 < n := lt_of_le_of_lt (Nat.zero_le _) z.2
  have hn' : (0 : ℝ) < n := by exact_mod_cast hn
  have htolpos : 0 < tolerance eps D := by rw [tolerance]; positivity
  by_cases hsing : ∃ i, |D i| ≤ tolerance eps D
  · -- the singular case
    obtain ⟨e, he⟩ := rowEchelon_some (tolerance eps D) htolpos n 0 (matrixFromSVD D U) id
    obtain ⟨d, hd⟩ : ∃ d, d = Dropped (tolerance eps D) e.1 e.2 (List.finRange n) := ⟨_, rfl⟩
    have hdrop := dropZero_eq (tolerance eps D) e.1 e.2 (List.finRange n) (matrixFromSVD D U) P
    rw [← hd] at hdrop
    set M2 : Mat n := fun i j => if d i ∨ d j then (if i = j then 1 else 0)
      else matrixFromSVD D U i j with hM2
    set P2 : Fin k → Fin n → ℝ := fun nb i => if d i then 0 else P nb i with hP2
    have hsymm1 : ∀ i j, matrixFromSVD D U i j = matrixFromSVD D U j i := by
      intro i j
      rw [matrixFromSVD_eq, Matrix.mul_apply, Matrix.mul_apply]
      simp only [Matrix.mul_diagonal, Matrix.transpose_apply]
      exact Finset.sum_congr rfl fun l _ => by ring
    have hsymm : ∀ i j, M2 i j = M2 j i := by
      intro i j
      simp only [hM2, or_comm (a := d i), eq_comm (a := i), hsymm1 i j]
    obtain ⟨N2, hN2⟩ := symmetricSVD_spec eps heps M2 hsymm
    obtain ⟨D2, U2, hrun2, hV, hV', E2, hMM, hEE, hEE0, _⟩ := hN2 N2 le_rfl
    set F : Mat n := U * E * Uᵀ with hFdef
    have hF : ∀ i j, |F i j| ≤ n * eps := by
      intro i j
      have := error_entry U hU (fun _ => 1) E 1 eps (fun _ => by simp) hE i j
      rw [diagonal_one, Matrix.one_mul, one_mul] at this
      exact this
    have hMF : ∀ i j, matrixFromSVD D U i j = momentMatrix phi P i j - F i j := by
      intro i j
      rw [matrixFromSVD_eq, hM, Matrix.mul_add, Matrix.add_mul, Matrix.add_apply]
      exact (add_sub_cancel_right _ _).symm
    have hS : ∀ i, i ∉ Finset.univ.filter
        (fun r => ¬ ∃ i, rowMax e.1 i < tolerance eps D ∧ e.2 i = r) ↔ d i := by
      intro i
      rw [hd, Dropped]
      simp
    refine ⟨max N1 N2, fun fuel hf => ⟨coefficients phi P2 (pseudoInverse eps D2 U2) z,
      Finset.univ.filter (fun r => ¬ ∃ i, rowMax e.1 i < tolerance eps D ∧ e.2 i = r), ?_, ?_, ?_⟩⟩
    · rw [solve, symmetricSVD_mono eps N1 fuel ((le_max_left _ _).trans hf) _ _ hrun,
        Option.bind_some, if_pos hsing, he, Option.bind_some]
      dsimp only
      rw [hdrop, symmetricSVD_mono eps N2 fuel ((le_max_right _ _).trans hf) _ _ hrun2]
      rfl
    · rw [keptSet, symmetricSVD_mono eps N1 fuel ((le_max_left _ _).trans hf) _ _ hrun,
        Option.bind_some, if_pos hsing, he]
      rfl
    · intro lam Lam hlam1 hLam1 hform hsmall a ha
      simp only [hS] at hform ha
      have hDD := reduced_diag eps phi P d F M2 (n * eps) hF
        (fun i j => by simp only [hM2, hMF]) D2 U2 E2 hV' hMM hEE0 lam Lam hlam1 hLam1 hform
      have hLpos : 0 ≤ Lam + n * (n * eps) := by positivity
      have hdelta : 0 < lam - n * (n * eps) := lt_of_le_of_lt (by positivity) hsmall
      have htol2 : ∀ i, tolerance eps D2 < |D2 i| := by
        intro i
        rw [abs_of_pos (hdelta.trans_le (hDD i).1), tolerance]
        have : maxEigen D2 ≤ Lam + n * (n * eps) := maxEigen_le D2 _ hLpos fun j => by
          rw [abs_of_pos (hdelta.trans_le (hDD j).1)]; exact (hDD j).2
        calc (n : ℝ) * maxEigen D2 * eps ≤ n * (Lam + n * (n * eps)) * eps :=
              mul_le_mul_of_nonneg_right (mul_le_mul_of_nonneg_left this (Nat.cast_nonneg n)) heps.le
          _ < lam - n * (n * eps) := hsmall
          _ ≤ D2 i := (hDD i).1
      have hPa : ∀ nb, ∑ i, P nb i * a i = ∑ i, P2 nb i * a i := by
        intro nb
        refine Finset.sum_congr rfl fun i _ => ?_
        by_cases hi : d i
        · rw [ha i hi, mul_zero, mul_zero]
        · simp only [hP2, if_neg hi]
      simp only [hPa]
      rw [coefficients_apply, ← Matrix.mulVec_mulVec]
      obtain ⟨G, hG⟩ : ∃ G : Mat n, ∀ i j, G i j = if d i ∨ d j then 0 else F i j :=
        ⟨fun i j => if d i ∨ d j then 0 else F i j, fun _ _ => rfl⟩
      have hmv : momentMatrix phi P2 *ᵥ a = (M2 + G) *ᵥ a := by
        funext i
        rw [Matrix.mulVec, Matrix.mulVec, dotProduct, dotProduct]
        refine Finset.sum_congr rfl fun j _ => ?_
        rw [Matrix.add_apply, moment_apply, hG]
        by_cases hj : d j
        · rw [ha j hj, mul_zero, mul_zero]
        · by_cases hi : d i
          · have hij : i ≠ j := fun h => hj (h ▸ hi)
            simp [hM2, hP2, hi, hij]
          · simp only [hM2, hP2, hi, hj, or_self, if_false, hMF, moment_apply]
            ring
      rw [hmv, Matrix.mulVec_mulVec]
      refine (inverse_bound eps heps.le M2 D2 U2 E2 hV hMM hEE _ hdelta (fun i => (hDD i).1) htol2
        G (n * eps) (fun i j => ?_) z a).trans (le_of_eq (by ring))
      rw [hG]
      split
      · rw [abs_zero]; positivity
      · exact hF i j
  · -- the regular case
    refine ⟨N1, fun fuel hf => ⟨coefficients phi P (pseudoInverse eps D U) z, Finset.univ,
      ?_, ?_, ?_⟩⟩
    · rw [solve, symmetricSVD_mono eps N1 fuel hf _ _ hrun]
      exact if_neg hsing
    · rw [keptSet, symmetricSVD_mono eps N1 fuel hf _ _ hrun]
      exact if_neg hsing
    · intro lam Lam hlam1 hLam1 hform hsmall a ha
      have hnn : 0 ≤ n * (n * eps) := by positivity
      have hdelta : 0 < lam - n * (n * eps) := lt_of_le_of_lt (by positivity) hsmall
      have hDD : ∀ i, lam - n * (n * eps) ≤ D i := by
        intro i
        obtain ⟨h1, h2⟩ := diag_quad (momentMatrix phi P) (diagonal D + E) U hU' hM i
        rw [Matrix.add_apply, diagonal_apply_eq, hE0, add_zero, moment_quad] at h1
        have h3 := (hform (fun r => U r i) fun r hr => absurd (Finset.mem_univ r) hr).1
        rw [h2, ← h1, mul_one] at h3
        linarith
      have := inverse_bound eps heps.le (momentMatrix phi P) D U E hU hM hE _ hdelta hDD
        (fun i => not_le.1 fun h => hsing ⟨i, h⟩) 0 (n * eps)
        (fun i j => by rw [Matrix.zero_apply, abs_zero]; positivity) z a
      rw [add_zero] at this
      rw [coefficients_apply]
      exact this.trans (le_of_eq (by ring))

end ArborX.Interp
