import Verif.Interp.ChecksModel
import Verif.Interp.Tolerance

/-!
# Property theorems: the checks of the moving least squares kernel (C107)
-/

namespace ArborX.Interp

open ArborX.Geometry MvPolynomial Matrix

variable {n k dim : ℕ}

/-! ### Sources that determine the polynomials -/

lemma checks_regular (eps : ℝ) (heps : 0 < eps) (phi : Fin k → ℝ) (P : Fin k → Fin n → ℝ) (lam Lam : ℝ) (hlam : 0 < lam)
    (hlow : ∀ a : Fin n → ℝ, lam * ∑ i, a i ^ 2 ≤ ∑ nb, phi nb * (∑ i, P nb i * a i) ^ 2)
    (hup : ∀ a : Fin n → ℝ, ∑ nb, phi nb * (∑ i, P nb i * a i) ^ 2 ≤ Lam * ∑ i, a i ^ 2)
    (hsmall : n * Lam * eps < lam) : ∃ N : ℕ, ∀ fuel ≥ N, checks eps fuel phi P = some true := by
  obtain ⟨N, hN⟩ := symmetricSVD_spec eps heps (momentMatrix phi P) (moment_symm phi P)
  refine ⟨N, fun fuel hf => ?_⟩
  obtain ⟨D, U, hrun, hU, hU', E, hM, hE, hE0, _⟩ := hN fuel hf
  have hD : ∀ i, lam ≤ D i ∧ D i ≤ Lam := by
    intro i
    obtain ⟨h1, h2⟩ := diag_quad (momentMatrix phi P) (diagonal D + E) U hU' hM i
    rw [Matrix.add_apply, diagonal_apply_eq, hE0, add_zero, moment_quad] at h1
    have h3 := hlow fun r => U r i
    have h4 := hup fun r => U r i
    rw [h2, ← h1, mul_one] at h3 h4
    exact ⟨h3, h4⟩
  have hDpos : ∀ i, 0 < D i := fun i => hlam.trans_le (hD i).1
  have htol : ∀ i, tolerance eps D < |D i| := by
    intro i
    rw [abs_of_pos (hDpos i), tolerance]
    have : maxEigen D ≤ Lam := maxEigen_le D Lam ((hDpos i).le.trans (hD i).2) fun j => by
      rw [abs_of_pos (hDpos j)]; exact (hD j).2
    calc (n : ℝ) * maxEigen D * eps ≤ n * Lam * eps :=
          mul_le_mul_of_nonneg_right (mul_le_mul_of_nonneg_left this (Nat.cast_nonneg n)) heps.le
      _ < lam := hsmall
      _ ≤ D i := (hD i).1
  rw [checks, hrun]
  exact if_neg (by rintro ⟨i, hi⟩; exact absurd hi (not_le.2 (htol i)))

/-! ### Matrices with two rows -/

lemma argmax_two (M : Mat 2) (h : M 0 1 ≠ 0) : argmaxUpper M = (|M 0 1|, some (0, 1)) := by
  have : upperTriangle 2 = [(0, 1)] := by decide
  rw [argmaxUpper, this]
  simp only [List.foldl_cons, List.foldl_nil, argmaxStep]
  rw [if_pos (abs_pos.2 h)]

lemma rotate_two (M : Mat 2) : rotateA 0 1 M 0 1 = 0 ∧ rotateA 0 1 M 0 0 = M 0 0 - tanTheta (M 0 0) (M 0 1) (M 1 1) * M 0 1 ∧
    rotateA 0 1 M 1 1 = M 1 1 + tanTheta (M 0 0) (M 0 1) (M 1 1) * M 0 1 := by
  have : List.finRange 2 = [0, 1] := by decide
  refine ⟨?_, ?_, ?_⟩ <;> simp [rotateA, rotateStep, Mat.set, this]

/-- One rotation makes a matrix with two rows diagonal. -/
lemma svd_two (eps : ℝ) (heps : 0 < eps) (fuel : ℕ) (M : Mat 2) (hM : M 1 0 = M 0 1) (hb : eps < M 0 1) (ha : 0 < M 0 0) (hac : M 1 1 < M 0 0) (hdet : M 0 1 * M 0 1 < M 0 0 * M 1 1) :
    ∃ D U, symmetricSVD eps (fuel + 2) M = some (D, U) ∧ matrixFromSVD D U = M ∧ M 0 0 ≤ D 0 ∧ 0 < D 1 ∧ D 0 + D 1 = M 0 0 + M 1 1 ∧ D 0 * D 1 = M 0 0 * M 1 1 - M 0 1 * M 0 1 := by
  have hb0 : 0 < M 0 1 := heps.trans hb
  have hsym : ∀ i j, M i j = M j i := by
    intro i j
    fin_cases i <;> fin_cases j <;> simp [hM]
  have h0 : SvdInv M M (identity 2) := by
    have e : (identity 2) = (1 : Matrix (Fin 2) (Fin 2) ℝ) := by
      ext i j; simp [Matrix.one_apply, identity]
    rw [e]
    exact ⟨by simp, by rw [sym_of_symm M hsym]; simp⟩
  have h1 := svdInv_step M M _ h0 0 1 (by decide) hb0.ne'
  obtain ⟨r0, r1, r2⟩ := rotate_two M
  generalize hU : rotateU 0 1 (cosTheta (M 0 0) (M 0 1) (M 1 1)) (sinTheta (M 0 0) (M 0 1) (M 1 1)) (identity 2) = U at h1
  have hrun : symmetricSVD eps (fuel + 2) M = some (fun i => rotateA 0 1 M i i, U) := by
    have e1 : ¬(argmaxUpper M).1 ≤ eps := by
      rw [argmax_two M hb0.ne', abs_of_pos hb0]
      exact not_le.2 hb
    have e2 : (argmaxUpper (rotateA 0 1 M)).1 ≤ eps := by
      obtain ⟨_, h2, h3⟩ := argmax_spec (rotateA 0 1 M)
      rcases hq : (argmaxUpper (rotateA 0 1 M)).2 with _ | ⟨p, q⟩
      · rw [h3 hq]; exact heps.le
      · obtain ⟨h4, h5⟩ := h2 p q hq
        have : p = 0 ∧ q = 1 := by omega
        rw [h4, this.1, this.2, r0, abs_zero]
        exact heps.le
    have l1 : svdLoop eps (fuel + 2) M (identity 2) = svdLoop eps (fuel + 1) (rotateA 0 1 M) U := by
      conv_lhs => rw [svdLoop.eq_def]
      refine (if_neg e1).trans ?_
      rw [argmax_two M hb0.ne', ← hU]
    have l2 : svdLoop eps (fuel + 1) (rotateA 0 1 M) U = some (rotateA 0 1 M, U) := by
      rw [svdLoop.eq_def]; exact if_pos e2
    have : symmetricSVD eps (fuel + 2) M = (svdLoop eps (fuel + 2) M (identity 2)).map fun s => (fun i => s.1 i i, s.2) := rfl
    rw [this, l1, l2]
    rfl
  have hdiag : sym (rotateA 0 1 M) = diagonal (fun i => rotateA 0 1 M i i) := by
    ext i j
    fin_cases i <;> fin_cases j <;> simp [sym, r0]
  rw [SvdInv, hdiag] at h1
  have hd : (rotateA 0 1 M 0 0) * (rotateA 0 1 M 1 1) = M 0 0 * M 1 1 - M 0 1 * M 0 1 := by
    have h2 := congrArg Matrix.det h1.2
    rw [Matrix.det_mul, Matrix.det_mul, det_transpose, det_diagonal, Fin.prod_univ_two, det_fin_two M, hM] at h2
    have h3 := congrArg Matrix.det h1.1
    rw [Matrix.det_mul, det_transpose, det_one] at h3
    rw [← h2]
    calc _ = (rotateA 0 1 M 0 0) * (rotateA 0 1 M 1 1) * (U.det * U.det) := by rw [h3, mul_one]
      _ = _ := by ring
  have hx : M 0 0 ≤ rotateA 0 1 M 0 0 := by
    rw [r1]
    have : tanTheta (M 0 0) (M 0 1) (M 1 1) ≤ 0 := by
      have ht : (M 1 1 - M 0 0) / (2 * M 0 1) < 0 := div_neg_of_neg_of_pos (by linarith) (by linarith)
      rw [tanTheta, copysignTau, if_pos (.inl ht)]
      exact neg_nonpos.2 (abs_nonneg _)
    nlinarith
  refine ⟨_, U, hrun, by rw [matrixFromSVD_eq]; exact h1.2, hx, ?_, by rw [r1, r2]; ring, hd⟩
  by_contra hneg
  have : rotateA 0 1 M 0 0 * rotateA 0 1 M 1 1 ≤ 0 := mul_nonpos_of_nonneg_of_nonpos (ha.le.trans hx) (not_lt.1 hneg)
  linarith

lemma maxEigen_two (D : Fin 2 → ℝ) (h1 : 0 < D 1) (h : D 1 ≤ D 0) : maxEigen D = D 0 := by
  have : List.finRange 2 = [0, 1] := by decide
  rw [maxEigen, this]
  simp only [List.foldl_cons, List.foldl_nil]
  rw [abs_of_pos h1, abs_of_pos (h1.trans_le h), max_eq_left (h1.le.trans h), max_eq_right h]

/-- The echelon form of a matrix with two rows. -/
lemma echelon_two (tol : ℝ) (htol : 0 < tol) (M : Mat 2) (hb : 0 < M 0 1) (hab : M 0 1 ≤ M 0 0) (hM : M 1 0 = M 0 1) (ha : tol ≤ M 0 0) (hc : tol ≤ M 1 1 - M 0 1 * (M 0 1 / M 0 0)) :
    ∃ e, rowEchelon tol 2 0 M id = some e ∧ zeroRows tol e.1 = 0 ∧ ∀ P : Fin k → Fin 2 → ℝ, (dropZero tol e.1 e.2 (List.finRange 2) (M, P)).1 = M := by
  have hr : List.finRange 2 = [0, 1] := by decide
  have ha0 : 0 < M 0 0 := htol.trans_le ha
  set η := M 1 1 - M 0 1 * (M 0 1 / M 0 0) with hη
  have hη0 : 0 < η := htol.trans_le hc
  have p1 : findPivot M 0 0 ⟨0, by omega⟩ = 0 := by
    rw [findPivot, hr]
    simp only [zero_le, decide_true, List.filter_cons, List.filter_nil, if_true, List.foldl_cons, List.foldl_nil]
    rw [if_pos (abs_pos.2 ha0.ne')]
    dsimp only
    rw [hM, abs_of_pos hb, abs_of_pos ha0, if_neg (not_lt.2 hab)]
  obtain ⟨M', hM'⟩ : ∃ M', M' = eliminateBelow (swapRows M (0 : Fin 2) 0) 0 0 := ⟨_, rfl⟩
  have m00 : M' 0 0 = M 0 0 := by simp [hM', eliminateBelow, swapRows]
  have m01 : M' 0 1 = M 0 1 := by simp [hM', eliminateBelow, swapRows]
  have m11 : M' 1 1 = η := by simp [hM', eliminateBelow, swapRows, hη, hM]
  have p2 : findPivot M' 1 1 ⟨0, by omega⟩ = 1 := by
    rw [findPivot, hr]
    simp [m11, hη0.ne']
  have step1 : rowEchelon tol 2 0 M id = rowEchelon tol 1 1 M' (swapPerm id 0 0) := by
    rw [rowEchelon.eq_def]
    dsimp only
    rw [dif_pos ⟨by omega, by omega⟩]
    change (if |M (findPivot M 0 0 ⟨0, _⟩) 0| < tol then _ else if M (findPivot M 0 0 ⟨0, _⟩) 0 = 0 then none else
      rowEchelon tol 1 1 (eliminateBelow (swapRows M 0 (findPivot M 0 0 ⟨0, _⟩)) 0 0) (swapPerm id (findPivot M 0 0 ⟨0, _⟩) 0)) = _
    rw [p1, if_neg (by rw [abs_of_pos ha0]; exact not_lt.2 ha), if_neg ha0.ne', hM']
  obtain ⟨M'', hM''⟩ : ∃ M'', M'' = eliminateBelow (swapRows M' (1 : Fin 2) 1) 1 1 := ⟨_, rfl⟩
  have n00 : M'' 0 0 = M 0 0 := by simp [hM'', eliminateBelow, swapRows, m00]
  have n01 : M'' 0 1 = M 0 1 := by simp [hM'', eliminateBelow, swapRows, m01]
  have n11 : M'' 1 1 = η := by simp [hM'', eliminateBelow, swapRows, m11]
  have step2 : rowEchelon tol 1 1 M' (swapPerm id 0 0) = some (M'', swapPerm (swapPerm id 0 0) 1 1) := by
    rw [rowEchelon.eq_def]
    dsimp only
    rw [dif_pos ⟨by omega, by omega⟩]
    change (if |M' (findPivot M' 1 1 ⟨0, _⟩) 1| < tol then _ else if M' (findPivot M' 1 1 ⟨0, _⟩) 1 = 0 then none else
      rowEchelon tol 0 2 (eliminateBelow (swapRows M' 1 (findPivot M' 1 1 ⟨0, _⟩)) 1 1) (swapPerm (swapPerm id 0 0) (findPivot M' 1 1 ⟨0, _⟩) 1)) = _
    rw [p2, m11, if_neg (by rw [abs_of_pos hη0]; exact not_lt.2 hc), if_neg hη0.ne', hM'']
    rfl
  have q0 : ¬rowMax M'' 0 < tol := by
    rw [rowMax, hr]
    simp only [Fin.zero_le, decide_true, List.filter_cons, List.filter_nil, if_true, List.foldl_cons, List.foldl_nil]
    rw [n00, n01, if_pos (abs_pos.2 ha0.ne'), abs_of_pos ha0, abs_of_pos hb, if_neg (not_lt.2 hab)]
    exact not_lt.2 ha
  have q1 : ¬rowMax M'' 1 < tol := by
    rw [rowMax, hr]
    have : ¬((1 : Fin 2) ≤ 0) := by decide
    simp only [this, decide_false, decide_true, List.filter_cons, List.filter_nil, le_refl, if_true, List.foldl_cons, List.foldl_nil, Bool.false_eq_true, if_false]
    rw [n11, if_pos (abs_pos.2 hη0.ne'), abs_of_pos hη0]
    exact not_lt.2 hc
  refine ⟨_, step1.trans step2, ?_, fun P => ?_⟩
  · rw [zeroRows, hr]
    simp [q0, q1]
  · rw [hr, dropZero, if_neg q0, dropZero, if_neg q1, dropZero]

/-- If the determinant is between the two bounds then the smaller eigenvalue is below the tolerance, but no row of the echelon form is. -/
lemma checks_two (eps : ℝ) (heps : 0 < eps) (fuel : ℕ) (phi : Fin k → ℝ) (hn : n = 2) (P : Fin k → Fin n → ℝ) (A B C : ℝ)
    (hA : ∑ nb, P nb ⟨0, by omega⟩ * P nb ⟨0, by omega⟩ * phi nb = A) (hB : ∑ nb, P nb ⟨0, by omega⟩ * P nb ⟨1, by omega⟩ * phi nb = B)
    (hC : ∑ nb, P nb ⟨1, by omega⟩ * P nb ⟨1, by omega⟩ * phi nb = C)
    (hb : eps < B) (hab : B ≤ A) (hc : 0 < C) (hac : C < A) (h1 : 2 * (A + C) * eps ≤ C - B * (B / A)) (h2 : A * C - B * B < 2 * eps * (A + B * (B / A)) ^ 2) :
    checks eps (fuel + 2) phi P = some false := by
  subst hn
  obtain ⟨M, hM⟩ : ∃ M : Mat 2, M = momentMatrix phi P := ⟨_, rfl⟩
  have e00 : M 0 0 = A := by rw [hM, moment_apply]; exact hA
  have e01 : M 0 1 = B := by rw [hM, moment_apply]; exact hB
  have e10 : M 1 0 = M 0 1 := by rw [hM]; exact moment_symm phi P 1 0
  have e11 : M 1 1 = C := by rw [hM, moment_apply]; exact hC
  have hB0 : 0 < B := heps.trans hb
  have hA0 : 0 < A := hB0.trans_le hab
  have hη : (C - B * (B / A)) * A = A * C - B * B := by field_simp
  have hq : 0 < B * (B / A) := mul_pos hB0 (div_pos hB0 hA0)
  have hη0 : 0 < C - B * (B / A) := lt_of_lt_of_le (by positivity) h1
  have hdet : B * B < A * C := by
    have := mul_pos hη0 hA0
    linarith
  obtain ⟨D, U, hrun, hfrom, hx, hy, hsum, hprod⟩ := svd_two eps heps fuel M e10 (by rwa [e01]) (by rwa [e00]) (by rwa [e00, e11]) (by rwa [e00, e01, e11])
  rw [e00] at hx
  rw [e00, e11] at hsum
  rw [e00, e01, e11] at hprod
  have hyx : D 1 ≤ D 0 := by linarith
  have htol : tolerance eps D = 2 * D 0 * eps := by
    rw [tolerance, maxEigen_two D hy hyx]
    norm_num
  have hD0 : 0 < D 0 := hA0.trans_le hx
  have htol0 : 0 < tolerance eps D := by rw [htol]; positivity
  have htolη : tolerance eps D ≤ C - B * (B / A) := by
    rw [htol]
    refine le_trans (mul_le_mul_of_nonneg_right ?_ heps.le) h1
    linarith
  have hD1 : D 1 < tolerance eps D := by
    have l1 : D 1 ≤ C - B * (B / A) := by
      refine le_of_mul_le_mul_right ?_ hA0
      rw [hη, ← hprod, mul_comm (D 0)]
      exact mul_le_mul_of_nonneg_left hx hy.le
    have l2 : A + B * (B / A) ≤ D 0 := by linarith
    have l3 : (A + B * (B / A)) ^ 2 ≤ D 0 ^ 2 := pow_le_pow_left₀ (by linarith) l2 2
    have l4 : D 0 * D 1 < D 0 * tolerance eps D := by
      rw [hprod, htol]
      refine h2.trans_le (le_trans (mul_le_mul_of_nonneg_left l3 (by linarith)) (le_of_eq (by ring)))
    exact lt_of_mul_lt_mul_left l4 hD0.le
  obtain ⟨e, he, hz, hdrop⟩ := echelon_two (k := k) (tolerance eps D) htol0 M (by rwa [e01]) (by rwa [e00, e01]) e10 (by rw [e00]; linarith) (by rw [e00, e01, e11]; exact htolη)
  have hpos : 0 < zeroValues (tolerance eps D) D := by
    rw [zeroValues, List.length_pos_iff_exists_mem]
    exact ⟨1, List.mem_filter.2 ⟨List.mem_finRange _, by rw [decide_eq_true_eq, abs_of_pos hy]; exact hD1⟩⟩
  rw [checks, ← hM, hrun, Option.bind_some, if_pos ⟨1, by rw [abs_of_pos hy]; exact hD1.le⟩]
  dsimp only
  rw [hfrom, he, Option.bind_some, hdrop, hrun, Option.map_some, hz]
  congr 1
  rw [decide_eq_false_iff_not]
  rintro ⟨_, h, _⟩
  omega

/-! ### The checks for one target -/

/-- **C107**, first part.  If the sources determine the polynomials of the basis, in the sense of `mls_error`, then all checks hold: no build aborts.
Missing: the other positions of the sources, for which the claim is false (`mls_check_fails`). -/
theorem mls_checks_partial (eps : ℝ) (heps : 0 < eps) (F : CRBF) (deg : ℕ) (t : Pt ℝ dim) (src : Fin k → Pt ℝ dim) (lam Lam : ℝ) (hlam : 0 < lam)
    (hform : ∀ q : MvPolynomial (Fin dim) ℝ, q.totalDegree ≤ deg →
      lam * ∑ e ∈ q.support, q.coeff e ^ 2 ≤ ∑ j, F.evaluate (distancePoint (normalize eps t src j) (fun _ => 0)) * eval (normalize eps t src j) q ^ 2 ∧
      ∑ j, F.evaluate (distancePoint (normalize eps t src j) (fun _ => 0)) * eval (normalize eps t src j) q ^ 2 ≤ Lam * ∑ e ∈ q.support, q.coeff e ^ 2)
    (hsmall : (dim + deg).choose deg * Lam * eps < lam) : ∃ N : ℕ, ∀ fuel ≥ N, mlsChecks eps fuel F deg t src = some true := by
  have hquad : ∀ a : Fin (basisSize dim deg) → ℝ, ∑ j, weights F (normalize eps t src) j * (∑ i, (∏ d, normalize eps t src j d ^ expoAt dim deg i d) * a i) ^ 2
      = ∑ j, F.evaluate (distancePoint (normalize eps t src j) (fun _ => 0)) * eval (normalize eps t src j) (ofCoeffs deg a) ^ 2 := by
    intro a
    refine Finset.sum_congr rfl fun j _ => ?_
    rw [eval_coeffs deg _ (totalDegree_ofCoeffs deg a), coeffs_ofCoeffs]
    rfl
  have hsq : ∀ a : Fin (basisSize dim deg) → ℝ, ∑ i, a i ^ 2 = ∑ e ∈ (ofCoeffs deg a).support, (ofCoeffs deg a).coeff e ^ 2 := by
    intro a
    rw [← sum_coeffs deg _ (totalDegree_ofCoeffs deg a) (fun x => x ^ 2) (by norm_num), coeffs_ofCoeffs]
  obtain ⟨N, hN⟩ := checks_regular eps heps (weights F (normalize eps t src)) (fun j i => ∏ d, normalize eps t src j d ^ expoAt dim deg i d) lam Lam hlam
    (fun a => by rw [hquad, hsq]; exact (hform _ (totalDegree_ofCoeffs deg a)).1)
    (fun a => by rw [hquad, hsq]; exact (hform _ (totalDegree_ofCoeffs deg a)).2)
    (by rw [basisSize_eq]; exact hsmall)
  refine ⟨N, fun fuel hf => ?_⟩
  rw [mlsChecks, vandermonde_eq]
  exact hN fuel hf

lemma drop_off (tol : ℝ) (ech : Mat n) (perm : Fin n → Fin n) (l : List (Fin n)) (s : Mat n × (Fin k → Fin n → ℝ)) (h : ∀ i j, i ≠ j → s.1 i j = 0) :
    ∀ i j, i ≠ j → (dropZero tol ech perm l s).1 i j = 0 := by
  induction l generalizing s with
  | nil => exact h
  | cons a l ih =>
    rw [dropZero]
    split_ifs
    · refine ih _ fun i j hij => ?_
      dsimp only [dropMoment]
      split_ifs with h1 h2
      · exact absurd (h1.1.trans h1.2.symm) hij
      · rfl
      · exact h i j hij
    · exact ih _ h

lemma checks_corner (eps : ℝ) (heps : 0 < eps) (fuel : ℕ) (phi : Fin k → ℝ) (hphi : 0 < ∑ nb, phi nb) (P : Fin k → Fin n → ℝ) (z : Fin n) (hz : (z : ℕ) = 0)
    (hP : ∀ nb i, P nb i = if i = z then 1 else 0) (hsmall : n * eps < 1) (hone : n * (∑ nb, phi nb) * eps ≤ 1) : checks eps (fuel + 1) phi P = some true := by
  obtain ⟨m, rfl⟩ : ∃ m, n = m + 1 := ⟨n - 1, by have := z.2; omega⟩
  obtain rfl : z = 0 := Fin.ext hz
  have hM : momentMatrix phi P = corner m (∑ nb, phi nb) := by
    funext i j
    rw [momentMatrix, ← List.ofFn_eq_map, List.sum_ofFn, corner]
    simp only [hP]
    split_ifs with h1 h2 h3 <;> simp_all
  generalize hWW : ∑ nb, phi nb = W at *
  have htol : tolerance eps (cornerDiag m W) = (m + 1 : ℕ) * W * eps := by
    rw [tolerance, corner_maxEigen W hphi]
  have htolpos : 0 < tolerance eps (cornerDiag m W) := by
    rw [htol]; positivity
  have htolle : tolerance eps (cornerDiag m W) < W := by
    rw [htol]
    calc ((m + 1 : ℕ) : ℝ) * W * eps = ((m + 1 : ℕ) * eps) * W := by ring
      _ < 1 * W := mul_lt_mul_of_pos_right hsmall hphi
      _ = W := one_mul W
  have hval : ∀ i : Fin (m + 1), |cornerDiag m W i| < tolerance eps (cornerDiag m W) ↔ i ≠ 0 := by
    intro i
    constructor
    · rintro h rfl
      rw [cornerDiag, if_pos rfl, abs_of_pos hphi] at h
      exact lt_asymm h htolle
    · intro h
      rw [cornerDiag, if_neg h, abs_zero]
      exact htolpos
  have hrow : ∀ i : Fin (m + 1), rowMax (corner m W) i < tolerance eps (cornerDiag m W) ↔ i ≠ 0 := by
    intro i
    constructor
    · rintro h rfl
      have := le_rowMax (corner m W) 0 0 le_rfl
      rw [corner, if_pos ⟨rfl, rfl⟩, abs_of_pos hphi] at this
      linarith
    · intro h
      rw [rowMax_zero _ _ fun j => by rw [corner, if_neg fun h' => h h'.1]]
      exact htolpos
  rw [checks, hM, corner_svd eps W heps, Option.bind_some]
  dsimp only
  split
  · rename_i h
    rw [corner_fromSVD, corner_rowEchelon _ W htolpos htolle.le, Option.bind_some]
    have hoff := drop_off (tolerance eps (cornerDiag m W)) (corner m W) id (List.finRange (m + 1)) (corner m W, P) fun i j hij => by
      change corner m W i j = 0
      rw [corner, if_neg]
      rintro ⟨rfl, rfl⟩
      exact hij rfl
    rw [svd_small eps heps fuel _ fun i j hij => by rw [hoff i j hij.ne, abs_zero]; exact heps.le, Option.map_some]
    congr 1
    rw [decide_eq_true_eq]
    refine ⟨?_, ?_, fun i => ?_⟩
    · obtain ⟨i, hi⟩ := h
      have : i ≠ 0 := by
        rintro rfl
        rw [cornerDiag, if_pos rfl, abs_of_pos hphi] at hi
        exact absurd hi (not_le.2 htolle)
      rw [zeroValues, List.length_pos_iff_exists_mem]
      exact ⟨i, List.mem_filter.2 ⟨List.mem_finRange _, by rw [decide_eq_true_eq, hval]; exact this⟩⟩
    · rw [zeroValues, zeroRows]
      congr 1
      refine List.filter_congr fun i _ => ?_
      rw [decide_eq_decide, hval, hrow]
    · have : identity (m + 1) i i = 1 := if_pos rfl
      change tolerance eps (cornerDiag m W) ≤ |identity (m + 1) i i|
      rw [this, abs_one, htol]
      exact hone
  · rfl

/-- **C107**, second part.  If all sources are at the target then the checks hold, although the moment matrix is singular. -/
theorem mls_checks_coincident_partial (eps : ℝ) (heps : 0 < eps) (fuel : ℕ) (F : CRBF) (deg : ℕ) (t : Pt ℝ dim) (hk : 0 < k)
    (hsmall : (dim + deg).choose deg * eps < 1) (hone : (dim + deg).choose deg * (k * F.evaluate 0) * eps ≤ 1) :
    mlsChecks eps (fuel + 1) F deg t (fun _ : Fin k => t) = some true := by
  have hsize : (((dim + deg).choose deg : ℕ) : ℝ) = basisSize dim deg := by rw [basisSize_eq]
  rw [hsize] at hsmall hone
  have hw := weights_pos F eps heps t (fun _ : Fin k => t)
  have hsum : ∑ nb, weights F (normalize eps t fun _ : Fin k => t) nb = k * F.evaluate 0 := by
    have : ∀ nb, weights F (normalize eps t fun _ : Fin k => t) nb = F.evaluate 0 := by
      intro nb
      have h : normalize eps t (fun _ : Fin k => t) nb = fun _ => 0 := by funext d; simp [normalize]
      rw [weights, h]
      simp [distancePoint]
    simp [this]
  rw [mlsChecks, vandermonde_eq, Option.bind_some]
  refine checks_corner eps heps fuel _ (Finset.sum_pos (fun nb _ => hw nb) ⟨⟨0, hk⟩, Finset.mem_univ _⟩) _ ⟨0, basisSize_pos dim deg⟩ rfl (fun nb i => ?_) hsmall (by rw [hsum]; exact hone)
  split
  · rename_i h
    rw [h, expoAt_zero]; simp
  · rename_i h
    obtain ⟨d, hd⟩ : ∃ d, expoAt dim deg i d ≠ 0 := by
      by_contra hall
      push Not at hall
      exact h (expoAt_inj dim deg (by rw [expoAt_zero]; exact Finsupp.ext hall))
    refine Finset.prod_eq_zero (Finset.mem_univ d) ?_
    rw [normalize, sub_self, zero_div, zero_pow hd]

/-- Non-vacuity: five sources at the target in the plane, degree 2, single precision. -/
example : mlsChecks (2 ^ (-23 : ℤ)) 1 .wendland0 2 ![3, 4] (fun _ : Fin 5 => ![3, 4]) = some true := by
  refine mls_checks_coincident_partial _ (by norm_num) 0 _ _ _ (by norm_num) ?_ ?_
  · norm_num [Nat.choose]
  · norm_num [Nat.choose, CRBF.evaluate, CRBF.func, evaluatePolynomial]

/-- Non-vacuity of `mls_checks_partial`: the three sources of C101, degree 1, single precision. -/
example : ∃ N : ℕ, ∀ fuel ≥ N, mlsChecks (2 ^ (-23 : ℤ)) fuel .wendland0 1 (fun _ => 0) ringSources = some true := by
  have e1 : (2 : ℝ) ^ (-23 : ℤ) ≤ 1 := by norm_num
  have hF : CRBF.wendland0.evaluate (10 / 11) = 1 / 121 := by
    rw [CRBF.evaluate, abs_of_pos (by norm_num : (0 : ℝ) < 10 / 11), min_eq_left (by norm_num)]
    norm_num [CRBF.func, evaluatePolynomial]
  have hd : ∀ j, distancePoint (normalize (2 ^ (-23 : ℤ)) (fun _ => 0) ringSources j) (fun _ => 0) = 10 / 11 := by
    intro j
    rw [normalize_dist _ (by norm_num), ring_radius _ e1, ring_dist]
    norm_num
  have e0 : ringSources 0 = ![1, 0] := rfl
  have e1' : ringSources 1 = ![-3 / 5, 4 / 5] := rfl
  have e2 : ringSources 2 = ![-3 / 5, -4 / 5] := rfl
  refine mls_checks_partial _ (by norm_num) .wendland0 1 (fun _ => 0) ringSources (1 / 121) 1 (by norm_num) (fun q hq => ?_) (by norm_num [Nat.choose])
  simp only [hd, hF]
  rw [linear_sum q hq (fun _ c => c ^ 2) (fun _ => by norm_num), Fin.sum_univ_three]
  simp only [linear_eval q hq, ring_normalize _ e1, e0, e1', e2]
  simp
  generalize q.coeff 0 = a
  generalize q.coeff (Finsupp.single 0 1) = b
  generalize q.coeff (Finsupp.single 1 1) = c
  constructor <;> nlinarith [sq_nonneg (a - b), sq_nonneg (a + b), sq_nonneg a, sq_nonneg b, sq_nonneg c]

/-- Two sources on the line that are close to each other. -/
noncomputable def closeSources : Fin 2 → Pt ℝ 1 := ![![10], ![10 - 11 / 650]]

lemma close_dist (j : Fin 2) : distancePoint (closeSources j) (fun _ => 0) = closeSources j 0 := by
  rw [distancePoint, Fin.sum_univ_one, zero_sub, neg_mul_neg, Real.sqrt_mul_self]
  fin_cases j <;> norm_num [closeSources]

lemma close_radius (eps : ℝ) (h1 : eps ≤ 1) : radius eps (fun _ => 0) closeSources = 11 := by
  have : List.finRange 2 = [0, 1] := by decide
  rw [radius, this]
  simp only [List.foldl_cons, List.foldl_nil, close_dist]
  have s0 : closeSources 0 0 = 10 := rfl
  have s1 : closeSources 1 0 = 10 - 11 / 650 := rfl
  rw [s0, s1, max_eq_right (by linarith : eps ≤ 10), max_eq_left (by norm_num)]
  norm_num

lemma close_weights (eps : ℝ) (h0 : 0 < eps) (h1 : eps ≤ 1) (j : Fin 2) : weights .wendland0 (normalize eps (fun _ => 0) closeSources) j = (1 - closeSources j 0 / 11) ^ 2 := by
  have hj : 0 < closeSources j 0 ∧ closeSources j 0 < 11 := by fin_cases j <;> norm_num [closeSources]
  rw [weights, normalize_dist eps h0, close_radius eps h1, close_dist, CRBF.evaluate, abs_of_pos (div_pos hj.1 (by norm_num : (0 : ℝ) < 11)), min_eq_left (by linarith [hj.2])]
  norm_num [CRBF.func, evaluatePolynomial]
  ring

lemma basis_1_1 (x : Pt ℝ 1) : evaluateBasis 1 1 (coord x) = some [1, x 0] := by
  simp [evaluateBasis, fillDegs, fillDims, fillSlice, sliceLen, basisSize, basisSizeLoop, coord, List.range_succ, Function.update]

/-- The basis at the sources. -/
noncomputable def closeP (j : Fin 2) (i : Fin (basisSize 1 1)) : ℝ := if i.val = 0 then 1 else closeSources j 0 / 11

lemma close_vandermonde (eps : ℝ) (h1 : eps ≤ 1) : vandermonde 1 (normalize eps (fun _ => 0) closeSources) = some closeP := by
  have h : ∀ j, vandermondeRow 1 (normalize eps (fun _ => 0) closeSources j) = some (closeP j) := by
    intro j
    rw [vandermondeRow, basis_1_1, Option.map_some, normalize, close_radius eps h1, sub_zero]
    congr 1
    funext i
    have h2 : basisSize 1 1 = 2 := by decide
    have : i.val = 0 ∨ i.val = 1 := by have := i.2; omega
    rcases this with h | h <;> simp [closeP, h]
  rw [vandermonde, dif_pos (fun j => by rw [h]; rfl)]
  congr 1
  funext j
  exact Option.get_of_eq_some _ (h j)

/-- **C107 fails**: for two different sources, at 10 and at about 9.983 on the line, degree 1, `Wendland<0>` and single precision, the numbers of zeros differ, and builds with assertions abort.
The polynomials of degree 1 are determined by their values at these sources. -/
theorem mls_check_fails (fuel : ℕ) : mlsChecks (2 ^ (-23 : ℤ)) (fuel + 2) .wendland0 1 (fun _ => 0) closeSources = some false := by
  have e1 : (2 : ℝ) ^ (-23 : ℤ) ≤ 1 := by norm_num
  have e0 : (0 : ℝ) < 2 ^ (-23 : ℤ) := by norm_num
  have s0 : closeSources 0 0 = 10 := rfl
  have s1 : closeSources 1 0 = 10 - 11 / 650 := rfl
  have hw : weights .wendland0 (normalize (2 ^ (-23 : ℤ)) (fun _ => 0) closeSources) = fun j => (1 - closeSources j 0 / 11) ^ 2 := funext fun j => close_weights _ e0 e1 j
  rw [mlsChecks, close_vandermonde _ e1, Option.bind_some, hw]
  refine checks_two _ e0 fuel _ (by decide) closeP _ _ _ rfl rfl rfl ?_ ?_ ?_ ?_ ?_ ?_ <;> simp only [Fin.sum_univ_two, closeP, s0, s1] <;> norm_num

end ArborX.Interp
