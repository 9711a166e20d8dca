import Verif.Interp.Singular

/-!
# The constant is never taken out of the basis
-/

namespace ArborX.Interp

open Matrix

variable {n k : ℕ}

/-- If the first basis function is constant and the others are at most 10/11 at the sources, and
the tolerance is small against the sum of the weights, then the first basis function is kept. -/
theorem kept_first (eps : ℝ) (heps : 0 < eps) (fuel : ℕ) (phi : Fin k → ℝ)
    (hphi : ∀ nb, 0 ≤ phi nb) (P : Fin k → Fin n → ℝ) (z : Fin n) (hz : (z : ℕ) = 0)
    (hone : ∀ nb, P nb z = 1) (hbound : ∀ nb i, i ≠ z → |P nb i| ≤ 10 / 11)
    (h1 : 22 * (n * eps) ≤ ∑ nb, phi nb) (h2 : 2 * (n * n) * eps ≤ 1)
    (S : Finset (Fin n)) (hS : keptSet eps fuel phi P = some S) : z ∈ S := by
  obtain ⟨N1, hN1⟩ := symmetricSVD_spec eps heps (momentMatrix phi P) (moment_symm phi P)
  obtain ⟨D, U, hrun, hU, hU', E, hM, hE, hE0, hEs⟩ := hN1 N1 le_rfl
  have hn : 0 < n := lt_of_le_of_lt (Nat.zero_le _) z.2
  have hn' : (1 : ℝ) ≤ n := by exact_mod_cast hn
  have hne : 0 < n * eps := by positivity
  have hsum : ∑ nb, phi nb * P nb z ^ 2 = ∑ nb, phi nb :=
    Finset.sum_congr rfl fun nb _ => by rw [hone]; ring
  have hmax := maxEigen_pos phi hphi P z (by rw [hsum]; linarith) D U E hU hU' hM hE0
  have htolpos : 0 < tolerance eps D := by rw [tolerance]; positivity
  rw [keptSet] at hS
  obtain ⟨s, hs, hS⟩ := Option.bind_eq_some_iff.1 hS
  obtain rfl : s = (D, U) := by
    have a := symmetricSVD_mono eps _ _ (le_max_left N1 fuel) _ _ hrun
    have b := symmetricSVD_mono eps _ _ (le_max_right N1 fuel) _ _ hs
    rw [a] at b
    exact (Option.some.inj b).symm
  split at hS
  · obtain ⟨e, he, hS⟩ := Option.map_eq_some_iff.1 hS
    rw [← hS, Finset.mem_filter]
    refine ⟨Finset.mem_univ _, ?_⟩
    set F : Mat n := U * E * Uᵀ with hFdef
    have hF : ∀ i j, |F i j| ≤ n * eps := by
      intro i j
      have := error_entry U hU (fun _ => 1) E 1 eps (fun _ => by simp) hE i j
      rw [diagonal_one, Matrix.one_mul, one_mul] at this
      exact this
    have hMF : ∀ i j, matrixFromSVD D U i j = momentMatrix phi P i j - F i j := by
      intro i j
      rw [matrixFromSVD_eq, hM, Matrix.mul_add, Matrix.add_mul, Matrix.add_apply]
      exact (add_sub_cancel_right _ _).symm
    have hMzz : momentMatrix phi P z z = ∑ nb, phi nb := by
      rw [moment_apply]
      exact Finset.sum_congr rfl fun nb _ => by rw [hone]; ring
    have hMiz : ∀ i, i ≠ z → |momentMatrix phi P i z| ≤ 10 / 11 * ∑ nb, phi nb := by
      intro i hi
      rw [moment_apply, Finset.mul_sum]
      refine (Finset.abs_sum_le_sum_abs _ _).trans (Finset.sum_le_sum fun nb _ => ?_)
      rw [hone, mul_one, abs_mul, abs_of_nonneg (hphi nb)]
      exact mul_le_mul_of_nonneg_right (hbound nb i hi) (hphi nb)
    have hzz : ∑ nb, phi nb - n * eps ≤ |matrixFromSVD D U z z| := by
      rw [hMF, hMzz]
      have := abs_le.1 (hF z z)
      exact le_trans (by linarith [this.2]) (le_abs_self _)
    have hfirst := first_kept (tolerance eps D) htolpos z hz (matrixFromSVD D U) (fun i => ?_) ?_
      e he
    · rintro ⟨i, hi⟩
      exact hfirst ⟨i, List.mem_finRange i, hi⟩
    · by_cases hi : i = z
      · rw [hi]
      · refine le_trans ?_ hzz
        rw [hMF]
        have := hMiz i hi
        refine (abs_sub _ _).trans ?_
        have := hF i z
        linarith
    · refine le_trans ?_ hzz
      have hD := moment_diag phi hphi P D U E hU hU' hM hE0
      have hle : maxEigen D ≤ n * ∑ nb, phi nb := by
        refine (maxEigen_le D (∑ i, D i) (Finset.sum_nonneg fun i _ => hD.1 i) fun i => ?_).trans ?_
        · rw [abs_of_nonneg (hD.1 i)]
          exact Finset.single_le_sum (fun j _ => hD.1 j) (Finset.mem_univ i)
        · rw [hD.2]
          have : ∀ i, ∑ nb, phi nb * P nb i ^ 2 ≤ ∑ nb, phi nb := by
            intro i
            refine Finset.sum_le_sum fun nb _ => ?_
            have hle1 : |P nb i| ≤ 1 := by
              by_cases hi : i = z
              · rw [hi, hone, abs_one]
              · exact (hbound nb i hi).trans (by norm_num)
            have : P nb i ^ 2 ≤ 1 := by
              rw [← sq_abs]; exact pow_le_one₀ (abs_nonneg _) hle1
            exact mul_le_of_le_one_right (hphi nb) this
          refine (Finset.sum_le_sum fun i _ => this i).trans (le_of_eq ?_)
          rw [Finset.sum_const, Finset.card_univ, Fintype.card_fin, nsmul_eq_mul]
      rw [tolerance]
      have hpos : 0 ≤ ∑ nb, phi nb := Finset.sum_nonneg fun nb _ => hphi nb
      calc (n : ℝ) * maxEigen D * eps ≤ n * (n * ∑ nb, phi nb) * eps :=
            mul_le_mul_of_nonneg_right (mul_le_mul_of_nonneg_left hle (Nat.cast_nonneg n)) heps.le
        _ = (2 * (n * n) * eps) * ((∑ nb, phi nb) / 2) := by ring
        _ ≤ 1 * ((∑ nb, phi nb) / 2) := mul_le_mul_of_nonneg_right h2 (by positivity)
        _ ≤ ∑ nb, phi nb - n * eps := by linarith
  · rw [Option.some.injEq] at hS
    rw [← hS]
    exact Finset.mem_univ _

end ArborX.Interp
