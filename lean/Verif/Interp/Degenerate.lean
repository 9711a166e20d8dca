import Verif.Interp.Kept
import Verif.Interp.Poly
import Mathlib.Tactic.FinCases

/-!
# Moving least squares with degenerate sources: theorems (C51)

If the moment matrix is singular up to the tolerance, monomials are taken out of the basis.
The full claim is that the remaining monomials are independent on the sources.  This is false of
the elimination (`rowEchelon_defect`).  What is proved is that coefficients are always computed,
that the constant is kept, and that the combinations of the remaining monomials are reproduced
if these are independent.
-/

namespace ArborX.Interp

open ArborX.Geometry MvPolynomial

variable {k dim : ℕ}

/-- The exponents of the monomials that are in use for a target. -/
noncomputable def keptMonomials (eps : ℝ) (fuel : ℕ) (F : CRBF) (deg : ℕ) (t : Pt ℝ dim)
    (src : Fin k → Pt ℝ dim) : Option (Finset (Fin dim →₀ ℕ)) :=
  (vandermonde deg (normalize eps t src)).bind fun P =>
    (keptSet eps fuel (weights F (normalize eps t src)) P).map fun S => S.image (expoAt dim deg)

theorem normalize_le (eps : ℝ) (heps : 0 < eps) (t : Pt ℝ dim) (src : Fin k → Pt ℝ dim)
    (j : Fin k) (d : Fin dim) : |normalize eps t src j d| ≤ 10 / 11 := by
  have h1 : distancePoint (src j) t ≤ radius eps t src * (10 / 11) := by
    obtain ⟨_, h2, _⟩ := radius_fold t src (List.finRange k) eps
    have := h2 j (List.mem_finRange j)
    rw [radius]
    linarith
  have hR := radius_pos eps heps t src
  have h2 : |src j d - t d| ≤ distancePoint (src j) t := by
    rw [distancePoint]
    refine Real.abs_le_sqrt ?_
    have := Finset.single_le_sum (f := fun d => (t d - src j d) ^ 2) (fun d _ => sq_nonneg _)
      (Finset.mem_univ d)
    refine le_trans (le_of_eq ?_) (this.trans (le_of_eq ?_))
    · show _ = (t d - src j d) ^ 2
      ring
    · exact Finset.sum_congr rfl fun d _ => by ring
  rw [normalize, abs_div, abs_of_pos hR, div_le_iff₀ hR]
  linarith

theorem monomial_le (x : Pt ℝ dim) (hx : ∀ d, |x d| ≤ 10 / 11) (e : Fin dim →₀ ℕ) (he : e ≠ 0) :
    |∏ d, x d ^ e d| ≤ 10 / 11 := by
  obtain ⟨d0, hd0⟩ : ∃ d, e d ≠ 0 := by
    by_contra h
    push Not at h
    exact he (Finsupp.ext h)
  rw [Finset.abs_prod, ← Finset.mul_prod_erase _ _ (Finset.mem_univ d0)]
  have h1 : |x d0 ^ e d0| ≤ 10 / 11 := by
    rw [abs_pow]
    calc |x d0| ^ e d0 ≤ |x d0| ^ 1 :=
          pow_le_pow_of_le_one (abs_nonneg _) ((hx d0).trans (by norm_num)) (by omega)
      _ ≤ 10 / 11 := by rw [pow_one]; exact hx d0
  have h2 : ∏ d ∈ Finset.univ.erase d0, |x d ^ e d| ≤ 1 := by
    refine Finset.prod_le_one (fun d _ => abs_nonneg _) fun d _ => ?_
    rw [abs_pow]
    exact pow_le_one₀ (abs_nonneg _) ((hx d).trans (by norm_num))
  calc |x d0 ^ e d0| * ∏ d ∈ Finset.univ.erase d0, |x d ^ e d| ≤ 10 / 11 * 1 :=
        mul_le_mul h1 h2 (Finset.prod_nonneg fun d _ => abs_nonneg _) (by norm_num)
    _ = 10 / 11 := by norm_num

/-- **C51** (the constant is kept).  If the tolerance is small against the weights, then the
monomials in use for a target are of degree at most `deg` and the constant is one of them. -/
theorem mls_keeps_constant (eps : ℝ) (heps : 0 < eps) (fuel : ℕ) (F : CRBF) (deg : ℕ)
    (t : Pt ℝ dim) (src : Fin k → Pt ℝ dim)
    (hsmall : 22 * ((dim + deg).choose deg * eps)
      ≤ ∑ j, F.evaluate (distancePoint (normalize eps t src j) (fun _ => 0)))
    (hsmall' : 2 * ((dim + deg).choose deg * (dim + deg).choose deg) * eps ≤ 1)
    (S : Finset (Fin dim →₀ ℕ)) (hS : keptMonomials eps fuel F deg t src = some S) :
    0 ∈ S ∧ ∀ e ∈ S, ∑ d, e d ≤ deg := by
  rw [keptMonomials, vandermonde_eq, Option.bind_some] at hS
  obtain ⟨S', hS', rfl⟩ := Option.map_eq_some_iff.1 hS
  have hsize : (((dim + deg).choose deg : ℕ) : ℝ) = basisSize dim deg := by rw [basisSize_eq]
  rw [hsize] at hsmall hsmall'
  constructor
  · rw [Finset.mem_image]
    refine ⟨⟨0, basisSize_pos dim deg⟩, ?_, expoAt_zero dim deg⟩
    refine kept_first eps heps fuel _ (fun nb => (weights_pos F eps heps t src nb).le) _ _ rfl
      (fun nb => ?_) (fun nb i hi => ?_) hsmall hsmall' S' hS'
    · show ∏ d, _ = _
      rw [expoAt_zero]; simp
    · refine monomial_le _ (normalize_le eps heps t src nb) _ fun h => hi ?_
      exact expoAt_inj dim deg (h.trans (expoAt_zero dim deg).symm)
  · intro e he
    rw [Finset.mem_image] at he
    obtain ⟨i, _, rfl⟩ := he
    exact expoAt_le dim deg i

/-- **C51** (reproduction of the combinations of the remaining monomials).  For every target
with at least one source coefficients are computed.  If the weighted squares of the values of
every combination of the monomials in use at the normalised sources are between `lam` and `Lam`
times the squares of its coefficients, and the tolerance is small against these, then the
interpolation of every polynomial that has only monomials in use (in normalised coordinates) is
the polynomial at the target up to the tolerance.

Missing: that the monomials in use are independent on the sources, so that there is such a
`lam`.  This does not follow, see `rowEchelon_defect`. -/
theorem mls_degenerate_partial (eps : ℝ) (heps : 0 < eps) (F : CRBF) (deg : ℕ) (hk : 0 < k)
    (t : Pt ℝ dim) (src : Fin k → Pt ℝ dim) :
    ∃ N : ℕ, ∀ fuel ≥ N, ∃ c S, mlsCoefficients eps fuel F deg t src = some c ∧
      keptMonomials eps fuel F deg t src = some S ∧
      ∀ lam Lam : ℝ, lam ≤ 1 → 1 ≤ Lam →
        (∀ q : MvPolynomial (Fin dim) ℝ, q.support ⊆ S →
          lam * ∑ e ∈ q.support, q.coeff e ^ 2
            ≤ ∑ j, F.evaluate (distancePoint (normalize eps t src j) (fun _ => 0))
                * eval (normalize eps t src j) q ^ 2 ∧
          ∑ j, F.evaluate (distancePoint (normalize eps t src j) (fun _ => 0))
                * eval (normalize eps t src j) q ^ 2
            ≤ Lam * ∑ e ∈ q.support, q.coeff e ^ 2) →
        ∀ n : ℝ, n = (dim + deg).choose deg →
        n * (Lam + n * (n * eps)) * eps < lam - n * (n * eps) →
        ∀ f : MvPolynomial (Fin dim) ℝ, f.totalDegree ≤ deg →
          (recentre t (radius eps t src) f).support ⊆ S →
          |∑ j, c j * eval (src j) f - eval t f|
            ≤ (n + n * n) * eps / (lam - n * (n * eps))
              * ∑ e ∈ (recentre t (radius eps t src) f).support,
                  |(recentre t (radius eps t src) f).coeff e| := by
  have hw := weights_pos F eps heps t src
  obtain ⟨N, hN⟩ := solve_kept eps heps (weights F (normalize eps t src)) (fun nb => (hw nb).le)
    (fun j i => ∏ d, normalize eps t src j d ^ expoAt dim deg i d) ⟨0, basisSize_pos dim deg⟩ (by
      refine Finset.sum_pos (fun nb _ => ?_) ⟨⟨0, hk⟩, Finset.mem_univ _⟩
      rw [expoAt_zero]
      simpa using hw nb)
  refine ⟨N, fun fuel hf => ?_⟩
  obtain ⟨c, S', hc, hS', herr⟩ := hN fuel hf
  refine ⟨c, S'.image (expoAt dim deg), by rw [mlsCoefficients, vandermonde_eq]; exact hc,
    by rw [keptMonomials, vandermonde_eq, Option.bind_some, hS']; rfl,
    fun lam Lam hlam hLam hform n hn hsmall f hdeg hsupp => ?_⟩
  obtain ⟨h1, h2⟩ := values_eq eps heps t src deg f hdeg
  have hsize : n = basisSize dim deg := by rw [hn, basisSize_eq]
  have hzero : ∀ i, i ∉ S' → coeffs deg (recentre t (radius eps t src) f) i = 0 := by
    intro i hi
    by_contra h
    rw [coeffs, ← ne_eq, ← mem_support_iff] at h
    obtain ⟨i', hi', hii⟩ := Finset.mem_image.1 (hsupp h)
    exact hi (expoAt_inj dim deg hii ▸ hi')
  have := herr lam Lam hlam hLam (fun a ha => ?_) (by rw [← hsize]; exact hsmall) _ hzero
  · rw [sum_coeffs deg _ ((totalDegree_recentre _ _ _).trans hdeg) (fun x => |x|) abs_zero,
      ← hsize] at this
    simp only [h1, h2]
    exact this
  · have hq : (ofCoeffs deg a).support ⊆ S'.image (expoAt dim deg) := by
      intro e he
      obtain ⟨i, hi⟩ := expoAt_surj dim deg e (by
        refine le_trans ?_ (totalDegree_ofCoeffs deg a)
        have := le_totalDegree he
        rwa [Finsupp.sum_fintype _ _ (fun _ => rfl)] at this)
      rw [Finset.mem_image]
      refine ⟨i, ?_, hi⟩
      by_contra hnot
      have h0 := congrFun (coeffs_ofCoeffs deg a) i
      rw [ha i hnot, coeffs, hi] at h0
      exact (mem_support_iff.1 he) h0
    have h3 := hform _ hq
    rw [← sum_coeffs deg _ (totalDegree_ofCoeffs deg a) (fun x => x ^ 2) (by norm_num),
      coeffs_ofCoeffs] at h3
    have hquad : ∑ j, weights F (normalize eps t src) j
          * (∑ i, (∏ d, normalize eps t src j d ^ expoAt dim deg i d) * a i) ^ 2
        = ∑ j, F.evaluate (distancePoint (normalize eps t src j) (fun _ => 0))
            * eval (normalize eps t src j) (ofCoeffs deg a) ^ 2 := by
      refine Finset.sum_congr rfl fun j _ => ?_
      rw [eval_coeffs deg _ (totalDegree_ofCoeffs deg a), coeffs_ofCoeffs]
      rfl
    rw [hquad]
    exact h3

end ArborX.Interp
