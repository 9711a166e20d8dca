import Verif.Interp.Limit

/-!
# Moving least squares: theorems (C41)
-/

namespace ArborX.Interp

open ArborX.Geometry MvPolynomial

variable {k dim : ℕ}

/-- **C41** (the basis).  The basis that is evaluated at a point lists the value of every
monomial of total degree at most `deg` exactly once, the constant first; there are
`binomial(dim + degree, degree)` of them, which is the size of the array. -/
theorem polynomial_basis (dim deg : ℕ) :
    basisSize dim deg = (dim + deg).choose deg ∧
    ∃ exps : List (Fin dim → ℕ), exps.Nodup ∧ (∀ e, e ∈ exps ↔ ∑ d, e d ≤ deg) ∧
      exps.length = (dim + deg).choose deg ∧ exps.head? = some (fun _ => 0) ∧
      ∀ x : Pt ℝ dim,
        evaluateBasis dim deg (coord x) = some (exps.map fun e => ∏ d, x d ^ e d) := by
  refine ⟨basisSize_eq dim deg, (allWords deg dim).map (expo dim), ?_, fun e => ?_, ?_, ?_,
    fun x => ?_⟩
  · refine (List.nodup_map_iff_inj_on (nodup_allWords deg dim)).2 fun w hw w' hw' h => ?_
    have h1 := (mem_allWords _ _ _).1 hw
    have h2 := (mem_allWords _ _ _).1 hw'
    exact expo_inj dim h1.2.1 h2.2.1 h1.2.2 h2.2.2 h
  · rw [List.mem_map]
    constructor
    · rintro ⟨w, hw, rfl⟩
      have h1 := (mem_allWords _ _ _).1 hw
      rw [sum_expo dim w h1.2.2]
      exact h1.1
    · intro h
      obtain ⟨w, h1, h2, h3⟩ := exists_word dim e
      refine ⟨w, (mem_allWords _ _ _).2 ⟨?_, h1, h2⟩, h3⟩
      rw [← sum_expo dim w h2, h3]
      exact h
  · rw [List.length_map, length_allWords]
  · have : allWords deg dim = [] :: (allWords deg dim).tail := by
      simp [allWords, words, List.range_succ_eq_map]
    rw [this, List.map_cons, List.head?_cons]
    rfl
  · rw [evaluateBasis_words, List.map_map, Option.some.injEq]
    refine List.map_congr_left fun w hw => ?_
    have h1 := (mem_allWords _ _ _).1 hw
    rw [wordVal_eq dim (coord x) w h1.2.2]
    refine Finset.prod_congr rfl fun d _ => ?_
    have : coord x d = x d := by rw [coord, dif_pos d.2]
    rw [this]

/-- **C41** (reproduction of polynomials, with the error of the decomposition).  Let the weighted
squares of the values of every polynomial of degree at most `deg` at the normalised sources be
between `lam` and `Lam` times the squares of its coefficients, and let the tolerance be small
against these.  Then coefficients are computed, and for every polynomial `f` of degree at most
`deg` the combination of the values of `f` at the sources is `f` at the target up to
`n * eps / lam` times the coefficients of `f` in normalised coordinates. -/
theorem mls_error (eps : ℝ) (heps : 0 < eps) (F : CRBF) (deg : ℕ) (t : Pt ℝ dim)
    (src : Fin k → Pt ℝ dim) (lam Lam : ℝ) (hlam : 0 < lam)
    (hform : ∀ q : MvPolynomial (Fin dim) ℝ, q.totalDegree ≤ deg →
      lam * ∑ e ∈ q.support, q.coeff e ^ 2
        ≤ ∑ j, F.evaluate (distancePoint (normalize eps t src j) (fun _ => 0))
            * eval (normalize eps t src j) q ^ 2 ∧
      ∑ j, F.evaluate (distancePoint (normalize eps t src j) (fun _ => 0))
            * eval (normalize eps t src j) q ^ 2
        ≤ Lam * ∑ e ∈ q.support, q.coeff e ^ 2)
    (hsmall : (dim + deg).choose deg * Lam * eps < lam) :
    ∃ N : ℕ, ∀ fuel ≥ N, ∃ c, mlsCoefficients eps fuel F deg t src = some c ∧
      ∀ f : MvPolynomial (Fin dim) ℝ, f.totalDegree ≤ deg →
        |∑ j, c j * eval (src j) f - eval t f|
          ≤ (dim + deg).choose deg * eps / lam
            * ∑ e ∈ (recentre t (radius eps t src) f).support,
                |(recentre t (radius eps t src) f).coeff e| := by
  have hquad : ∀ a : Fin (basisSize dim deg) → ℝ,
      ∑ j, weights F (normalize eps t src) j
        * (∑ i, (∏ d, normalize eps t src j d ^ expoAt dim deg i d) * a i) ^ 2
      = ∑ j, F.evaluate (distancePoint (normalize eps t src j) (fun _ => 0))
            * eval (normalize eps t src j) (ofCoeffs deg a) ^ 2 := by
    intro a
    refine Finset.sum_congr rfl fun j _ => ?_
    rw [eval_coeffs deg _ (totalDegree_ofCoeffs deg a), coeffs_ofCoeffs]
    rfl
  have hsq : ∀ a : Fin (basisSize dim deg) → ℝ,
      ∑ i, a i ^ 2 = ∑ e ∈ (ofCoeffs deg a).support, (ofCoeffs deg a).coeff e ^ 2 := by
    intro a
    rw [← sum_coeffs deg _ (totalDegree_ofCoeffs deg a) (fun x => x ^ 2) (by norm_num),
      coeffs_ofCoeffs]
  obtain ⟨N, hN⟩ := solve_regular eps heps (weights F (normalize eps t src))
    (fun j i => ∏ d, normalize eps t src j d ^ expoAt dim deg i d) ⟨0, basisSize_pos dim deg⟩
    lam Lam hlam
    (fun a => by rw [hquad, hsq]; exact (hform _ (totalDegree_ofCoeffs deg a)).1)
    (fun a => by rw [hquad, hsq]; exact (hform _ (totalDegree_ofCoeffs deg a)).2)
    (by rw [basisSize_eq]; exact hsmall)
  refine ⟨N, fun fuel hf => ?_⟩
  obtain ⟨c, hc, herr⟩ := hN fuel hf
  refine ⟨c, by rw [mlsCoefficients, vandermonde_eq]; exact hc, fun f hdeg => ?_⟩
  obtain ⟨h1, h2⟩ := values_eq eps heps t src deg f hdeg
  have := herr (coeffs deg (recentre t (radius eps t src) f))
  rw [sum_coeffs deg _ ((totalDegree_recentre _ _ _).trans hdeg) (fun x => |x|) abs_zero] at this
  have hsize : (((dim + deg).choose deg : ℕ) : ℝ) = basisSize dim deg := by rw [basisSize_eq]
  simp only [h1, h2, hsize]
  exact this

/-- Non-vacuity: constants, with one source at distance one of the target. -/
example (F : CRBF) : ∃ lam Lam : ℝ, 0 < lam ∧ (1 + 0).choose 0 * Lam * (1 / 2) < lam ∧
    ∀ q : MvPolynomial (Fin 1) ℝ, q.totalDegree ≤ 0 →
      lam * ∑ e ∈ q.support, q.coeff e ^ 2
        ≤ ∑ j, F.evaluate (distancePoint (normalize (1 / 2) (fun _ : Fin 1 => 0)
              (fun _ : Fin 1 => fun _ => 1) j) (fun _ => 0))
            * eval (normalize (1 / 2) (fun _ : Fin 1 => 0) (fun _ : Fin 1 => fun _ => 1) j) q ^ 2 ∧
      ∑ j, F.evaluate (distancePoint (normalize (1 / 2) (fun _ : Fin 1 => 0)
              (fun _ : Fin 1 => fun _ => 1) j) (fun _ => 0))
            * eval (normalize (1 / 2) (fun _ : Fin 1 => 0) (fun _ : Fin 1 => fun _ => 1) j) q ^ 2
        ≤ Lam * ∑ e ∈ q.support, q.coeff e ^ 2 := by
  have hw := weights_pos F (1 / 2) (by norm_num) (fun _ : Fin 1 => 0)
    (fun _ : Fin 1 => fun _ => 1) 0
  rw [weights] at hw
  generalize hn : normalize (1 / 2) (fun _ : Fin 1 => 0) (fun _ : Fin 1 => fun _ => 1) = y at hw ⊢
  refine ⟨_, F.evaluate (distancePoint (y 0) (fun _ => 0)), hw, ?_, fun q hq => ?_⟩
  · rw [Nat.choose_zero_right]; push_cast; linarith
  · obtain ⟨a, rfl⟩ : ∃ a, q = C a := ⟨_, totalDegree_eq_zero_iff_eq_C.1 (by omega)⟩
    have : ∑ e ∈ (C a : MvPolynomial (Fin 1) ℝ).support, (C a : MvPolynomial (Fin 1) ℝ).coeff e ^ 2
        = a ^ 2 := by
      by_cases ha : a = 0
      · subst ha; simp
      · rw [show (C a : MvPolynomial (Fin 1) ℝ).support = {0} from by
          rw [← monomial_zero', support_monomial, if_neg ha]]
        simp
    rw [this]
    simp

/-- **C41** (reproduction of polynomials).  If no polynomial of degree at most `deg` other than
zero vanishes at all the sources, then for every polynomial `f` of degree at most `deg` the
combination of the values of `f` at the sources is `f` at the target, as exactly as one likes
if the tolerance `eps` of the floating point type is small enough. -/
theorem mls_reproduces (F : CRBF) (deg : ℕ) (t : Pt ℝ dim) (src : Fin k → Pt ℝ dim)
    (huni : ∀ f : MvPolynomial (Fin dim) ℝ, f.totalDegree ≤ deg →
      (∀ j, eval (src j) f = 0) → f = 0)
    (f : MvPolynomial (Fin dim) ℝ) (hf : f.totalDegree ≤ deg) (delta : ℝ) (hdelta : 0 < delta) :
    ∃ eps0 > 0, ∀ eps, 0 < eps → eps < eps0 → ∃ N : ℕ, ∀ fuel ≥ N, ∃ c,
      mlsCoefficients eps fuel F deg t src = some c ∧
      |∑ j, c j * eval (src j) f - eval t f| ≤ delta := by
  obtain ⟨e, R, y, he, hR, hnorm, hy⟩ := normalize_const t src
  have hw : ∀ j, 0 < weights F y j := by
    intro j
    rw [← hnorm e he le_rfl]
    exact weights_pos F e he t src j
  obtain ⟨lam, hlam, hlow⟩ := exists_lower (weights F y)
    (fun j i => ∏ d, y j d ^ expoAt dim deg i d) (basisSize_pos dim deg)
    (fun a ha => form_pos t R hR src y deg hy huni _ hw a ha)
  have hup := exists_upper (weights F y) (fun j i => ∏ d, y j d ^ expoAt dim deg i d)
    (fun j => (hw j).le)
  generalize hLam : (∑ j, weights F y j * ∑ i, (∏ d, y j d ^ expoAt dim deg i d) ^ 2) = Lam at hup
  have hLam0 : 0 ≤ Lam := by
    rw [← hLam]
    exact Finset.sum_nonneg fun j _ => mul_nonneg (hw j).le
      (Finset.sum_nonneg fun i _ => sq_nonneg _)
  have hn : (0 : ℝ) < basisSize dim deg := by exact_mod_cast basisSize_pos dim deg
  have hS0 : 0 ≤ ∑ i, |coeffs deg (recentre t R f) i| :=
    Finset.sum_nonneg fun i _ => abs_nonneg _
  generalize hS : ∑ i, |coeffs deg (recentre t R f) i| = S at hS0
  refine ⟨min e (min (lam / (basisSize dim deg * Lam + 1)) (delta * lam / (basisSize dim deg * S + 1))),
    lt_min he (lt_min (by positivity) (by positivity)), fun eps heps hlt => ?_⟩
  rw [lt_min_iff, lt_min_iff, lt_div_iff₀ (by positivity), lt_div_iff₀ (by positivity)] at hlt
  obtain ⟨hlt1, hlt2, hlt3⟩ := hlt
  obtain ⟨N, hN⟩ := solve_regular eps heps (weights F y)
    (fun j i => ∏ d, y j d ^ expoAt dim deg i d) ⟨0, basisSize_pos dim deg⟩ lam Lam hlam hlow hup
    (by linarith)
  refine ⟨N, fun fuel hfu => ?_⟩
  obtain ⟨c, hc, herr⟩ := hN fuel hfu
  refine ⟨c, by rw [mlsCoefficients, hnorm eps heps hlt1.le, vandermonde_eq]; exact hc, ?_⟩
  obtain ⟨h1, h2⟩ := values_of t R src y deg hy f hf
  have := herr (coeffs deg (recentre t R f))
  rw [hS] at this
  simp only [h1, h2]
  refine this.trans ?_
  rw [div_mul_eq_mul_div, div_le_iff₀ hlam]
  linarith

/-- Non-vacuity: on the line, no affine function other than zero vanishes at 0 and 1. -/
example (f : MvPolynomial (Fin 1) ℝ) (hf : f.totalDegree ≤ 1)
    (h : ∀ j : Fin 2, eval (fun _ => ((j : ℕ) : ℝ)) f = 0) : f = 0 := by
  have hexp : ∀ x : Pt ℝ 1, eval x f = coeffs 1 f ⟨0, by decide⟩ + x 0 * coeffs 1 f ⟨1, by decide⟩ := by
    intro x
    rw [eval_coeffs 1 f hf]
    have e0 : expoAt 1 1 ⟨0, by decide⟩ 0 = 0 := by rw [expoAt_zero]; rfl
    have e1 : expoAt 1 1 ⟨1, by decide⟩ 0 = 1 := rfl
    have : ∀ g : Fin (basisSize 1 1) → ℝ, ∑ i, g i = g ⟨0, by decide⟩ + g ⟨1, by decide⟩ :=
      fun g => Fin.sum_univ_two g
    rw [this]
    simp [e0, e1]
  have h0 := h 0
  have h1 := h 1
  rw [hexp] at h0 h1
  simp at h0 h1
  rw [h0] at h1
  refine MvPolynomial.funext fun x => ?_
  rw [hexp, h0]
  simp at h1
  simp [h1]

end ArborX.Interp
