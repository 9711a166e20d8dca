import Verif.Interp.Solve
import Mathlib.Algebra.MvPolynomial.Degrees
import Mathlib.Algebra.MvPolynomial.Monad
import Mathlib.Analysis.Normed.Module.FiniteDimension
import Mathlib.Topology.MetricSpace.ProperSpace.Real
import Mathlib.Analysis.InnerProductSpace.PiL2

/-!
# Moving least squares: polynomials

The values of a polynomial at the normalised source points are the Vandermonde matrix times a
vector of coefficients; the polynomial at the target is the first of these coefficients.
-/

namespace ArborX.Interp

open ArborX.Geometry MvPolynomial

variable {k dim : ℕ}

/-! ### The basis as a list of exponents -/

/-- The word of entry `i` of the basis. -/
def wordAt (dim deg : ℕ) (i : Fin (basisSize dim deg)) : List ℕ :=
  (allWords deg dim)[i]'(by rw [length_allWords, ← basisSize_eq]; exact i.2)

/-- The exponents of entry `i` of the basis. -/
noncomputable def expoAt (dim deg : ℕ) (i : Fin (basisSize dim deg)) : Fin dim →₀ ℕ :=
  Finsupp.equivFunOnFinite.symm (expo dim (wordAt dim deg i))

theorem wordAt_mem (dim deg : ℕ) (i : Fin (basisSize dim deg)) :
    wordAt dim deg i ∈ allWords deg dim := List.getElem_mem _

theorem expoAt_inj (dim deg : ℕ) : Function.Injective (expoAt dim deg) := by
  intro i j h
  have h1 := (mem_allWords _ _ _).1 (wordAt_mem dim deg i)
  have h2 := (mem_allWords _ _ _).1 (wordAt_mem dim deg j)
  have h3 : expo dim (wordAt dim deg i) = expo dim (wordAt dim deg j) :=
    Finsupp.equivFunOnFinite.symm.injective h
  have h4 := expo_inj dim h1.2.1 h2.2.1 h1.2.2 h2.2.2 h3
  have := (nodup_allWords deg dim).getElem_inj_iff.1 h4
  exact Fin.ext this

theorem expoAt_surj (dim deg : ℕ) (e : Fin dim →₀ ℕ) (h : ∑ d, e d ≤ deg) :
    ∃ i, expoAt dim deg i = e := by
  obtain ⟨w, h1, h2, h3⟩ := exists_word dim e
  have hw : w ∈ allWords deg dim := by
    refine (mem_allWords _ _ _).2 ⟨?_, h1, h2⟩
    rw [← sum_expo dim w h2, h3]
    exact h
  obtain ⟨i, hi, e1⟩ := List.getElem_of_mem hw
  refine ⟨⟨i, by rw [basisSize_eq, ← length_allWords]; exact hi⟩, ?_⟩
  have e2 : wordAt dim deg ⟨i, by rw [basisSize_eq, ← length_allWords]; exact hi⟩ = w := e1
  rw [expoAt, e2, h3]
  ext d
  rfl

theorem expoAt_zero (dim deg : ℕ) : expoAt dim deg ⟨0, basisSize_pos dim deg⟩ = 0 := by
  have : wordAt dim deg ⟨0, basisSize_pos dim deg⟩ = [] := by
    rw [wordAt]
    simp [allWords, words, List.range_succ_eq_map]
  rw [expoAt, this]
  ext d
  simp [expo]

theorem vandermondeRow_eq (deg : ℕ) (x : Pt ℝ dim) :
    vandermondeRow deg x = some fun i => ∏ d, x d ^ expoAt dim deg i d := by
  rw [vandermondeRow, evaluateBasis_words, Option.map_some, Option.some.injEq]
  funext i
  have hlen : (i : ℕ) < (allWords deg dim).length := by
    rw [length_allWords, ← basisSize_eq]; exact i.2
  rw [List.getD_eq_getElem?_getD, List.getElem?_map, List.getElem?_eq_getElem hlen]
  simp only [Option.map_some, Option.getD_some]
  rw [wordVal_eq dim (coord x) _ ((mem_allWords _ _ _).1 (List.getElem_mem hlen)).2.2]
  refine Finset.prod_congr rfl fun d _ => ?_
  have : coord x d = x d := by rw [coord, dif_pos d.2]
  rw [this]
  rfl

theorem vandermonde_eq (deg : ℕ) (y : Fin k → Pt ℝ dim) :
    vandermonde deg y = some fun j i => ∏ d, y j d ^ expoAt dim deg i d := by
  rw [vandermonde, dif_pos (fun j => by rw [vandermondeRow_eq]; rfl)]
  simp only [vandermondeRow_eq, Option.get_some]

/-! ### Polynomials in the normalised coordinates -/

/-- The coefficients of a polynomial in the order of the basis. -/
noncomputable def coeffs (deg : ℕ) (q : MvPolynomial (Fin dim) ℝ) :
    Fin (basisSize dim deg) → ℝ := fun i => q.coeff (expoAt dim deg i)

theorem eval_coeffs (deg : ℕ) (q : MvPolynomial (Fin dim) ℝ) (hq : q.totalDegree ≤ deg)
    (y : Pt ℝ dim) :
    eval y q = ∑ i, (∏ d, y d ^ expoAt dim deg i d) * coeffs deg q i := by
  rw [eval_eq']
  have hsub : q.support ⊆ Finset.univ.image (expoAt dim deg) := by
    intro e he
    rw [Finset.mem_image]
    obtain ⟨i, hi⟩ := expoAt_surj dim deg e (by
      refine le_trans ?_ hq
      have := le_totalDegree he
      rwa [Finsupp.sum_fintype _ _ (fun _ => rfl)] at this)
    exact ⟨i, Finset.mem_univ _, hi⟩
  rw [Finset.sum_subset hsub (fun e _ he => by
    rw [notMem_support_iff.1 he, zero_mul]), Finset.sum_image (fun a _ b _ h => expoAt_inj _ _ h)]
  exact Finset.sum_congr rfl fun i _ => mul_comm _ _

/-- The polynomial with given coefficients. -/
noncomputable def ofCoeffs (deg : ℕ) (a : Fin (basisSize dim deg) → ℝ) :
    MvPolynomial (Fin dim) ℝ := ∑ i, monomial (expoAt dim deg i) (a i)

theorem totalDegree_ofCoeffs (deg : ℕ) (a : Fin (basisSize dim deg) → ℝ) :
    (ofCoeffs deg a).totalDegree ≤ deg := by
  refine totalDegree_finsetSum_le fun i _ => (totalDegree_monomial_le _ _).trans ?_
  have h := (mem_allWords _ _ _).1 (wordAt_mem dim deg i)
  rw [Finsupp.sum_fintype _ _ (fun _ => rfl)]
  have := sum_expo dim _ h.2.2
  calc ∑ d, expoAt dim deg i d = (wordAt dim deg i).length := this
    _ ≤ deg := h.1

theorem coeffs_ofCoeffs (deg : ℕ) (a : Fin (basisSize dim deg) → ℝ) :
    coeffs deg (ofCoeffs deg a) = a := by
  funext i
  rw [coeffs, ofCoeffs, coeff_sum, Finset.sum_eq_single i]
  · rw [coeff_monomial, if_pos rfl]
  · intro j _ hj
    rw [coeff_monomial, if_neg (fun h => hj (expoAt_inj _ _ h))]
  · intro h; exact absurd (Finset.mem_univ i) h

/-- Sums over the indices are sums over the support. -/
theorem sum_coeffs (deg : ℕ) (q : MvPolynomial (Fin dim) ℝ) (hq : q.totalDegree ≤ deg) (g : ℝ → ℝ)
    (hg : g 0 = 0) : ∑ i, g (coeffs deg q i) = ∑ e ∈ q.support, g (q.coeff e) := by
  have hsub : q.support ⊆ Finset.univ.image (expoAt dim deg) := by
    intro e he
    rw [Finset.mem_image]
    obtain ⟨i, hi⟩ := expoAt_surj dim deg e (by
      refine le_trans ?_ hq
      have := le_totalDegree he
      rwa [Finsupp.sum_fintype _ _ (fun _ => rfl)] at this)
    exact ⟨i, Finset.mem_univ _, hi⟩
  rw [Finset.sum_subset hsub (fun e _ he => by rw [notMem_support_iff.1 he, hg]),
    Finset.sum_image (fun a _ b _ h => expoAt_inj _ _ h)]
  rfl

theorem expoAt_le (dim deg : ℕ) (i : Fin (basisSize dim deg)) :
    ∑ d, expoAt dim deg i d ≤ deg := by
  have h1 := (mem_allWords _ _ _).1 (wordAt_mem dim deg i)
  rw [expoAt]
  show ∑ d, expo dim _ d ≤ _
  rw [sum_expo dim _ h1.2.2]
  exact h1.1

/-- `f` in the coordinates relative to `t` scaled by `R`: `x ↦ f (t + R x)`. -/
noncomputable def recentre (t : Pt ℝ dim) (R : ℝ) (f : MvPolynomial (Fin dim) ℝ) :
    MvPolynomial (Fin dim) ℝ := bind₁ (fun d => C (t d) + C R * X d) f

theorem eval_recentre (t : Pt ℝ dim) (R : ℝ) (f : MvPolynomial (Fin dim) ℝ) (y : Pt ℝ dim) :
    eval y (recentre t R f) = eval (fun d => t d + R * y d) f := by
  rw [recentre]
  have h := eval₂Hom_bind₁ (RingHom.id ℝ) y (fun d => C (t d) + C R * X d) f
  have e : (fun d => eval₂Hom (RingHom.id ℝ) y (C (t d) + C R * X d)) = fun d => t d + R * y d := by
    funext d
    rw [map_add, map_mul, eval₂Hom_C, eval₂Hom_C, eval₂Hom_X']
    rfl
  rw [e] at h
  exact h

theorem totalDegree_recentre (t : Pt ℝ dim) (R : ℝ) (f : MvPolynomial (Fin dim) ℝ) :
    (recentre t R f).totalDegree ≤ f.totalDegree := by
  rw [recentre]
  conv_lhs => rw [f.as_sum]
  rw [map_sum]
  refine totalDegree_finsetSum_le fun e he => ?_
  rw [bind₁_monomial]
  refine (totalDegree_mul _ _).trans ?_
  rw [totalDegree_C, zero_add]
  refine (totalDegree_finsetProd _ _).trans ?_
  refine le_trans ?_ (le_totalDegree he)
  rw [Finsupp.sum]
  refine Finset.sum_le_sum fun d _ => ?_
  refine (totalDegree_pow _ _).trans ?_
  refine (Nat.mul_le_mul_left _ (?_ : _ ≤ 1)).trans (by rw [Nat.mul_one])
  refine (totalDegree_add _ _).trans (max_le (by rw [totalDegree_C]; omega) ?_)
  refine (totalDegree_mul _ _).trans ?_
  rw [totalDegree_C, totalDegree_X]

/-! ### The radius and the weights -/

theorem radius_fold (t : Pt ℝ dim) (src : Fin k → Pt ℝ dim) (l : List (Fin k)) (r : ℝ) :
    r ≤ l.foldl (fun r j => max r (distancePoint (src j) t)) r ∧
    (∀ j ∈ l, distancePoint (src j) t ≤ l.foldl (fun r j => max r (distancePoint (src j) t)) r) ∧
    ∀ L, r ≤ L → (∀ j ∈ l, distancePoint (src j) t ≤ L) →
      l.foldl (fun r j => max r (distancePoint (src j) t)) r ≤ L := by
  induction l generalizing r with
  | nil => exact ⟨le_rfl, fun i h => by simp at h, fun L h _ => h⟩
  | cons j l ih =>
    rw [List.foldl_cons]
    obtain ⟨a, b, c⟩ := ih (max r (distancePoint (src j) t))
    refine ⟨(le_max_left _ _).trans a, fun i hi => ?_, fun L hL h => ?_⟩
    · rcases List.mem_cons.1 hi with rfl | hi
      · exact (le_max_right _ _).trans a
      · exact b i hi
    · exact c L (max_le hL (h j (by simp))) fun i hi => h i (List.mem_cons_of_mem _ hi)

theorem radius_pos (eps : ℝ) (heps : 0 < eps) (t : Pt ℝ dim) (src : Fin k → Pt ℝ dim) :
    0 < radius eps t src :=
  mul_pos (heps.trans_le (radius_fold t src _ eps).1) (by norm_num)

theorem dist_lt_radius (eps : ℝ) (heps : 0 < eps) (t : Pt ℝ dim) (src : Fin k → Pt ℝ dim)
    (j : Fin k) : distancePoint (src j) t < radius eps t src := by
  obtain ⟨h1, h2, _⟩ := radius_fold t src (List.finRange k) eps
  have := h2 j (List.mem_finRange j)
  rw [radius]
  linarith

theorem normalize_dist (eps : ℝ) (heps : 0 < eps) (t : Pt ℝ dim) (src : Fin k → Pt ℝ dim)
    (j : Fin k) :
    distancePoint (normalize eps t src j) (fun _ => 0)
      = distancePoint (src j) t / radius eps t src := by
  have hR := radius_pos eps heps t src
  rw [distancePoint, distancePoint, eq_comm, ← Real.sqrt_sq hR.le, ← Real.sqrt_div' _ (sq_nonneg _),
    Finset.sum_div]
  congr 1
  refine Finset.sum_congr rfl fun d _ => ?_
  rw [normalize]
  field_simp
  ring

theorem distancePoint_nonneg (x y : Pt ℝ dim) : 0 ≤ distancePoint x y := Real.sqrt_nonneg _

theorem weights_pos (F : CRBF) (eps : ℝ) (heps : 0 < eps) (t : Pt ℝ dim)
    (src : Fin k → Pt ℝ dim) (j : Fin k) : 0 < weights F (normalize eps t src) j := by
  refine F.evaluate_pos _ ?_
  rw [normalize_dist eps heps, abs_of_nonneg (div_nonneg (distancePoint_nonneg _ _)
    (radius_pos eps heps t src).le), div_lt_one (radius_pos eps heps t src)]
  exact dist_lt_radius eps heps t src j

theorem denormalize (eps : ℝ) (heps : 0 < eps) (t : Pt ℝ dim) (src : Fin k → Pt ℝ dim)
    (j : Fin k) : (fun d => t d + radius eps t src * normalize eps t src j d) = src j := by
  funext d
  rw [normalize, mul_div_cancel₀ _ (radius_pos eps heps t src).ne']
  ring

/-- Values of `f` at the sources and at the target, in terms of the coefficients of `f` in
normalised coordinates. -/
theorem values_eq (eps : ℝ) (heps : 0 < eps) (t : Pt ℝ dim) (src : Fin k → Pt ℝ dim) (deg : ℕ)
    (f : MvPolynomial (Fin dim) ℝ) (hf : f.totalDegree ≤ deg) :
    (∀ j, eval (src j) f = ∑ i, (∏ d, normalize eps t src j d ^ expoAt dim deg i d)
      * coeffs deg (recentre t (radius eps t src) f) i) ∧
    eval t f = coeffs deg (recentre t (radius eps t src) f) ⟨0, basisSize_pos dim deg⟩ := by
  have hq := (totalDegree_recentre t (radius eps t src) f).trans hf
  constructor
  · intro j
    rw [← eval_coeffs deg _ hq, eval_recentre, denormalize eps heps]
  · rw [coeffs, expoAt_zero]
    have h : eval (fun _ => 0) (recentre t (radius eps t src) f) = eval t f := by
      rw [eval_recentre]; simp
    rw [← h, ← constantCoeff_eq, eq_comm]
    have := eval_zero' (R := ℝ) (σ := Fin dim)
    exact (congrFun (congrArg DFunLike.coe this) (recentre t (radius eps t src) f)).symm

end ArborX.Interp
