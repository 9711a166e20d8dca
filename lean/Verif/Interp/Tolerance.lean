import Verif.Interp.Theorems
import Verif.Interp.Coincident
import Verif.Interp.CrbfMono
import Verif.Interp.SvdFloatTheorems

/-!
# C101: accuracy of the interpolation and the scale of the radial function

The loop of the decomposition compares the entries of the moment matrix with the machine epsilon, whatever the size of the weights.
-/

namespace ArborX.Interp

open ArborX.Geometry MvPolynomial

variable {n k dim : ℕ}

/-! ### The bound in terms of the positions of the sources -/

lemma card_support_le (deg : ℕ) (q : MvPolynomial (Fin dim) ℝ) (hq : q.totalDegree ≤ deg) : q.support.card ≤ (dim + deg).choose deg := by
  have h := sum_coeffs deg q hq (fun x => if x = 0 then 0 else 1) (if_pos rfl)
  have h1 : ∑ e ∈ q.support, (if q.coeff e = 0 then (0 : ℝ) else 1) = q.support.card := by
    rw [Finset.sum_congr rfl fun e he => if_neg (mem_support_iff.1 he)]
    simp
  have h2 : ∑ i, (if coeffs deg q i = 0 then (0 : ℝ) else 1) ≤ ∑ _i : Fin (basisSize dim deg), 1 := Finset.sum_le_sum fun i _ => by split_ifs <;> norm_num
  have h3 : (q.support.card : ℝ) ≤ basisSize dim deg := by
    rw [← h1]
    refine le_trans (le_of_eq ?_) (h2.trans (by simp))
    first | exact h | exact h.symm
  rw [← basisSize_eq]
  exact_mod_cast h3

lemma eval_sq_le (deg : ℕ) (q : MvPolynomial (Fin dim) ℝ) (hq : q.totalDegree ≤ deg) (y : Pt ℝ dim) (hy : ∀ d, |y d| ≤ 1) :
    eval y q ^ 2 ≤ (dim + deg).choose deg * ∑ e ∈ q.support, q.coeff e ^ 2 := by
  have h1 : eval y q ^ 2 ≤ (∑ e ∈ q.support, |q.coeff e|) ^ 2 := by
    rw [← sq_abs]
    refine pow_le_pow_left₀ (abs_nonneg _) ?_ 2
    rw [eval_eq']
    refine (Finset.abs_sum_le_sum_abs _ _).trans (Finset.sum_le_sum fun e _ => ?_)
    rw [abs_mul, Finset.abs_prod]
    refine mul_le_of_le_one_right (abs_nonneg _) (Finset.prod_le_one (fun d _ => abs_nonneg _) fun d _ => ?_)
    rw [abs_pow]
    exact pow_le_one₀ (abs_nonneg _) (hy d)
  have h2 : (∑ e ∈ q.support, |q.coeff e|) ^ 2 ≤ q.support.card * ∑ e ∈ q.support, |q.coeff e| ^ 2 := sq_sum_le_card_mul_sum_sq
  simp only [sq_abs] at h2
  refine (h1.trans h2).trans (mul_le_mul_of_nonneg_right ?_ (Finset.sum_nonneg fun e _ => sq_nonneg _))
  exact_mod_cast card_support_le deg q hq

/-- **C101** (error bound).  Let every polynomial of degree at most `deg` be determined by its values at the normalised sources, in that the sum of the squares of these values is at least
`lam` times the squares of its coefficients: a condition on the positions of the sources only.  Then the interpolation reproduces polynomials up to the tolerance divided by
`lam` and by the value of the radial function at `10/11`, the least possible weight. -/
theorem mls_error_positions_partial (eps : ℝ) (heps : 0 < eps) (F : CRBF) (deg : ℕ) (t : Pt ℝ dim) (src : Fin k → Pt ℝ dim) (lam : ℝ) (hlam : 0 < lam)
    (hform : ∀ q : MvPolynomial (Fin dim) ℝ, q.totalDegree ≤ deg → lam * ∑ e ∈ q.support, q.coeff e ^ 2 ≤ ∑ j, eval (normalize eps t src j) q ^ 2)
    (hsmall : (dim + deg).choose deg * (k * F.evaluate 0 * (dim + deg).choose deg) * eps < F.evaluate (10 / 11) * lam) :
    ∃ N : ℕ, ∀ fuel ≥ N, ∃ c, mlsCoefficients eps fuel F deg t src = some c ∧
      ∀ f : MvPolynomial (Fin dim) ℝ, f.totalDegree ≤ deg →
        |∑ j, c j * eval (src j) f - eval t f|
          ≤ (dim + deg).choose deg * eps / (F.evaluate (10 / 11) * lam)
            * ∑ e ∈ (recentre t (radius eps t src) f).support, |(recentre t (radius eps t src) f).coeff e| := by
  have hR := radius_pos eps heps t src
  obtain ⟨_, _, hle, _, _⟩ := crbf_decreasing F
  have hd : ∀ j, |distancePoint (normalize eps t src j) (fun _ => 0)| ≤ |10 / 11| := by
    intro j
    have h1 : distancePoint (src j) t ≤ radius eps t src * (10 / 11) := by
      obtain ⟨_, h2, _⟩ := radius_fold t src (List.finRange k) eps
      have := h2 j (List.mem_finRange j)
      rw [radius]
      linarith
    rw [normalize_dist eps heps, abs_of_nonneg (div_nonneg (distancePoint_nonneg _ _) hR.le), abs_of_pos (by norm_num), div_le_iff₀ hR]
    linarith
  have hlow : ∀ j, F.evaluate (10 / 11) ≤ F.evaluate (distancePoint (normalize eps t src j) (fun _ => 0)) := fun j => hle _ _ (hd j)
  have hup : ∀ j, F.evaluate (distancePoint (normalize eps t src j) (fun _ => 0)) ≤ F.evaluate 0 := fun j => hle _ _ (by rw [abs_zero]; exact abs_nonneg _)
  have h10 : 0 < F.evaluate (10 / 11) := F.evaluate_pos _ (by rw [abs_of_pos] <;> norm_num)
  refine mls_error eps heps F deg t src (F.evaluate (10 / 11) * lam) (k * F.evaluate 0 * (dim + deg).choose deg) (mul_pos h10 hlam) (fun q hq => ⟨?_, ?_⟩) hsmall
  · rw [mul_assoc]
    refine (mul_le_mul_of_nonneg_left (hform q hq) h10.le).trans ?_
    rw [Finset.mul_sum]
    exact Finset.sum_le_sum fun j _ => mul_le_mul_of_nonneg_right (hlow j) (sq_nonneg _)
  · calc _ ≤ ∑ _j : Fin k, F.evaluate 0 * ((dim + deg).choose deg * ∑ e ∈ q.support, q.coeff e ^ 2) := by
          refine Finset.sum_le_sum fun j _ => mul_le_mul (hup j) (eval_sq_le deg q hq _ fun d => (normalize_le eps heps t src j d).trans (by norm_num)) (sq_nonneg _) ?_
          exact h10.le.trans (hle _ _ (by rw [abs_zero]; exact abs_nonneg _))
      _ = _ := by simp; ring

/-! ### Small weights -/

/-- The diagonal of a matrix. -/
def diagOf (A : Mat n) : Fin n → ℝ := fun i => A i i

lemma svd_small (eps : ℝ) (heps : 0 < eps) (fuel : ℕ) (A : Mat n) (hA : ∀ i j, i < j → |A i j| ≤ eps) :
    symmetricSVD eps (fuel + 1) A = some (diagOf A, identity n) := by
  have h : (argmaxUpper A).1 ≤ eps := by
    obtain ⟨_, h2, h3⟩ := argmax_spec A
    rcases hq : (argmaxUpper A).2 with _ | ⟨p, q⟩
    · rw [h3 hq]; exact heps.le
    · obtain ⟨h4, h5⟩ := h2 p q hq
      rw [h4]
      exact hA p q h5
  have hl : svdLoop eps (fuel + 1) A (identity n) = some (A, identity n) := by
    rw [svdLoop.eq_def]; exact if_pos h
  have : symmetricSVD eps (fuel + 1) A = (svdLoop eps (fuel + 1) A (identity n)).map fun s => (fun i => s.1 i i, s.2) := rfl
  rw [this, hl]
  rfl

lemma fromSVD_identity (D : Fin n → ℝ) (i j : Fin n) : matrixFromSVD D (identity n) i j = if i = j then D i else 0 := by
  have : matrixFromSVD D (identity n) i j = ((List.finRange n).map fun k => identity n (min i j) k * D k * identity n (max i j) k).sum := rfl
  rw [this, ← List.ofFn_eq_map, List.sum_ofFn, Finset.sum_eq_single (min i j)]
  · unfold identity
    rcases lt_trichotomy i j with h | h | h
    · rw [min_eq_left h.le, max_eq_right h.le, if_pos rfl, if_neg h.ne', if_neg h.ne]; ring
    · subst h; simp
    · rw [min_eq_right h.le, max_eq_left h.le, if_pos rfl, if_neg h.ne', if_neg h.ne']; ring
  · intro b _ hb
    simp only [identity]
    rw [if_neg (Ne.symm hb)]; ring
  · intro h; exact absurd (Finset.mem_univ _) h

/-- If the entries away from the diagonal do not exceed the tolerance then only the weights are used: the coefficients are those of the weighted mean, whatever the degree. -/
lemma solve_small (eps : ℝ) (heps : 0 < eps) (fuel : ℕ) (phi : Fin k → ℝ) (P : Fin k → Fin n → ℝ) (zero : Fin n) (h0 : ∀ nb, P nb zero = 1)
    (hoff : ∀ i j, i < j → |momentMatrix phi P i j| ≤ eps) (hdiag : ∀ i, tolerance eps (diagOf (momentMatrix phi P)) < |diagOf (momentMatrix phi P) i|) :
    solve eps (fuel + 1) phi P zero = some fun nb => phi nb / ∑ nb, phi nb := by
  have hM : diagOf (momentMatrix phi P) zero = ∑ nb, phi nb := by
    have : diagOf (momentMatrix phi P) zero = ((List.finRange k).map fun nb => P nb zero * P nb zero * phi nb).sum := rfl
    rw [this, ← List.ofFn_eq_map, List.sum_ofFn]
    exact Finset.sum_congr rfl fun nb _ => by rw [h0]; ring
  have hB : ∀ i, pseudoInverse eps (diagOf (momentMatrix phi P)) (identity n) zero i = if zero = i then 1 / ∑ nb, phi nb else 0 := by
    intro i
    have : pseudoInverse eps (diagOf (momentMatrix phi P)) (identity n) zero i
      = matrixFromSVD (fun i => if |diagOf (momentMatrix phi P) i| ≤ tolerance eps (diagOf (momentMatrix phi P)) then 0 else 1 / diagOf (momentMatrix phi P) i) (identity n) zero i := rfl
    rw [this, fromSVD_identity]
    split_ifs with h1 h2
    · exact absurd h2 (not_le.2 (hdiag zero))
    · rw [hM]
    · rfl
  have hS := svd_small eps heps fuel _ hoff
  unfold solve
  rw [hS]
  have hno : ¬ ∃ i, |diagOf (momentMatrix phi P) i| ≤ tolerance eps (diagOf (momentMatrix phi P)) := by
    rintro ⟨i, hi⟩
    exact absurd hi (not_le.2 (hdiag i))
  refine (if_neg hno).trans ?_
  congr 1
  funext nb
  have : coefficients phi P (pseudoInverse eps (diagOf (momentMatrix phi P)) (identity n)) zero nb
    = ((List.finRange n).map fun i => pseudoInverse eps (diagOf (momentMatrix phi P)) (identity n) zero i * P nb i * phi nb).sum := rfl
  refine Eq.trans this ?_
  rw [← List.ofFn_eq_map, List.sum_ofFn, Finset.sum_eq_single zero]
  · rw [hB, if_pos rfl, h0]
    ring
  · intro i _ hi
    rw [hB, if_neg (Ne.symm hi)]
    ring
  · intro h; exact absurd (Finset.mem_univ _) h

/-! ### Three sources around the target -/

/-- Three sources at distance 1 from the origin of the plane. -/
noncomputable def ringSources : Fin 3 → Pt ℝ 2 := ![![1, 0], ![-3 / 5, 4 / 5], ![-3 / 5, -4 / 5]]

/-- The weight of each of them for `Wendland<6>`. -/
noncomputable def ringWeight : ℝ := 70511 / 11 ^ 11

lemma ring_dist (j : Fin 3) : distancePoint (ringSources j) (fun _ => 0) = 1 := by
  rw [distancePoint, Real.sqrt_eq_one]
  fin_cases j <;> norm_num [ringSources, Fin.sum_univ_two]

lemma ring_radius (eps : ℝ) (h1 : eps ≤ 1) : radius eps (fun _ => 0) ringSources = 11 / 10 := by
  have : List.finRange 3 = [0, 1, 2] := by decide
  rw [radius, this]
  simp [ring_dist, max_eq_right h1]

lemma ring_normalize (eps : ℝ) (h1 : eps ≤ 1) (j : Fin 3) (d : Fin 2) : normalize eps (fun _ => 0) ringSources j d = ringSources j d * (10 / 11) := by
  rw [normalize, ring_radius eps h1, sub_zero]
  ring

lemma ring_weights (eps : ℝ) (h0 : 0 < eps) (h1 : eps ≤ 1) (j : Fin 3) : weights .wendland6 (normalize eps (fun _ => 0) ringSources) j = ringWeight := by
  rw [weights, normalize_dist eps h0, ring_radius eps h1, ring_dist, CRBF.evaluate, abs_of_pos (by norm_num : (0 : ℝ) < 1 / (11 / 10)), min_eq_left (by norm_num)]
  norm_num [CRBF.func, evaluatePolynomial, ringWeight]

lemma basis_2_1 (x : Pt ℝ 2) : evaluateBasis 2 1 (coord x) = some [1, x 0, x 1] := by
  simp [evaluateBasis, fillDegs, fillDims, fillSlice, sliceLen, basisSize, basisSizeLoop, coord, List.range_succ, Function.update]

/-- The basis at the sources. -/
noncomputable def ringP (j : Fin 3) (i : Fin (basisSize 2 1)) : ℝ := if i.val = 0 then 1 else if i.val = 1 then ringSources j 0 * (10 / 11) else ringSources j 1 * (10 / 11)

lemma three (i : Fin (basisSize 2 1)) : i.val = 0 ∨ i.val = 1 ∨ i.val = 2 := by
  have h : basisSize 2 1 = 3 := by decide
  have := i.2
  omega

lemma ring_vandermonde (eps : ℝ) (h1 : eps ≤ 1) : vandermonde 1 (normalize eps (fun _ => 0) ringSources) = some ringP := by
  have h : ∀ j, vandermondeRow 1 (normalize eps (fun _ => 0) ringSources j) = some (ringP j) := by
    intro j
    rw [vandermondeRow, basis_2_1, Option.map_some, ring_normalize eps h1, ring_normalize eps h1]
    congr 1
    funext i
    rcases three i with h | h | h <;> simp [ringP, h]
  rw [vandermonde, dif_pos (fun j => by rw [h]; rfl)]
  congr 1
  funext j
  exact Option.get_of_eq_some _ (h j)

/-- The entries of the moment matrix, divided by the weight. -/
noncomputable def ringM : ℕ → ℕ → ℝ
  | 0, 0 => 3
  | 0, 1 => -2 / 11
  | 1, 0 => -2 / 11
  | 1, 1 => 172 / 121
  | 2, 2 => 128 / 121
  | _, _ => 0

lemma ring_moment (i j : Fin (basisSize 2 1)) : momentMatrix (fun _ => ringWeight) ringP i j = ringWeight * ringM i.val j.val := by
  have : momentMatrix (fun _ => ringWeight) ringP i j = ((List.finRange 3).map fun nb => ringP nb i * ringP nb j * ringWeight).sum := rfl
  have h3 : List.finRange 3 = [0, 1, 2] := by decide
  have e0 : ringSources 0 = ![1, 0] := rfl
  have e1 : ringSources 1 = ![-3 / 5, 4 / 5] := rfl
  have e2 : ringSources 2 = ![-3 / 5, -4 / 5] := rfl
  rw [this, h3]
  simp only [List.map_cons, List.map_nil, List.sum_cons, List.sum_nil]
  rcases three i with hi | hi | hi <;> rcases three j with hj | hj | hj <;> simp only [ringP, hi, hj, ringM, e0, e1, e2] <;> norm_num <;> ring

/-- The coefficients that are computed in single precision, but for the roundings: the mean. -/
lemma ring_coefficients (fuel : ℕ) : mlsCoefficients (2 ^ (-23 : ℤ)) (fuel + 1) .wendland6 1 (fun _ => 0) ringSources = some fun _ => 1 / 3 := by
  have e1 : (2 : ℝ) ^ (-23 : ℤ) ≤ 1 := by norm_num
  have e0 : (0 : ℝ) < 2 ^ (-23 : ℤ) := by norm_num
  have hw : weights .wendland6 (normalize (2 ^ (-23 : ℤ)) (fun _ => 0) ringSources) = fun _ => ringWeight := funext fun j => ring_weights _ e0 e1 j
  have hwp : (0 : ℝ) < ringWeight := by norm_num [ringWeight]
  rw [mlsCoefficients, ring_vandermonde _ e1, Option.bind_some, hw]
  have hD : ∀ i, 1 * ringWeight ≤ diagOf (momentMatrix (fun _ => ringWeight) ringP) i ∧ diagOf (momentMatrix (fun _ => ringWeight) ringP) i ≤ 3 * ringWeight := by
    intro i
    have : diagOf (momentMatrix (fun _ => ringWeight) ringP) i = momentMatrix (fun _ => ringWeight) ringP i i := rfl
    rw [this, ring_moment]
    rcases three i with h | h | h <;> rw [h] <;> simp only [ringM] <;> constructor <;> linarith
  refine (solve_small _ e0 fuel (fun _ => ringWeight) ringP _ (fun nb => rfl) (fun i j hij => ?_) fun i => ?_).trans ?_
  · rw [ring_moment]
    have : i.val < j.val := hij
    rcases three i with hi | hi | hi <;> rcases three j with hj | hj | hj <;> rw [hi, hj] <;> first | omega | norm_num [ringM, ringWeight]
  · have h1 : maxEigen (diagOf (momentMatrix (fun _ => ringWeight) ringP)) ≤ 3 * ringWeight := maxEigen_le _ _ (by linarith) fun i => by
      rw [abs_of_pos (by linarith [(hD i).1])]
      exact (hD i).2
    rw [abs_of_pos (by linarith [(hD i).1]), tolerance]
    refine lt_of_lt_of_le ?_ (hD i).1
    have : ((basisSize 2 1 : ℕ) : ℝ) = 3 := by
      have : basisSize 2 1 = 3 := by decide
      exact_mod_cast this
    rw [this]
    norm_num
    linarith
  · congr 1
    funext nb
    simp
    field_simp

lemma linear_support (f : MvPolynomial (Fin 2) ℝ) (hf : f.totalDegree ≤ 1) : f.support ⊆ {0, Finsupp.single 0 1, Finsupp.single 1 1} := by
  intro e he
  have h1 := (le_totalDegree he).trans hf
  rw [Finsupp.sum_fintype _ _ (fun _ => rfl), Fin.sum_univ_two] at h1
  have : (e 0 = 0 ∧ e 1 = 0) ∨ (e 0 = 1 ∧ e 1 = 0) ∨ (e 0 = 0 ∧ e 1 = 1) := by omega
  simp only [Finset.mem_insert, Finset.mem_singleton]
  rcases this with ⟨h2, h3⟩ | ⟨h2, h3⟩ | ⟨h2, h3⟩
  · left; ext d; fin_cases d <;> simp [h2, h3]
  · right; left; ext d; fin_cases d <;> simp [h2, h3]
  · right; right; ext d; fin_cases d <;> simp [h2, h3]

lemma linear_sum (f : MvPolynomial (Fin 2) ℝ) (hf : f.totalDegree ≤ 1) {M : Type} [AddCommMonoid M] (g : (Fin 2 →₀ ℕ) → ℝ → M) (hg : ∀ e, g e 0 = 0) :
    ∑ e ∈ f.support, g e (f.coeff e) = g 0 (f.coeff 0) + (g (Finsupp.single 0 1) (f.coeff (Finsupp.single 0 1)) + g (Finsupp.single 1 1) (f.coeff (Finsupp.single 1 1))) := by
  have h1 : (0 : Fin 2 →₀ ℕ) ∉ ({Finsupp.single 0 1, Finsupp.single 1 1} : Finset (Fin 2 →₀ ℕ)) := by
    simp only [Finset.mem_insert, Finset.mem_singleton, not_or]
    exact ⟨fun h => by simpa using h.symm, fun h => by simpa using h.symm⟩
  have h2 : (Finsupp.single 0 1 : Fin 2 →₀ ℕ) ∉ ({Finsupp.single 1 1} : Finset (Fin 2 →₀ ℕ)) := by
    rw [Finset.mem_singleton, Finsupp.single_left_inj one_ne_zero]
    decide
  rw [Finset.sum_subset (linear_support f hf) fun e _ he => by rw [notMem_support_iff.1 he, hg], Finset.sum_insert h1, Finset.sum_insert h2, Finset.sum_singleton]

lemma linear_eval (f : MvPolynomial (Fin 2) ℝ) (hf : f.totalDegree ≤ 1) (x : Pt ℝ 2) :
    eval x f = f.coeff 0 + f.coeff (Finsupp.single 0 1) * x 0 + f.coeff (Finsupp.single 1 1) * x 1 := by
  rw [eval_eq', linear_sum f hf (fun e c => c * ∏ i, x i ^ e i) (fun e => zero_mul _)]
  simp [Fin.prod_univ_two]
  ring

/-- **C101 fails in single precision with `Wendland<6>`**: the three sources determine every polynomial of degree 1, but the interpolation of the first coordinate at the origin is `-1/15` instead of 0,
because the entries of the moment matrix away from the diagonal are below the machine epsilon and are dropped.  The sources are at distance 1 from the target. -/
theorem mls_defect_tolerance :
    (∀ f : MvPolynomial (Fin 2) ℝ, f.totalDegree ≤ 1 → (∀ j, eval (ringSources j) f = 0) → f = 0) ∧
    ∀ fuel, ∃ c, mlsCoefficients (2 ^ (-23 : ℤ)) (fuel + 1) .wendland6 1 (fun _ => 0) ringSources = some c ∧
      ∑ j, c j * eval (ringSources j) (X 0 : MvPolynomial (Fin 2) ℝ) = -1 / 15 ∧ eval (fun _ => 0) (X 0 : MvPolynomial (Fin 2) ℝ) = 0 := by
  refine ⟨fun f hf hv => ?_, fun fuel => ⟨_, ring_coefficients fuel, ?_, by simp⟩⟩
  · have h0 := hv 0
    have h1 := hv 1
    have h2 := hv 2
    have e0 : ringSources 0 = ![1, 0] := rfl
    have e1 : ringSources 1 = ![-3 / 5, 4 / 5] := rfl
    have e2 : ringSources 2 = ![-3 / 5, -4 / 5] := rfl
    rw [linear_eval f hf] at h0 h1 h2
    rw [e0] at h0
    rw [e1] at h1
    rw [e2] at h2
    simp at h0 h1 h2
    have z1 : f.coeff (Finsupp.single 1 1) = 0 := by linarith
    have z2 : f.coeff (Finsupp.single 0 1) = 0 := by linarith
    have z3 : f.coeff 0 = 0 := by linarith
    ext e
    by_cases he : e ∈ f.support
    · have := linear_support f hf he
      simp only [Finset.mem_insert, Finset.mem_singleton] at this
      rcases this with rfl | rfl | rfl
      · rw [z3, coeff_zero]
      · rw [z2, coeff_zero]
      · rw [z1, coeff_zero]
    · rw [notMem_support_iff.1 he, coeff_zero]
  · have e0 : ringSources 0 = ![1, 0] := rfl
    have e1 : ringSources 1 = ![-3 / 5, 4 / 5] := rfl
    have e2 : ringSources 2 = ![-3 / 5, -4 / 5] := rfl
    simp [Fin.sum_univ_three, e0, e1, e2]
    norm_num

/-- The hypotheses of `mls_error_positions_partial` are met by the same sources, with the function `Wendland<0>` in single precision. -/
example : ∃ N : ℕ, ∀ fuel ≥ N, ∃ c, mlsCoefficients (2 ^ (-23 : ℤ)) fuel .wendland0 1 (fun _ => 0) ringSources = some c ∧
    |∑ j, c j * eval (ringSources j) (X 0 : MvPolynomial (Fin 2) ℝ)| ≤ 1 / 1000 := by
  have e1 : (2 : ℝ) ^ (-23 : ℤ) ≤ 1 := by norm_num
  have hF : CRBF.wendland0.evaluate (10 / 11) = 1 / 121 := by
    rw [CRBF.evaluate, abs_of_pos (by norm_num : (0 : ℝ) < 10 / 11), min_eq_left (by norm_num)]
    norm_num [CRBF.func, evaluatePolynomial]
  have hF0 : CRBF.wendland0.evaluate 0 = 1 := by norm_num [CRBF.evaluate, CRBF.func, evaluatePolynomial]
  have e0 : ringSources 0 = ![1, 0] := rfl
  have e1' : ringSources 1 = ![-3 / 5, 4 / 5] := rfl
  have e2 : ringSources 2 = ![-3 / 5, -4 / 5] := rfl
  have hform : ∀ q : MvPolynomial (Fin 2) ℝ, q.totalDegree ≤ 1 → 1 * ∑ e ∈ q.support, q.coeff e ^ 2 ≤ ∑ j, eval (normalize (2 ^ (-23 : ℤ)) (fun _ => 0) ringSources j) q ^ 2 := by
    intro q hq
    rw [linear_sum q hq (fun _ c => c ^ 2) (fun _ => by norm_num), Fin.sum_univ_three]
    simp only [linear_eval q hq, ring_normalize _ e1, e0, e1', e2]
    simp
    generalize q.coeff 0 = a
    generalize q.coeff (Finsupp.single 0 1) = b
    generalize q.coeff (Finsupp.single 1 1) = c
    nlinarith [sq_nonneg (a - b), sq_nonneg (a + b), sq_nonneg a, sq_nonneg b, sq_nonneg c]
  obtain ⟨N, hN⟩ := mls_error_positions_partial (2 ^ (-23 : ℤ)) (by norm_num) .wendland0 1 (fun _ => 0) ringSources 1 one_pos hform (by
    rw [hF, hF0]
    norm_num [Nat.choose])
  refine ⟨N, fun fuel hf => ?_⟩
  obtain ⟨c, hc, herr⟩ := hN fuel hf
  refine ⟨c, hc, ?_⟩
  have h1 := herr (X 0) (by simp)
  rw [ring_radius _ e1, hF] at h1
  have hr : recentre (fun _ : Fin 2 => (0 : ℝ)) (11 / 10) (X 0) = C (11 / 10) * X 0 := by simp [recentre]
  have hX : (C (11 / 10) * X 0 : MvPolynomial (Fin 2) ℝ) = monomial (Finsupp.single 0 1) (11 / 10) := by rw [X, C_mul_monomial, mul_one]
  rw [hr, hX, support_monomial, if_neg (by norm_num), Finset.sum_singleton, coeff_monomial, if_pos rfl, eval_X, sub_zero] at h1
  refine h1.trans ?_
  norm_num [Nat.choose]

end ArborX.Interp

namespace ArborX.Fp

open Nearest

/-- The tolerance of the decomposition is absolute: in `float` and in `double`, with `epsilon` the machine epsilon, the values returned for the matrix all of whose entries are `epsilon / 2` are both `epsilon / 2`
and `U` is the identity, whereas its eigenvalues are `epsilon` and 0. -/
theorem svd_float_defect_tolerance (F : Format) (bit : Num → Num → Num → Bool) (eps : ℝ) (heps : 0 < eps) (fuel : ℕ) :
    F.svd bit eps (fuel + 1) (fun _ _ : Fin 2 => some ((eps / 2 : ℝ) : EReal)) = some (fun _ => some ((eps / 2 : ℝ) : EReal), fun i j => if i = j then some 1 else some 0) := by
  have hstop : nanLe (nargmax (fun _ _ : Fin 2 => some ((eps / 2 : ℝ) : EReal))).1 (some (eps : EReal)) = true := by
    obtain ⟨m, h1, h2, h3, h4, h5⟩ := nargmax_spec (fun _ _ : Fin 2 => (some ((eps / 2 : ℝ) : EReal) : Num))
    rw [h1]
    have : m ≤ eps := by
      cases e : (nargmax (fun _ _ : Fin 2 => (some ((eps / 2 : ℝ) : EReal) : Num))).2 with
      | none => rw [h5 e]; exact_mod_cast heps.le
      | some pq =>
        obtain ⟨h6, _⟩ := h4 pq.1 pq.2 e
        have h7 : nabs (some ((eps / 2 : ℝ) : EReal)) = some m := h6
        rw [nabs_real, abs_of_pos (by linarith)] at h7
        rw [← Option.some.inj h7]
        exact_mod_cast (by linarith : eps / 2 ≤ eps)
    simpa [nanLe] using this
  rw [Format.svd, Format.svdLoop, if_pos hstop, Option.map_some]

end ArborX.Fp
