import Verif.Interp.Degenerate

/-!
# Moving least squares with all sources at the target

A case in which the moment matrix is singular: only the constant stays in use.  It shows that
the hypotheses of the theorems of `Degenerate.lean` are met by sources for which monomials are
taken out.
-/

namespace ArborX.Interp

open ArborX.Geometry MvPolynomial

variable {k dim m : ℕ}

/-- The matrix with one entry in the corner. -/
noncomputable def corner (m : ℕ) (W : ℝ) : Mat (m + 1) := fun i j => if i = 0 ∧ j = 0 then W else 0

/-- Its diagonal. -/
noncomputable def cornerDiag (m : ℕ) (W : ℝ) : Fin (m + 1) → ℝ := fun i => if i = 0 then W else 0

/-- The identity, where `symmetricSVDKernel` starts. -/
noncomputable def identity (n : ℕ) : Mat n := fun i j => if i = j then 1 else 0

theorem corner_echelon (tol W : ℝ) (htol : 0 < tol) (todo row : ℕ) :
    rowEchelon tol todo row (corner m W) id = some (corner m W, id) ∨ m + 1 ≤ todo := by
  induction todo with
  | zero => exact Or.inl rfl
  | succ todo ih =>
    by_cases htodo : m + 1 ≤ todo + 1
    · exact Or.inr htodo
    left
    rcases ih with ih | ih
    swap
    · omega
    rw [rowEchelon]
    split
    · rename_i h
      have hp : findPivot (corner m W) row ⟨m + 1 - (todo + 1), h.2⟩ ⟨0, by omega⟩
          = ⟨0, by omega⟩ := by
        rw [findPivot, (pivot_fold (fun i => |corner m W i _|) _ _).2]
        intro i hi
        have : ¬ (i = 0 ∧ (⟨m + 1 - (todo + 1), h.2⟩ : Fin (m + 1)) = 0) := by
          rintro ⟨h1, h2⟩
          have := congrArg Fin.val h2
          simp only [Fin.val_zero] at this
          omega
        rw [corner, if_neg this, abs_zero]
      dsimp only
      rw [hp, if_pos]
      · exact ih
      · have : ¬ ((⟨0, by omega⟩ : Fin (m + 1)) = 0 ∧
            (⟨m + 1 - (todo + 1), h.2⟩ : Fin (m + 1)) = 0) := by
          rintro ⟨h1, h2⟩
          have := congrArg Fin.val h2
          simp only [Fin.val_zero] at this
          omega
        rw [corner, if_neg this, abs_zero]
        exact htol
    · rfl

theorem corner_rowEchelon (tol W : ℝ) (htol : 0 < tol) (hW : tol ≤ W) :
    rowEchelon tol (m + 1) 0 (corner m W) id = some (corner m W, id) := by
  have hWp : 0 < W := htol.trans_le hW
  rw [rowEchelon, dif_pos ⟨Nat.succ_pos m, by omega⟩]
  dsimp only
  have hc : (⟨m + 1 - (m + 1), by omega⟩ : Fin (m + 1)) = 0 := Fin.ext (by simp)
  have h0 : (⟨0, by omega⟩ : Fin (m + 1)) = 0 := rfl
  have hval : corner m W 0 0 = W := by rw [corner, if_pos ⟨rfl, rfl⟩]
  have hp : findPivot (corner m W) 0 0 0 = 0 := findPivot_first _ _ fun i => by
    rw [hval, corner]
    split
    · exact le_rfl
    · rw [abs_zero]; exact abs_nonneg _
  rw [hc, h0, hp, hval, abs_of_pos hWp, if_neg (not_lt.2 hW), if_neg hWp.ne']
  have he : eliminateBelow (swapRows (corner m W) 0 0) 0 0 = corner m W := by
    funext i j
    have hs : swapRows (corner m W) 0 0 = corner m W := by
      funext a b
      rw [swapRows_eq, Equiv.swap_self]; rfl
    rw [hs, eliminateBelow]
    split
    · rename_i hi
      have hi' : i ≠ 0 := hi.ne'
      have hz : ∀ j, corner m W i j = 0 := fun j => by rw [corner, if_neg (fun h => hi' h.1)]
      simp only [hz]
      split
      · rfl
      · split <;> simp
    · rfl
  have hs : swapPerm (id : Fin (m + 1) → Fin (m + 1)) 0 0 = id := by
    rw [swapPerm_eq, Equiv.swap_self]; rfl
  rw [he, hs]
  exact (corner_echelon tol W htol m 1).resolve_right (by omega)

theorem rowMax_zero (M : Mat m) (i : Fin m) (h : ∀ j, M i j = 0) : rowMax M i = 0 := by
  rw [rowMax]
  induction (List.finRange m).filter fun j : Fin m => decide (i ≤ j) with
  | nil => rfl
  | cons a l ih => rw [List.foldl_cons, h a]; simpa using ih

theorem corner_svd (eps W : ℝ) (heps : 0 < eps) (fuel : ℕ) :
    symmetricSVD eps (fuel + 1) (corner m W) = some (cornerDiag m W, identity (m + 1)) := by
  have h : (argmaxUpper (corner m W)).1 ≤ eps := by
    obtain ⟨_, h2, h3⟩ := argmax_spec (corner m W)
    rcases hA : (argmaxUpper (corner m W)).2 with _ | ⟨p, q⟩
    · rw [h3 hA]; exact heps.le
    · obtain ⟨h4, h5⟩ := h2 p q hA
      rw [h4, corner, if_neg, abs_zero]
      · exact heps.le
      · rintro ⟨rfl, rfl⟩
        exact lt_irrefl _ h5
  have hl : svdLoop eps (fuel + 1) (corner m W) (identity (m + 1))
      = some (corner m W, identity (m + 1)) := by
    rw [svdLoop.eq_def]; exact if_pos h
  have hd : (fun i => corner m W i i) = cornerDiag m W := by
    funext i; simp [corner, cornerDiag]
  have : symmetricSVD eps (fuel + 1) (corner m W)
      = (svdLoop eps (fuel + 1) (corner m W) (identity (m + 1))).map
        fun s => (fun i => s.1 i i, s.2) := rfl
  rw [this, hl, ← hd]
  rfl

theorem corner_fromSVD (W : ℝ) :
    matrixFromSVD (cornerDiag m W) (identity (m + 1)) = corner m W := by
  funext i j
  have : matrixFromSVD (cornerDiag m W) (identity (m + 1)) i j
      = ((List.finRange (m + 1)).map fun k => identity (m + 1) (min i j) k * cornerDiag m W k
          * identity (m + 1) (max i j) k).sum := rfl
  rw [this, ← List.ofFn_eq_map, List.sum_ofFn, Finset.sum_eq_single (min i j)]
  · simp only [identity, if_true, one_mul]
    rcases lt_trichotomy i j with h | h | h
    · rw [min_eq_left h.le, max_eq_right h.le, if_neg h.ne', mul_zero, corner, if_neg]
      rintro ⟨rfl, rfl⟩; exact lt_irrefl _ h
    · subst h; simp [corner, cornerDiag]
    · rw [min_eq_right h.le, max_eq_left h.le, if_neg h.ne', mul_zero, corner, if_neg]
      rintro ⟨rfl, rfl⟩; exact lt_irrefl _ h
  · intro b _ hb
    simp only [identity]
    rw [if_neg (Ne.symm hb)]; ring
  · intro h; exact absurd (Finset.mem_univ _) h

theorem corner_maxEigen (W : ℝ) (hW : 0 < W) : maxEigen (cornerDiag m W) = W := by
  refine le_antisymm (maxEigen_le _ _ hW.le fun i => ?_) ?_
  · rw [cornerDiag]
    split
    · exact (abs_of_pos hW).le
    · rw [abs_zero]; exact hW.le
  · have := le_maxEigen (cornerDiag m W) 0
    simpa [cornerDiag, abs_of_pos hW] using this

/-- If the basis functions vanish at all sources but for the constant, only the constant is
kept. -/
theorem keptSet_corner {n : ℕ} (eps : ℝ) (heps : 0 < eps) (fuel : ℕ) (phi : Fin k → ℝ)
    (hphi : 0 < ∑ nb, phi nb) (P : Fin k → Fin n → ℝ) (z : Fin n) (hz : (z : ℕ) = 0)
    (hP : ∀ nb i, P nb i = if i = z then 1 else 0) (hsmall : n * eps ≤ 1) :
    keptSet eps (fuel + 1) phi P = some {z} := by
  obtain ⟨m, rfl⟩ : ∃ m, n = m + 1 := ⟨n - 1, by have := z.2; omega⟩
  obtain rfl : z = 0 := Fin.ext hz
  have hM : momentMatrix phi P = corner m (∑ nb, phi nb) := by
    funext i j
    rw [momentMatrix, ← List.ofFn_eq_map, List.sum_ofFn, corner]
    simp only [hP]
    split_ifs with h1 h2 h3 <;> simp_all
  generalize hWW : ∑ nb, phi nb = W at *
  have htol : tolerance eps (cornerDiag m W) = (m + 1 : ℕ) * W * eps := by
    rw [tolerance, corner_maxEigen W hphi]
  have htolpos : 0 < tolerance eps (cornerDiag m W) := by
    rw [htol]; positivity
  have htolle : tolerance eps (cornerDiag m W) ≤ W := by
    rw [htol]
    calc ((m + 1 : ℕ) : ℝ) * W * eps = ((m + 1 : ℕ) * eps) * W := by ring
      _ ≤ 1 * W := mul_le_mul_of_nonneg_right hsmall hphi.le
      _ = W := one_mul W
  rw [keptSet, hM, corner_svd eps W heps, Option.bind_some]
  dsimp only
  split
  · rw [corner_fromSVD, corner_rowEchelon _ W htolpos htolle, Option.map_some]
    congr 1
    ext r
    simp only [Finset.mem_filter, Finset.mem_univ, true_and, Finset.mem_singleton, id]
    constructor
    · intro h
      by_contra hr
      exact h ⟨r, by rw [rowMax_zero _ _ fun j => by
        rw [corner, if_neg fun h => hr h.1]]; exact htolpos, rfl⟩
    · rintro rfl ⟨i, hi, rfl⟩
      have := le_rowMax (corner m W) 0 0 le_rfl
      rw [corner, if_pos ⟨rfl, rfl⟩, abs_of_pos hphi] at this
      linarith
  · rename_i h
    have hm : ∀ r : Fin (m + 1), r = 0 := by
      intro r
      by_contra hr
      exact h ⟨r, by rw [cornerDiag, if_neg hr, abs_zero]; exact htolpos.le⟩
    congr 1
    ext r
    simp [hm r]

/-- All sources at the target: only the constant is in use. -/
theorem keptMonomials_coincident (eps : ℝ) (heps : 0 < eps) (fuel : ℕ) (F : CRBF) (deg : ℕ)
    (t : Pt ℝ dim) (hk : 0 < k) (hsmall : (dim + deg).choose deg * eps ≤ 1) :
    keptMonomials eps (fuel + 1) F deg t (fun _ : Fin k => t) = some {0} := by
  have hsize : (((dim + deg).choose deg : ℕ) : ℝ) = basisSize dim deg := by rw [basisSize_eq]
  rw [hsize] at hsmall
  have hw := weights_pos F eps heps t (fun _ : Fin k => t)
  rw [keptMonomials, vandermonde_eq, Option.bind_some]
  rw [keptSet_corner eps heps fuel _ (Finset.sum_pos (fun nb _ => hw nb)
    ⟨⟨0, hk⟩, Finset.mem_univ _⟩) _ ⟨0, basisSize_pos dim deg⟩ rfl (fun nb i => ?_) hsmall]
  · rw [Option.map_some, Finset.image_singleton, expoAt_zero]
  · split
    · rename_i h
      rw [h, expoAt_zero]; simp
    · rename_i h
      obtain ⟨d, hd⟩ : ∃ d, expoAt dim deg i d ≠ 0 := by
        by_contra hall
        push Not at hall
        exact h (expoAt_inj dim deg (by rw [expoAt_zero]; exact Finsupp.ext hall))
      refine Finset.prod_eq_zero (Finset.mem_univ d) ?_
      rw [normalize, sub_self, zero_div, zero_pow hd]

/-- Two sources at the target on the line, degree 1: the hypotheses of `mls_keeps_constant` are
met, and the monomial of degree 1 is taken out. -/
example : keptMonomials (1 / 100) 1 .wendland0 1 (fun _ : Fin 1 => (3 : ℝ)) (fun _ : Fin 2 => fun _ => 3)
      = some {0} ∧
    22 * (((1 + 1).choose 1 : ℕ) * (1 / 100 : ℝ))
      ≤ ∑ j : Fin 2, CRBF.wendland0.evaluate (distancePoint
          (normalize (1 / 100) (fun _ : Fin 1 => (3 : ℝ)) (fun _ : Fin 2 => fun _ => 3) j)
          (fun _ => 0)) ∧
    2 * (((1 + 1).choose 1 : ℕ) * ((1 + 1).choose 1 : ℕ)) * (1 / 100 : ℝ) ≤ 1 := by
  refine ⟨keptMonomials_coincident _ (by norm_num) 0 _ _ _ (by norm_num) (by norm_num), ?_,
    by norm_num⟩
  norm_num [normalize, distancePoint, CRBF.evaluate, CRBF.func, evaluatePolynomial]

/-- For the same sources the hypotheses of `mls_degenerate_partial` are met: the interpolation
of a constant is the constant up to a factor of about the tolerance. -/
example (a : ℝ) : ∃ N : ℕ, ∀ fuel ≥ N, ∃ c : Fin 2 → ℝ,
    mlsCoefficients (1 / 100) fuel .wendland0 1 (fun _ : Fin 1 => (3 : ℝ))
      (fun _ : Fin 2 => fun _ => 3) = some c ∧
    |∑ j, c j * a - a| ≤ 1 / 16 * |a| := by
  obtain ⟨N, hN⟩ := mls_degenerate_partial (1 / 100) (by norm_num) .wendland0 1 (Nat.zero_lt_two)
    (fun _ : Fin 1 => (3 : ℝ)) (fun _ : Fin 2 => fun _ => 3)
  refine ⟨N + 1, fun fuel hf => ?_⟩
  obtain ⟨fuel, rfl⟩ : ∃ f, fuel = f + 1 := ⟨fuel - 1, by omega⟩
  obtain ⟨c, S, hc, hS, herr⟩ := hN (fuel + 1) (by omega)
  rw [keptMonomials_coincident _ (by norm_num) fuel _ _ _ (by norm_num) (by norm_num),
    Option.some.injEq] at hS
  subst hS
  refine ⟨c, hc, ?_⟩
  have hy : ∀ j, normalize (1 / 100) (fun _ : Fin 1 => (3 : ℝ)) (fun _ : Fin 2 => fun _ => 3) j
      = fun _ => 0 := fun j => by funext d; simp [normalize]
  have hev : CRBF.wendland0.evaluate (distancePoint (fun _ : Fin 1 => (0 : ℝ)) fun _ => 0) = 1 := by
    norm_num [distancePoint, CRBF.evaluate, CRBF.func, evaluatePolynomial]
  have hsupp : ∀ b : ℝ, (C b : MvPolynomial (Fin 1) ℝ).support ⊆ {0} := by
    intro b e he
    rw [mem_support_iff, coeff_C] at he
    rw [Finset.mem_singleton]
    by_contra h
    exact he (if_neg (Ne.symm h))
  have hsum : ∀ (b : ℝ) (g : ℝ → ℝ), g 0 = 0 →
      ∑ e ∈ (C b : MvPolynomial (Fin 1) ℝ).support, g ((C b : MvPolynomial (Fin 1) ℝ).coeff e)
        = g b := by
    intro b g hg
    rw [Finset.sum_subset (hsupp b) fun e _ he => by rw [notMem_support_iff.1 he, hg],
      Finset.sum_singleton, coeff_zero_C]
  have hrec : ∀ R : ℝ, recentre (fun _ : Fin 1 => (3 : ℝ)) R (C a) = C a := by
    intro R; simp [recentre]
  have := herr 1 2 le_rfl (by norm_num) (fun q hq => ?_) 2 (by norm_num) (by norm_num) (C a)
    (by simp) (by rw [hrec]; exact hsupp a)
  · rw [hrec, hsum a _ abs_zero] at this
    simp only [eval_C] at this
    refine this.trans (le_of_eq ?_)
    norm_num
  · have hq' : q = C (q.coeff 0) := by
      ext e
      rw [coeff_C]
      split
      · rename_i h; rw [← h]
      · rename_i h
        by_contra h0
        exact h (Finset.mem_singleton.1 (hq (mem_support_iff.2 h0))).symm
    rw [hq', hsum _ (fun x => x ^ 2) (by norm_num)]
    simp only [hy, hev, eval_C, Fin.sum_univ_two]
    constructor <;> nlinarith [sq_nonneg (q.coeff 0)]

end ArborX.Interp
