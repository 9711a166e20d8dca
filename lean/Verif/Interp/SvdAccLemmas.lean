import Verif.Interp.SvdAccNum
import Verif.Interp.SvdFloatMeasure
import Verif.Interp.SvdTheorems
import Mathlib.Analysis.Matrix.Normed

/-!
# Accuracy of the symmetric singular value decomposition in floating-point arithmetic: matrices

An iteration is the rotation with the computed tangent, up to errors that are small against the matrix.
-/

namespace ArborX.Fp

open Nearest Finset Matrix
open scoped Matrix.Norms.Frobenius

variable {n : ℕ} {F : Format} {u η H : ℝ}

lemma fro_sq (M : Matrix (Fin n) (Fin n) ℝ) : ‖M‖ ^ 2 = ∑ i, ∑ j, M i j ^ 2 := by
  have key : ∀ x : ℝ, 0 ≤ x → (x ^ (1 / 2 : ℝ)) ^ 2 = x := fun x hx => by rw [← Real.sqrt_eq_rpow, Real.sq_sqrt hx]
  refine (congrArg (· ^ 2) (frobenius_norm_def M)).trans ((key _ (sum_nonneg fun i _ => sum_nonneg fun j _ => Real.rpow_nonneg (norm_nonneg _) _)).trans ?_)
  exact sum_congr rfl fun i _ => sum_congr rfl fun j _ => by simp

lemma entry_le_fro (M : Matrix (Fin n) (Fin n) ℝ) (i j : Fin n) : |M i j| ≤ ‖M‖ := by
  refine abs_le_of_sq_le_sq ?_ (norm_nonneg M)
  rw [fro_sq]
  calc M i j ^ 2 ≤ ∑ j, M i j ^ 2 := single_le_sum (f := fun j => M i j ^ 2) (fun j _ => sq_nonneg _) (mem_univ j)
    _ ≤ _ := single_le_sum (f := fun i => ∑ j, M i j ^ 2) (fun i _ => sum_nonneg fun j _ => sq_nonneg _) (mem_univ i)

lemma fro_mul_orth (M R : Matrix (Fin n) (Fin n) ℝ) (hR : R * Rᵀ = 1) : ‖M * R‖ = ‖M‖ := by
  have h : ‖M * R‖ ^ 2 = ‖M‖ ^ 2 := by
    rw [fro_sq, fro_sq, Interp.sq_sum_eq, Interp.sq_sum_eq, transpose_mul]
    have : M * R * (Rᵀ * Mᵀ) = M * (R * Rᵀ) * Mᵀ := by simp only [Matrix.mul_assoc]
    rw [this, hR, Matrix.mul_one]
  exact (sq_eq_sq₀ (norm_nonneg _) (norm_nonneg _)).1 h

lemma fro_orth_mul (M R : Matrix (Fin n) (Fin n) ℝ) (hR : R * Rᵀ = 1) : ‖R * M‖ = ‖M‖ := by
  have hR' : Rᵀ * Rᵀᵀ = 1 := by rw [transpose_transpose]; exact mul_eq_one_comm.1 hR
  have := fro_mul_orth Mᵀ Rᵀ hR'
  rwa [← transpose_mul, frobenius_norm_transpose, frobenius_norm_transpose] at this

lemma fro_split (M : Matrix (Fin n) (Fin n) ℝ) (hM : ∀ i j, M i j = M j i) (p q : Fin n) (hpq : p ≠ q) :
    ‖M‖ ^ 2 = M p p ^ 2 + M q q ^ 2 + 2 * M p q ^ 2 + 2 * ∑ i ∈ (univ.erase p).erase q, (M i p ^ 2 + M i q ^ 2)
      + ∑ i ∈ (univ.erase p).erase q, ∑ j ∈ (univ.erase p).erase q, M i j ^ 2 := by
  rw [fro_sq]
  have h1 : ∀ i, (∑ j, M i j ^ 2) = M i p ^ 2 + M i q ^ 2 + ∑ j ∈ (univ.erase p).erase q, M i j ^ 2 := fun i => sum_split p q hpq _
  simp only [h1]
  rw [sum_split p q hpq, sum_add_distrib]
  have h2 : ∀ r, (∑ j ∈ (univ.erase p).erase q, M r j ^ 2) = ∑ j ∈ (univ.erase p).erase q, M j r ^ 2 := fun r => sum_congr rfl fun j _ => by rw [hM]
  rw [h2 p, h2 q, hM q p, sum_add_distrib]
  ring

/-- The rotation of the computed tangent. -/
noncomputable def rotT (p q : Fin n) (t : ℝ) : Matrix (Fin n) (Fin n) ℝ := Interp.rot p q (1 / Real.sqrt (1 + t * t)) (-t * (1 / Real.sqrt (1 + t * t)))

lemma cosT_sq (t : ℝ) : (1 / Real.sqrt (1 + t * t)) ^ 2 * (1 + t * t) = 1 := by
  have h : 0 < 1 + t * t := by nlinarith [mul_self_nonneg t]
  rw [div_pow, one_pow, Real.sq_sqrt h.le]
  field_simp

lemma rotT_orth (p q : Fin n) (hpq : p ≠ q) (t : ℝ) : rotT p q t * (rotT p q t)ᵀ = 1 :=
  Interp.rot_orth p q hpq _ _ (by linear_combination cosT_sq t)

/-- The finite matrices of the code. -/
def emb (S : Matrix (Fin n) (Fin n) ℝ) : NMat n := fun i j => some ((S i j : ℝ) : EReal)

lemma emb_inj {S S' : Matrix (Fin n) (Fin n) ℝ} (h : emb S = emb S') : S = S' := by
  ext i j
  have := congrFun (congrFun h i) j
  simp only [emb, Option.some.injEq] at this
  exact_mod_cast this

/-- The sum of the squares of the errors. -/
lemma errors_sum (hu0 : 0 < u) {eps : ℝ} (heps : 0 < eps) (hηn : 128 * n * η ^ 2 ≤ u ^ 2 * eps ^ 2) {S E : Matrix (Fin n) (Fin n) ℝ} (hS : ∀ i j, S i j = S j i)
    {p q : Fin n} (hpq : p ≠ q) (hbe : eps < |S p q|) (hE : ∀ i j, E i j = E j i) (Epp : |E p p| ≤ 60 * u * (|S p p| + |S p q|))
    (Eqq : |E q q| ≤ 60 * u * (|S q q| + |S p q|)) (Epq : |E p q| ≤ 55 * u * |S p q|)
    (Eip : ∀ i, i ≠ p → i ≠ q → |E i p| ≤ 20 * u * (|S i p| + |S i q|) + 4 * η) (Eiq : ∀ i, i ≠ p → i ≠ q → |E i q| ≤ 20 * u * (|S i p| + |S i q|) + 4 * η)
    (Eij : ∀ i j, i ≠ p → i ≠ q → j ≠ p → j ≠ q → E i j = 0) : ‖E‖ ≤ 110 * u * ‖S‖ := by
  refine abs_le_of_sq_le_sq' ?_ (by positivity) |>.2
  rw [mul_pow, fro_split S hS p q hpq, fro_split E hE p q hpq]
  have sqb : ∀ a b k : ℝ, 0 ≤ k → ∀ e : ℝ, |e| ≤ k * (|a| + |b|) → e ^ 2 ≤ 2 * k ^ 2 * (a ^ 2 + b ^ 2) := by
    intro a b k hk e he
    have h1 : e ^ 2 ≤ (k * (|a| + |b|)) ^ 2 := by
      rw [← sq_abs e]
      exact pow_le_pow_left₀ (abs_nonneg e) he 2
    have h2 : (|a| + |b|) ^ 2 ≤ 2 * (a ^ 2 + b ^ 2) := by
      rw [← sq_abs a, ← sq_abs b]
      nlinarith [sq_nonneg (|a| - |b|)]
    calc e ^ 2 ≤ (k * (|a| + |b|)) ^ 2 := h1
      _ = k ^ 2 * (|a| + |b|) ^ 2 := by ring
      _ ≤ k ^ 2 * (2 * (a ^ 2 + b ^ 2)) := mul_le_mul_of_nonneg_left h2 (sq_nonneg k)
      _ = _ := by ring
  have s1 := sqb _ _ (60 * u) (by linarith) _ Epp
  have s2 := sqb _ _ (60 * u) (by linarith) _ Eqq
  have s3 : E p q ^ 2 ≤ (55 * u) ^ 2 * S p q ^ 2 := by
    rw [← sq_abs (E p q), ← sq_abs (S p q), ← mul_pow]
    exact pow_le_pow_left₀ (abs_nonneg _) Epq 2
  have sqη : ∀ a b e : ℝ, |e| ≤ 20 * u * (|a| + |b|) + 4 * η → e ^ 2 ≤ 1600 * u ^ 2 * (a ^ 2 + b ^ 2) + 32 * η ^ 2 := by
    intro a b e he
    have h1 : e ^ 2 ≤ (20 * u * (|a| + |b|) + 4 * η) ^ 2 := by
      rw [← sq_abs e]
      exact pow_le_pow_left₀ (abs_nonneg e) he 2
    have h2 : (20 * u * (|a| + |b|) + 4 * η) ^ 2 ≤ 2 * (20 * u * (|a| + |b|)) ^ 2 + 2 * (4 * η) ^ 2 := by nlinarith [sq_nonneg (20 * u * (|a| + |b|) - 4 * η)]
    have h3 := sqb a b (20 * u) (by linarith) (20 * u * (|a| + |b|)) (by rw [abs_of_nonneg]; positivity)
    linarith
  have s4 : ∑ i ∈ (univ.erase p).erase q, (E i p ^ 2 + E i q ^ 2) ≤ 3200 * u ^ 2 * ∑ i ∈ (univ.erase p).erase q, (S i p ^ 2 + S i q ^ 2) + n * (64 * η ^ 2) := by
    calc ∑ i ∈ (univ.erase p).erase q, (E i p ^ 2 + E i q ^ 2)
        ≤ ∑ i ∈ (univ.erase p).erase q, (3200 * u ^ 2 * (S i p ^ 2 + S i q ^ 2) + 64 * η ^ 2) := by
          refine sum_le_sum fun i hi => ?_
          simp only [mem_erase, mem_univ, and_true] at hi
          have h1 := sqη _ _ _ (Eip i hi.2 hi.1)
          have h2 := sqη _ _ _ (Eiq i hi.2 hi.1)
          linarith
      _ = 3200 * u ^ 2 * ∑ i ∈ (univ.erase p).erase q, (S i p ^ 2 + S i q ^ 2) + (((univ.erase p).erase q).card : ℝ) * (64 * η ^ 2) := by
          rw [sum_add_distrib, ← mul_sum, sum_const, nsmul_eq_mul]
      _ ≤ _ := by
          have : (((univ.erase p).erase q).card : ℝ) ≤ n := by
            have := card_le_univ ((univ.erase p).erase q : Finset (Fin n))
            rw [Fintype.card_fin] at this
            exact_mod_cast this
          have := mul_le_mul_of_nonneg_right this (by positivity : (0 : ℝ) ≤ 64 * η ^ 2)
          linarith
  have s5 : ∑ i ∈ (univ.erase p).erase q, ∑ j ∈ (univ.erase p).erase q, E i j ^ 2 = 0 := by
    refine sum_eq_zero fun i hi => sum_eq_zero fun j hj => ?_
    simp only [mem_erase, mem_univ, and_true] at hi hj
    rw [Eij i j hi.2 hi.1 hj.2 hj.1]; norm_num
  have s6 : 0 ≤ ∑ i ∈ (univ.erase p).erase q, ∑ j ∈ (univ.erase p).erase q, S i j ^ 2 := sum_nonneg fun i _ => sum_nonneg fun j _ => sq_nonneg _
  have s7 : 0 ≤ ∑ i ∈ (univ.erase p).erase q, (S i p ^ 2 + S i q ^ 2) := sum_nonneg fun i _ => by positivity
  have s8 : u ^ 2 * eps ^ 2 ≤ u ^ 2 * S p q ^ 2 := by
    refine mul_le_mul_of_nonneg_left ?_ (sq_nonneg u)
    rw [← sq_abs (S p q)]
    exact pow_le_pow_left₀ heps.le hbe.le 2
  have m1 := mul_nonneg (sq_nonneg u) s6
  have m2 := mul_nonneg (sq_nonneg u) s7
  have m3 := mul_nonneg (sq_nonneg u) (sq_nonneg (S p p))
  have m4 := mul_nonneg (sq_nonneg u) (sq_nonneg (S q q))
  have m5 := mul_nonneg (sq_nonneg u) (sq_nonneg (S p q))
  rw [s5]
  linarith


/-- One iteration on a finite matrix. -/
lemma step_err (hF : F.Wide u η H) (bit : Num → Num → Num → Bool) {N eps : ℝ} (hN : 1 ≤ N) (heps : 0 < eps) (heps1 : eps ≤ 1) (hH : 100 * (N / eps * (N / eps)) ≤ H)
    (hη : 100 * N * η ≤ u * eps) (hηn : 128 * n * η ^ 2 ≤ u ^ 2 * eps ^ 2) {S : Matrix (Fin n) (Fin n) ℝ} (hS : ∀ i j, S i j = S j i) (hSN : ∀ i j, |S i j| ≤ N) {p q : Fin n} (hpq : p ≠ q)
    (hbe : eps < |S p q|) {T : NMat n} (hR : Rotated F bit p q (emb S) T) :
    ∃ (t c s : ℝ) (S' : Matrix (Fin n) (Fin n) ℝ), T = emb S' ∧ (∀ i j, S' i j = S' j i) ∧
      F.tan bit (some (S p p : EReal)) (some (S p q : EReal)) (some (S q q : EReal)) = some (t : EReal) ∧ |t| ≤ 1 ∧
      F.cos (some (t : EReal)) = some (c : EReal) ∧ F.sin (some (t : EReal)) = some (s : EReal) ∧
      |c - 1 / Real.sqrt (1 + t * t)| ≤ 13 * u ∧ |s - -t * (1 / Real.sqrt (1 + t * t))| ≤ 13 * u ∧
      ‖S' - rotT p q t * S * (rotT p q t)ᵀ‖ ≤ 110 * u * ‖S‖ := by
  have hu0 := hF.close.u0
  have hu1 := hF.close.u1
  have hη0 := hF.close.η0
  have hη1 := hF.close.η1
  have hNP : N ≤ N / eps := by rw [le_div_iff₀ heps]; nlinarith
  have hPP : N / eps ≤ N / eps * (N / eps) := by nlinarith
  have hHN : 100 * N ≤ H := by linarith
  obtain ⟨t, ht, ht1, hres⟩ := tan_err hF bit (hSN p p) (hSN p q) (hSN q q) hN heps heps1 hbe hH hη
  obtain ⟨c, s, hc, hs, ec, es⟩ := cos_sin_err hF (by linarith) ht1
  have htan : F.tan bit (emb S p p) (emb S p q) (emb S q q) = some (t : EReal) := ht
  have hC2 := cosT_sq t
  have ht2 : t * t ≤ 1 := by
    have := mul_self_le_mul_self (abs_nonneg t) ht1
    rwa [abs_mul_abs_self, one_mul] at this
  have hCt : ∀ i j, (rotT p q t * S * (rotT p q t)ᵀ) i j = (rotT p q t * S * (rotT p q t)ᵀ) j i := by
    intro i j
    have : (rotT p q t * S * (rotT p q t)ᵀ)ᵀ = rotT p q t * S * (rotT p q t)ᵀ := by
      rw [transpose_mul, transpose_mul, transpose_transpose, Matrix.mul_assoc]
      have : Sᵀ = S := by ext i j; exact hS j i
      rw [this]
    exact congrFun (congrFun this j) i
  have hent : ∀ i j, (rotT p q t * S * (rotT p q t)ᵀ) i j = _ := fun i j => Interp.mul_rotT p q hpq (1 / Real.sqrt (1 + t * t)) (-t * (1 / Real.sqrt (1 + t * t))) _ i j
  have hent2 : ∀ i j, (rotT p q t * S) i j = _ := fun i j => Interp.rot_mul p q hpq (1 / Real.sqrt (1 + t * t)) (-t * (1 / Real.sqrt (1 + t * t))) S i j
  have hC1 : |1 / Real.sqrt (1 + t * t)| ≤ 1 := by
    have : 1 ≤ Real.sqrt (1 + t * t) := Real.one_le_sqrt.2 (by nlinarith [mul_self_nonneg t])
    rw [abs_of_pos (by positivity), div_le_one (by linarith)]
    exact this
  have hS1 : |-t * (1 / Real.sqrt (1 + t * t))| ≤ 1 := by
    rw [abs_mul, abs_neg]
    calc |t| * |1 / Real.sqrt (1 + t * t)| ≤ 1 * 1 := mul_le_mul ht1 hC1 (abs_nonneg _) (by norm_num)
      _ = 1 := by norm_num
  have ec' : |c - 1 / Real.sqrt (1 + t * t)| ≤ 13 * u := by linarith
  generalize hCdef : 1 / Real.sqrt (1 + t * t) = C at *
  -- the new matrix is finite
  have hbN := hSN p q
  have htb : ∀ x : ℝ, |x| ≤ 1 → |x * S p q| ≤ N := fun x hx => by
    rw [abs_mul]
    calc |x| * |S p q| ≤ 1 * |S p q| := mul_le_mul_of_nonneg_right hx (abs_nonneg _)
      _ ≤ N := by linarith
  obtain ⟨x, hx, ex⟩ := nmac_fin hF (z := S p p) (x := -t) (y := S p q) (hSN p p) (htb (-t) (by rwa [abs_neg])) hN (by linarith)
  obtain ⟨y, hy, ey⟩ := nmac_fin hF (z := S q q) (x := t) (y := S p q) (hSN q q) (htb t ht1) hN (by linarith)
  have hip : ∀ i, ∃ r : ℝ, F.ndot (some (c : EReal)) (emb S i p) (some (s : EReal)) (emb S i q) = some (r : EReal) ∧
      |r - (C * S i p + -t * C * S i q)| ≤ 20 * u * (|S i p| + |S i q|) + 4 * η := fun i => ndot_fin hF hC1 hS1 ec' es (hSN i p) (hSN i q) hN (by linarith)
  have hiq : ∀ i, ∃ r : ℝ, F.ndot (nneg (some (s : EReal))) (emb S i p) (some (c : EReal)) (emb S i q) = some (r : EReal) ∧
      |r - (-(-t * C) * S i p + C * S i q)| ≤ 20 * u * (|S i p| + |S i q|) + 4 * η := fun i =>
    ndot_fin hF (c := -s) (C := -(-t * C)) (by rwa [abs_neg]) hC1 (by rw [← abs_neg]; convert es using 2; ring) ec' (hSN i p) (hSN i q) hN (by linarith)
  choose fp hfp efp using hip
  choose fq hfq efq using hiq
  let S' : Matrix (Fin n) (Fin n) ℝ := fun i j =>
    if i = p then (if j = p then x else if j = q then 0 else fp j) else if i = q then (if j = p then 0 else if j = q then y else fq j)
    else if j = p then fp i else if j = q then fq i else S i j
  have hqp := hpq.symm
  have hS' : ∀ i j, S' i j = S' j i := by
    intro i j
    simp only [S']
    by_cases h1 : i = p
    · by_cases h2 : j = p
      · simp [h1, h2]
      · by_cases h3 : j = q
        · simp [h1, h3, hqp]
        · simp [h1, h2, h3]
    · by_cases h4 : i = q
      · by_cases h2 : j = p
        · simp [h4, h2, hqp]
        · by_cases h3 : j = q
          · simp [h4, h3]
          · simp [h4, h2, h3, hqp]
      · by_cases h2 : j = p
        · simp [h1, h4, h2]
        · by_cases h3 : j = q
          · simp [h1, h4, h3, hqp]
          · simp [h1, h2, h3, h4, hS i j]
  have hT : ∀ i j, T i j = some ((S' i j : ℝ) : EReal) := by
    have tip : ∀ i, i ≠ p → i ≠ q → T i p = some ((fp i : ℝ) : EReal) := fun i h1 h2 => by rw [hR.ip i h1 h2, htan, hc, hs, hfp]
    have tiq : ∀ i, i ≠ p → i ≠ q → T i q = some ((fq i : ℝ) : EReal) := fun i h1 h2 => by rw [hR.iq i h1 h2, htan, hc, hs, hfq]
    have tpp : T p p = some ((x : ℝ) : EReal) := by rw [hR.pp, htan]; exact hx
    have tqq : T q q = some ((y : ℝ) : EReal) := by rw [hR.qq, htan]; exact hy
    intro i j
    simp only [S']
    by_cases h1 : i = p
    · by_cases h2 : j = p
      · subst h1; subst h2; simpa using tpp
      · by_cases h3 : j = q
        · subst h1; subst h3
          rw [hR.pq]
          simp [hqp]
        · subst h1
          rw [hR.comm, tip j h2 h3]
          simp [h2, h3]
    · by_cases h4 : i = q
      · by_cases h2 : j = p
        · subst h4; subst h2
          rw [hR.comm, hR.pq]
          simp [hqp]
        · by_cases h3 : j = q
          · subst h4; subst h3
            simpa [hqp] using tqq
          · subst h4
            rw [hR.comm, tiq j h2 h3]
            simp [h2, h3, hqp]
      · by_cases h2 : j = p
        · subst h2; rw [tip i h1 h4]; simp [h1, h4]
        · by_cases h3 : j = q
          · subst h3; rw [tiq i h1 h4]; simp [h1, h4, hqp]
          · rw [hR.ij i j h1 h4 h2 h3]; simp [h1, h2, h3, h4, emb]
  refine ⟨t, c, s, S', by funext i j; exact hT i j, hS', ht, ht1, hc, hs, by rw [hCdef]; exact ec', by rw [hCdef]; exact es, ?_⟩
  -- the errors
  have hE : ∀ i j, (S' - rotT p q t * S * (rotT p q t)ᵀ) i j = (S' - rotT p q t * S * (rotT p q t)ᵀ) j i := by
    intro i j
    rw [Matrix.sub_apply, Matrix.sub_apply, hS' i j, hCt i j]
  have hb0 := abs_nonneg (S p q)
  have hub : u * eps ≤ u * |S p q| := mul_le_mul_of_nonneg_left hbe.le hu0.le
  have hηN : 100 * 1 * η ≤ 100 * N * η := by nlinarith
  have hηb : 100 * η ≤ u * |S p q| := by linarith
  have htb' : ∀ x : ℝ, |x| ≤ 1 → |x * S p q| ≤ |S p q| := fun x hx => by
    rw [abs_mul]
    calc |x| * |S p q| ≤ 1 * |S p q| := mul_le_mul_of_nonneg_right hx (abs_nonneg _)
      _ = _ := one_mul _
  have hCC : C ^ 2 ≤ 1 := by
    have := sq_nonneg C
    have := mul_nonneg this (mul_self_nonneg t)
    linarith
  have hCr : ∀ z : ℝ, |z| ≤ 1 → |C ^ 2 * z * (t * (S q q - S p p) - S p q * (1 - t * t))| ≤ 55 * u * |S p q| := by
    intro z hz
    rw [abs_mul]
    have h1 : |C ^ 2 * z| ≤ 1 := by
      rw [abs_mul, abs_of_nonneg (sq_nonneg C)]
      calc C ^ 2 * |z| ≤ 1 * 1 := mul_le_mul hCC hz (abs_nonneg _) (by norm_num)
        _ = 1 := by norm_num
    calc _ ≤ 1 * |t * (S q q - S p p) - S p q * (1 - t * t)| := mul_le_mul_of_nonneg_right h1 (abs_nonneg _)
      _ ≤ _ := by linarith
  have Epp : |(S' - rotT p q t * S * (rotT p q t)ᵀ) p p| ≤ 60 * u * (|S p p| + |S p q|) := by
    have e : (S' - rotT p q t * S * (rotT p q t)ᵀ) p p = (x - (S p p + -t * S p q)) - C ^ 2 * t * (t * (S q q - S p p) - S p q * (1 - t * t)) := by
      rw [Matrix.sub_apply, hent]
      simp only [hent2, S', if_pos]
      rw [hS q p]
      linear_combination (-(S p p) + t * S p q) * hC2
    rw [e]
    have h1 := abs_sub (x - (S p p + -t * S p q)) (C ^ 2 * t * (t * (S q q - S p p) - S p q * (1 - t * t)))
    have h2 := hCr t ht1
    have h3 := htb' (-t) (by rwa [abs_neg])
    have h4 := mul_le_mul_of_nonneg_left h3 hu0.le
    have h5 := mul_nonneg hu0.le (abs_nonneg (S p p))
    linarith
  have Eqq : |(S' - rotT p q t * S * (rotT p q t)ᵀ) q q| ≤ 60 * u * (|S q q| + |S p q|) := by
    have e : (S' - rotT p q t * S * (rotT p q t)ᵀ) q q = (y - (S q q + t * S p q)) + C ^ 2 * t * (t * (S q q - S p p) - S p q * (1 - t * t)) := by
      rw [Matrix.sub_apply, hent]
      simp only [hent2, S', if_pos, hqp, if_false]
      rw [hS q p]
      linear_combination (-(S q q) - t * S p q) * hC2
    rw [e]
    have h1 := abs_add_le (y - (S q q + t * S p q)) (C ^ 2 * t * (t * (S q q - S p p) - S p q * (1 - t * t)))
    have h2 := hCr t ht1
    have h3 := htb' t ht1
    have h4 := mul_le_mul_of_nonneg_left h3 hu0.le
    have h5 := mul_nonneg hu0.le (abs_nonneg (S q q))
    linarith
  have Epq : |(S' - rotT p q t * S * (rotT p q t)ᵀ) p q| ≤ 55 * u * |S p q| := by
    have e : (S' - rotT p q t * S * (rotT p q t)ᵀ) p q = C ^ 2 * 1 * (t * (S q q - S p p) - S p q * (1 - t * t)) := by
      rw [Matrix.sub_apply, hent]
      simp only [hent2, S', if_pos, hqp, if_false]
      rw [hS q p]
      ring
    rw [e]
    exact hCr 1 (by norm_num)
  have Eip : ∀ i, i ≠ p → i ≠ q → |(S' - rotT p q t * S * (rotT p q t)ᵀ) i p| ≤ 20 * u * (|S i p| + |S i q|) + 4 * η := by
    intro i h1 h2
    rw [Matrix.sub_apply, hent]
    simp only [hent2, S', if_pos, h1, h2, if_false]
    exact efp i
  have Eiq : ∀ i, i ≠ p → i ≠ q → |(S' - rotT p q t * S * (rotT p q t)ᵀ) i q| ≤ 20 * u * (|S i p| + |S i q|) + 4 * η := by
    intro i h1 h2
    rw [Matrix.sub_apply, hent]
    simp only [hent2, S', if_pos, h1, h2, hqp, if_false]
    exact efq i
  have Eij : ∀ i j, i ≠ p → i ≠ q → j ≠ p → j ≠ q → (S' - rotT p q t * S * (rotT p q t)ᵀ) i j = 0 := by
    intro i j h1 h2 h3 h4
    rw [Matrix.sub_apply, hent]
    simp only [hent2, S', h1, h2, h3, h4, if_false, sub_self]
  exact errors_sum hu0 heps hηn hS hpq hbe hE Epp Eqq Epq Eip Eiq Eij

end ArborX.Fp
