import Verif.Interp.SvdAccLemmas
import Verif.Interp.SvdFloatTheorems

/-!
# C100: accuracy of the singular value decomposition of the interpolation
-/

namespace ArborX.Fp

open Nearest Finset Matrix
open scoped Matrix.Norms.Frobenius

variable {n : ℕ} {F : Format} {u η H : ℝ}

/-! ### The orthogonal matrix -/

lemma nrotateUFold (F : Format) (p q : Fin n) (hpq : p ≠ q) (c s : Num) (l : List (Fin n)) (hl : l.Nodup) (U : NMat n) (i j : Fin n) :
    l.foldl (fun U i => (NMat.set U i p (F.ndot c (U i p) s (U i q))).set i q (F.ndot (nneg s) (U i p) c (U i q))) U i j =
      if i ∈ l then (if j = p then F.ndot c (U i p) s (U i q) else if j = q then F.ndot (nneg s) (U i p) c (U i q) else U i j) else U i j := by
  induction l generalizing U with
  | nil => simp
  | cons k l ih =>
    obtain ⟨hk, hl⟩ := List.nodup_cons.1 hl
    rw [List.foldl_cons, ih hl]
    by_cases hik : i = k
    · subst hik
      rw [if_neg hk, if_pos (by simp)]
      simp only [NMat.set, true_and]
      by_cases hjp : j = p
      · subst hjp; simp [hpq]
      · by_cases hjq : j = q
        · subst hjq; simp [hjp]
        · simp [hjp, hjq]
    · have e : ∀ r, (NMat.set U k p (F.ndot c (U k p) s (U k q))).set k q (F.ndot (nneg s) (U k p) c (U k q)) i r = U i r := by
        intro r; simp [NMat.set, hik]
      simp only [e, List.mem_cons, hik, false_or]

/-- One iteration on `U`. -/
lemma stepU_err (hF : F.Wide u η H) {p q : Fin n} (hpq : p ≠ q) {t c s : ℝ} (ht1 : |t| ≤ 1) (ec : |c - 1 / Real.sqrt (1 + t * t)| ≤ 13 * u)
    (es : |s - -t * (1 / Real.sqrt (1 + t * t))| ≤ 13 * u) (U : Matrix (Fin n) (Fin n) ℝ) {N : ℝ} (hN : 1 ≤ N) (hUN : ∀ i j, |U i j| ≤ N) (hH : 8 * N ≤ H) (hU : (n : ℝ) ≤ 4 * ‖U‖ ^ 2) :
    ∃ U' : Matrix (Fin n) (Fin n) ℝ, F.rotateU p q (some (c : EReal)) (some (s : EReal)) (emb U) = emb U' ∧ ‖U' - U * (rotT p q t)ᵀ‖ ≤ 110 * u * ‖U‖ := by
  have hu0 := hF.close.u0
  have hη0 := hF.close.η0
  have hη1 := hF.close.η1
  have hqp := hpq.symm
  have hC1 : |1 / Real.sqrt (1 + t * t)| ≤ 1 := by
    have : 1 ≤ Real.sqrt (1 + t * t) := Real.one_le_sqrt.2 (by nlinarith [mul_self_nonneg t])
    rw [abs_of_pos (by positivity), div_le_one (by linarith)]
    exact this
  have hS1 : |-t * (1 / Real.sqrt (1 + t * t))| ≤ 1 := by
    rw [abs_mul, abs_neg]
    calc |t| * |1 / Real.sqrt (1 + t * t)| ≤ 1 * 1 := mul_le_mul ht1 hC1 (abs_nonneg _) (by norm_num)
      _ = 1 := by norm_num
  have hent : ∀ i j, (U * (rotT p q t)ᵀ) i j = _ := fun i j => Interp.mul_rotT p q hpq (1 / Real.sqrt (1 + t * t)) (-t * (1 / Real.sqrt (1 + t * t))) U i j
  generalize 1 / Real.sqrt (1 + t * t) = C at *
  have hip : ∀ i, ∃ r : ℝ, F.ndot (some (c : EReal)) (emb U i p) (some (s : EReal)) (emb U i q) = some (r : EReal) ∧
      |r - (C * U i p + -t * C * U i q)| ≤ 20 * u * (|U i p| + |U i q|) + 4 * η := fun i => ndot_fin hF hC1 hS1 ec es (hUN i p) (hUN i q) hN hH
  have hiq : ∀ i, ∃ r : ℝ, F.ndot (nneg (some (s : EReal))) (emb U i p) (some (c : EReal)) (emb U i q) = some (r : EReal) ∧
      |r - (-(-t * C) * U i p + C * U i q)| ≤ 20 * u * (|U i p| + |U i q|) + 4 * η := fun i =>
    ndot_fin hF (c := -s) (C := -(-t * C)) (by rwa [abs_neg]) hC1 (by rw [← abs_neg]; convert es using 2; ring) ec (hUN i p) (hUN i q) hN hH
  choose fp hfp efp using hip
  choose fq hfq efq using hiq
  obtain ⟨W, hW⟩ : ∃ W : Matrix (Fin n) (Fin n) ℝ, ∀ i j, W i j = if j = p then fp i else if j = q then fq i else U i j := ⟨fun i j => _, fun i j => rfl⟩
  refine ⟨W, ?_, ?_⟩
  · funext i j
    rw [Format.rotateU, nrotateUFold F p q hpq _ _ _ (List.nodup_finRange n), if_pos (List.mem_finRange i), hfp, hfq]
    simp only [emb, hW]
    by_cases hjp : j = p
    · simp [hjp]
    · by_cases hjq : j = q
      · simp [hjq, hqp]
      · simp [hjp, hjq]
  · have sqη : ∀ a b e : ℝ, |e| ≤ 20 * u * (|a| + |b|) + 4 * η → e ^ 2 ≤ 1600 * u ^ 2 * (a ^ 2 + b ^ 2) + 32 * η ^ 2 := by
      intro a b e he
      have h1 : e ^ 2 ≤ (20 * u * (|a| + |b|) + 4 * η) ^ 2 := by
        rw [← sq_abs e]
        exact pow_le_pow_left₀ (abs_nonneg e) he 2
      have h2 : (20 * u * (|a| + |b|) + 4 * η) ^ 2 ≤ 2 * (20 * u * (|a| + |b|)) ^ 2 + 2 * (4 * η) ^ 2 := by nlinarith [sq_nonneg (20 * u * (|a| + |b|) - 4 * η)]
      have h3 : (|a| + |b|) ^ 2 ≤ 2 * (a ^ 2 + b ^ 2) := by
        rw [← sq_abs a, ← sq_abs b]
        nlinarith [sq_nonneg (|a| - |b|)]
      have h4 := mul_le_mul_of_nonneg_left h3 (by positivity : (0 : ℝ) ≤ 800 * u ^ 2)
      linarith
    refine abs_le_of_sq_le_sq' ?_ (by positivity) |>.2
    have hrow : ∀ i, ∑ j, (W - U * (rotT p q t)ᵀ) i j ^ 2
        ≤ 3200 * u ^ 2 * ∑ j, U i j ^ 2 + 64 * η ^ 2 := by
      intro i
      rw [sum_split p q hpq]
      have e1 : (W - U * (rotT p q t)ᵀ) i p = fp i - (C * U i p + -t * C * U i q) := by
        rw [Matrix.sub_apply, hent, hW]; simp
      have e2 : (W - U * (rotT p q t)ᵀ) i q = fq i - (-(-t * C) * U i p + C * U i q) := by
        rw [Matrix.sub_apply, hent, hW]; simp [hqp]
      have e3 : ∑ j ∈ (univ.erase p).erase q, (W - U * (rotT p q t)ᵀ) i j ^ 2 = 0 := by
        refine sum_eq_zero fun j hj => ?_
        simp only [mem_erase, mem_univ, and_true] at hj
        rw [Matrix.sub_apply, hent, hW]
        simp [hj.1, hj.2]
      rw [e1, e2, e3]
      have h1 := sqη _ _ _ (efp i)
      have h2 := sqη _ _ _ (efq i)
      have h3 : U i p ^ 2 + U i q ^ 2 ≤ ∑ j, U i j ^ 2 := by
        rw [sum_split p q hpq (fun j => U i j ^ 2)]
        have : 0 ≤ ∑ j ∈ (univ.erase p).erase q, U i j ^ 2 := sum_nonneg fun j _ => sq_nonneg _
        linarith
      have h4 := mul_le_mul_of_nonneg_left h3 (by positivity : (0 : ℝ) ≤ 3200 * u ^ 2)
      linarith
    rw [fro_sq]
    calc _ ≤ ∑ i, (3200 * u ^ 2 * ∑ j, U i j ^ 2 + 64 * η ^ 2) := sum_le_sum fun i _ => hrow i
      _ = 3200 * u ^ 2 * ‖U‖ ^ 2 + n * (64 * η ^ 2) := by rw [sum_add_distrib, ← mul_sum, fro_sq]; simp
      _ ≤ 3200 * u ^ 2 * ‖U‖ ^ 2 + 4 * ‖U‖ ^ 2 * (64 * (u / 10) ^ 2) := by
          have h1 : η ^ 2 ≤ (u / 10) ^ 2 := pow_le_pow_left₀ hη0 hη1 2
          have h2 : (n : ℝ) * (64 * η ^ 2) ≤ 4 * ‖U‖ ^ 2 * (64 * (u / 10) ^ 2) := mul_le_mul hU (by linarith) (by positivity) (by positivity)
          linarith
      _ ≤ _ := by
          have := mul_nonneg (sq_nonneg u) (sq_nonneg ‖U‖)
          nlinarith

/-! ### The loop -/

lemma offSum_emb (S : Matrix (Fin n) (Fin n) ℝ) : offSum (emb S) ≤ ‖S‖ ^ 2 := by
  rw [fro_sq]
  unfold offSum
  refine sum_le_sum fun i _ => sum_le_sum fun j _ => ?_
  split_ifs
  · exact sq_nonneg _
  · simp [emb, sq]

lemma offSum_le_max (S : NMat n) {b : ℝ} (hmax : ∀ i j, i ≠ j → sqr (S i j) ≤ b * b) : offSum S ≤ n ^ 2 * (b * b) := by
  unfold offSum
  calc (∑ i, ∑ j, if i = j then 0 else sqr (S i j)) ≤ ∑ _i : Fin n, ∑ _j : Fin n, b * b := by
        refine sum_le_sum fun i _ => sum_le_sum fun j _ => ?_
        split_ifs with h
        · exact mul_self_nonneg b
        · exact hmax i j h
    _ = n ^ 2 * (b * b) := by simp; ring

lemma sqr_le_offSum (S : NMat n) {p q : Fin n} (hpq : p ≠ q) : sqr (S p q) ≤ offSum S := by
  unfold offSum
  have nn : ∀ i j, 0 ≤ (if i = j then 0 else sqr (S i j)) := by
    intro i j
    split_ifs
    · exact le_rfl
    · exact sqr_nonneg _
  calc sqr (S p q) = (if p = q then 0 else sqr (S p q)) := by rw [if_neg hpq]
    _ ≤ ∑ j, (if p = j then 0 else sqr (S p j)) := single_le_sum (f := fun j => if p = j then 0 else sqr (S p j)) (fun j _ => nn p j) (mem_univ q)
    _ ≤ _ := single_le_sum (f := fun i => ∑ j, if i = j then 0 else sqr (S i j)) (fun i _ => sum_nonneg fun j _ => nn i j) (mem_univ p)

/-- The numbers for which the analysis holds: `n` rows, matrices of size `N`, `K` iterations. -/
structure Suits (u η H : ℝ) (n : ℕ) (N eps : ℝ) (K : ℕ) : Prop where
  n1 : 1 ≤ n
  N1 : 1 ≤ N
  eps0 : 0 < eps
  eps1 : eps ≤ 1
  few : N ^ 2 * (1 - 1 / (n : ℝ) ^ 2) ^ K ≤ eps ^ 2
  small : 440 * u * K ≤ 1
  size : 320 * u * (n : ℝ) ^ 2 ≤ 1 / 2
  range : 400 * (N / eps * (N / eps)) ≤ H
  rangeU : 16 * (n : ℝ) ≤ H
  under : 200 * N * η ≤ u * eps
  underN : 128 * n * η ^ 2 ≤ u ^ 2 * eps ^ 2

/-- The state of the loop after `k` iterations. -/
def AccInv (u N : ℝ) (A0 : Matrix (Fin n) (Fin n) ℝ) (k : ℕ) (A U : NMat n) : Prop :=
  ∃ S Ur V : Matrix (Fin n) (Fin n) ℝ, nsym A = emb S ∧ (∀ i j, S i j = S j i) ∧ U = emb Ur ∧ V * Vᵀ = 1 ∧ ‖V * S * Vᵀ - A0‖ ≤ 220 * u * k * N ∧
    ‖Ur - V‖ ≤ 220 * u * k * Real.sqrt n ∧ offSum (emb S) ≤ N ^ 2 * (1 - 1 / (n : ℝ) ^ 2) ^ k

lemma orth_norm (V : Matrix (Fin n) (Fin n) ℝ) (hV : V * Vᵀ = 1) : ‖V‖ = Real.sqrt n := by
  have h : ‖V‖ ^ 2 = n := by rw [fro_sq, Interp.sq_sum_eq, hV, Matrix.trace_one]; simp
  rw [← h, Real.sqrt_sq (norm_nonneg V)]

lemma svdLoop_acc (hF : F.Wide u η H) (bit : Num → Num → Num → Bool) {N eps : ℝ} {K : ℕ} (hS : Suits u η H n N eps K) (A0 : Matrix (Fin n) (Fin n) ℝ) (hA0 : ‖A0‖ ≤ N) :
    ∀ (d k : ℕ) (A U : NMat n), k + d = K → AccInv u N A0 k A U → ∃ A' U', (∀ fuel, d < fuel → F.svdLoop bit eps fuel A U = some (A', U')) ∧
      ∃ k', k' ≤ K ∧ AccInv u N A0 k' A' U' ∧ ∀ i j, i ≠ j → ∀ x, nabs (nsym A' i j) = some x → x ≤ eps := by
  have hu0 := hF.close.u0
  have hn0 : (0 : ℝ) < n := by exact_mod_cast hS.n1
  have hN1 := hS.N1
  intro d
  induction d with
  | zero =>
    intro k A U hk hI
    obtain ⟨m, h1, h2, h3, h4, h5⟩ := nargmax_spec A
    have hstop : nanLe (nargmax A).1 (some (eps : EReal)) = true := by
      obtain ⟨S, Ur, V, hA, _, _, _, _, _, hoff⟩ := hI
      rw [h1]
      by_contra hcon
      have hlt : (eps : EReal) < m := by
        have : ¬ m ≤ eps := by simpa [nanLe] using hcon
        exact not_le.1 this
      cases e : (nargmax A).2 with
      | none =>
        rw [h5 e] at hlt
        exact absurd hlt (not_lt.2 (by exact_mod_cast hS.eps0.le))
      | some pq =>
        obtain ⟨p, q⟩ := pq
        obtain ⟨hb, hpq⟩ := h4 p q e
        rw [hA] at hb
        have hb' : m = ((|S p q| : ℝ) : EReal) := by rw [emb, nabs_real] at hb; exact (Option.some.inj hb).symm
        rw [hb'] at hlt
        have hlt' : eps < |S p q| := by exact_mod_cast hlt
        have h6 := sqr_le_offSum (emb S) hpq.ne
        simp only [emb, sqr_real] at h6
        have h7 : eps ^ 2 < S p q * S p q := by
          rw [← abs_mul_abs_self, sq]
          exact mul_lt_mul'' hlt' hlt' hS.eps0.le hS.eps0.le
        have h8 := hS.few
        have hk' : k = K := by omega
        rw [hk'] at hoff
        have : offSum (emb S) = offSum (fun i j => some ((S i j : ℝ) : EReal)) := rfl
        linarith
    refine ⟨A, U, fun fuel hf => ?_, k, by omega, hI, fun i j hij x hx => (h3 i j hij x hx).trans ?_⟩
    · obtain ⟨f, rfl⟩ : ∃ f, fuel = f + 1 := ⟨fuel - 1, by omega⟩
      rw [Format.svdLoop, if_pos hstop]
    · rw [h1] at hstop
      simpa [nanLe] using hstop
  | succ d ih =>
    intro k A U hk hI
    obtain ⟨m, h1, h2, h3, h4, h5⟩ := nargmax_spec A
    by_cases hstop : nanLe (nargmax A).1 (some (eps : EReal)) = true
    · refine ⟨A, U, fun fuel hf => ?_, k, by omega, hI, fun i j hij x hx => (h3 i j hij x hx).trans ?_⟩
      · obtain ⟨f, rfl⟩ : ∃ f, fuel = f + 1 := ⟨fuel - 1, by omega⟩
        rw [Format.svdLoop, if_pos hstop]
      · rw [h1] at hstop
        simpa [nanLe] using hstop
    · have hlt : (eps : EReal) < m := by
        rw [h1] at hstop
        have : ¬ m ≤ eps := by simpa [nanLe] using hstop
        exact not_le.1 this
      cases e : (nargmax A).2 with
      | none =>
        rw [h5 e] at hlt
        exact absurd hlt (not_lt.2 (by exact_mod_cast hS.eps0.le))
      | some pq =>
        obtain ⟨p, q⟩ := pq
        obtain ⟨hb, hpq⟩ := h4 p q e
        obtain ⟨S, Ur, V, hA, hSs, hU, hV, eS, eU, hoff⟩ := hI
        have hb' : m = ((|S p q| : ℝ) : EReal) := by rw [hA, emb, nabs_real] at hb; exact (Option.some.inj hb).symm
        rw [hb'] at hlt
        have hbe : eps < |S p q| := by exact_mod_cast hlt
        have hV' := mul_eq_one_comm.1 hV
        have hVt : Vᵀ * Vᵀᵀ = 1 := by rw [transpose_transpose]; exact hV'
        have huk : 220 * u * k ≤ 1 / 2 := by
          have : (k : ℝ) ≤ K := by exact_mod_cast (by omega : k ≤ K)
          have := mul_le_mul_of_nonneg_left this hu0.le
          have := hS.small
          linarith
        -- sizes
        have hSn : ‖S‖ ≤ 2 * N := by
          have h6 : ‖V * S * Vᵀ‖ = ‖S‖ := by rw [fro_mul_orth _ _ hVt, fro_orth_mul _ _ hV]
          rw [← h6]
          have h7 : ‖V * S * Vᵀ‖ ≤ ‖V * S * Vᵀ - A0‖ + ‖A0‖ := by
            calc ‖V * S * Vᵀ‖ = ‖(V * S * Vᵀ - A0) + A0‖ := by rw [sub_add_cancel]
              _ ≤ _ := norm_add_le _ _
          have h8 := mul_le_mul_of_nonneg_right huk (by linarith : 0 ≤ N)
          linarith
        have hsn1 : 1 ≤ Real.sqrt n := Real.one_le_sqrt.2 (by exact_mod_cast hS.n1)
        have hVn := orth_norm V hV
        have h9 := mul_le_mul_of_nonneg_right huk (by linarith : 0 ≤ Real.sqrt n)
        have hUn : ‖Ur‖ ≤ 2 * Real.sqrt n := by
          have h7 : ‖Ur‖ ≤ ‖Ur - V‖ + ‖V‖ := by
            calc ‖Ur‖ = ‖(Ur - V) + V‖ := by rw [sub_add_cancel]
              _ ≤ _ := norm_add_le _ _
          linarith
        have hUn2 : (n : ℝ) ≤ 4 * ‖Ur‖ ^ 2 := by
          have h7 : ‖V‖ ≤ ‖Ur - V‖ + ‖Ur‖ := by
            calc ‖V‖ = ‖-(Ur - V) + Ur‖ := by congr 1; abel
              _ ≤ ‖-(Ur - V)‖ + ‖Ur‖ := norm_add_le _ _
              _ = _ := by rw [norm_neg]
          have h8 : Real.sqrt n / 2 ≤ ‖Ur‖ := by linarith
          have h10 := mul_self_le_mul_self (by linarith) h8
          have h11 := Real.mul_self_sqrt hn0.le
          nlinarith
        have hsqn : Real.sqrt n ≤ n := by
          rw [Real.sqrt_le_left hn0.le]
          have : (1 : ℝ) ≤ n := by exact_mod_cast hS.n1
          nlinarith
        -- the step
        have hrot := rotateA_nsym F bit p q hpq A
        rw [hA] at hrot
        have hrange : 100 * (2 * N / eps * (2 * N / eps)) ≤ H := by
          have := hS.range
          have e : 100 * (2 * N / eps * (2 * N / eps)) = 400 * (N / eps * (N / eps)) := by ring
          linarith
        obtain ⟨t, c, s, S', hS', hS's, ht, ht1, hc, hs, ec, es, hE⟩ := step_err hF bit (N := 2 * N) (by linarith) hS.eps0 hS.eps1 hrange (by have := hS.under; linarith) hS.underN hSs
          (fun i j => (entry_le_fro S i j).trans hSn) hpq.ne hbe hrot
        obtain ⟨U', hU', hG⟩ := stepU_err hF hpq.ne ht1 ec es Ur (N := 2 * n) (by linarith)
          (fun i j => (entry_le_fro Ur i j).trans (by linarith)) (by have := hS.rangeU; linarith) hUn2
        have htan : F.tan bit (A p p) (A p q) (A q q) = some (t : EReal) := by
          rw [← nsym_lt A hpq, ← nsym_self A p, ← nsym_self A q, hA]
          exact ht
        have hRo := rotT_orth p q hpq.ne t
        have hRo' := mul_eq_one_comm.1 hRo
        have hRt : (rotT p q t)ᵀ * (rotT p q t)ᵀᵀ = 1 := by rw [transpose_transpose]; exact hRo'
        have hinv : AccInv u N A0 (k + 1) (F.rotateA bit p q A) (F.rotateU p q (F.cos (F.tan bit (A p p) (A p q) (A q q))) (F.sin (F.tan bit (A p p) (A p q) (A q q))) U) := by
          refine ⟨S', U', V * (rotT p q t)ᵀ, hS', hS's, ?_, ?_, ?_, ?_, ?_⟩
          · rw [htan, hc, hs, hU]; exact hU'
          · rw [transpose_mul, transpose_transpose]
            calc V * (rotT p q t)ᵀ * (rotT p q t * Vᵀ) = V * ((rotT p q t)ᵀ * rotT p q t) * Vᵀ := by simp only [Matrix.mul_assoc]
              _ = 1 := by rw [hRo', Matrix.mul_one, hV]
          · have hW : V * (rotT p q t)ᵀ * (V * (rotT p q t)ᵀ)ᵀ = 1 := by
              rw [transpose_mul, transpose_transpose]
              calc V * (rotT p q t)ᵀ * (rotT p q t * Vᵀ) = V * ((rotT p q t)ᵀ * rotT p q t) * Vᵀ := by simp only [Matrix.mul_assoc]
                _ = 1 := by rw [hRo', Matrix.mul_one, hV]
            have hWt : (V * (rotT p q t)ᵀ)ᵀ * (V * (rotT p q t)ᵀ)ᵀᵀ = 1 := by rw [transpose_transpose]; exact mul_eq_one_comm.1 hW
            have e1 : V * (rotT p q t)ᵀ * S' * (V * (rotT p q t)ᵀ)ᵀ - A0
                = V * (rotT p q t)ᵀ * (S' - rotT p q t * S * (rotT p q t)ᵀ) * (V * (rotT p q t)ᵀ)ᵀ + (V * S * Vᵀ - A0) := by
              have e2 : V * (rotT p q t)ᵀ * (rotT p q t * S * (rotT p q t)ᵀ) * (V * (rotT p q t)ᵀ)ᵀ = V * S * Vᵀ := by
                rw [transpose_mul, transpose_transpose]
                calc V * (rotT p q t)ᵀ * (rotT p q t * S * (rotT p q t)ᵀ) * (rotT p q t * Vᵀ)
                    = V * ((rotT p q t)ᵀ * rotT p q t) * S * ((rotT p q t)ᵀ * rotT p q t) * Vᵀ := by simp only [Matrix.mul_assoc]
                  _ = V * S * Vᵀ := by rw [hRo', Matrix.mul_one, Matrix.mul_one]
              rw [Matrix.mul_sub, Matrix.sub_mul, e2]
              abel
            rw [e1]
            have h6 : ‖V * (rotT p q t)ᵀ * (S' - rotT p q t * S * (rotT p q t)ᵀ) * (V * (rotT p q t)ᵀ)ᵀ‖ = ‖S' - rotT p q t * S * (rotT p q t)ᵀ‖ := by
              rw [fro_mul_orth _ _ hWt, fro_orth_mul _ _ hW]
            have h7 := norm_add_le (V * (rotT p q t)ᵀ * (S' - rotT p q t * S * (rotT p q t)ᵀ) * (V * (rotT p q t)ᵀ)ᵀ) (V * S * Vᵀ - A0)
            rw [h6] at h7
            have h8 := mul_le_mul_of_nonneg_left hSn (by linarith : 0 ≤ 110 * u)
            push_cast
            linarith
          · have e1 : U' - V * (rotT p q t)ᵀ = (U' - Ur * (rotT p q t)ᵀ) + (Ur - V) * (rotT p q t)ᵀ := by rw [Matrix.sub_mul]; abel
            rw [e1]
            have h7 := norm_add_le (U' - Ur * (rotT p q t)ᵀ) ((Ur - V) * (rotT p q t)ᵀ)
            rw [fro_mul_orth _ _ hRt] at h7
            have h8 := mul_le_mul_of_nonneg_left hUn (by linarith : 0 ≤ 110 * u)
            push_cast
            linarith
          · have hle : ∀ i j, i ≠ j → sqr (emb S i j) ≤ S p q * S p q := by
              intro i j hij
              have := h3 i j hij _ (by rw [hA, emb, nabs_real])
              rw [hb'] at this
              have hxb : |S i j| ≤ |S p q| := by exact_mod_cast this
              simp only [emb, sqr_real]
              rw [← abs_mul_abs_self (S i j), ← abs_mul_abs_self (S p q)]
              exact mul_self_le_mul_self (abs_nonneg _) hxb
            have hηn : 256 * n * (η * η) / u ≤ eps ^ 2 / 2 := by
              have h6 := hS.underN
              have h7 : u ^ 2 * eps ^ 2 ≤ u * (1 / 1000) * eps ^ 2 := by
                have := mul_le_mul_of_nonneg_left hF.close.u1 hu0.le
                have := mul_le_mul_of_nonneg_right this (sq_nonneg eps)
                linarith
              have h8 : 0 ≤ u * eps ^ 2 := by positivity
              rw [div_le_iff₀ hu0]
              nlinarith
            rw [hS'] at hrot
            have hstep := offSum_step hF.close bit hS.eps0 hS.size hηn (S := emb S) (fun i j => by simp only [emb]; rw [hSs]) hpq.ne hrot rfl hbe hle
              (fun i j _ h => by rcases h with h | h <;> simp [emb] at h)
            have hmax := offSum_le_max (emb S) hle
            have hn2 : (0 : ℝ) < (n : ℝ) ^ 2 := by positivity
            have h6 : offSum (emb S) * (1 / (n : ℝ) ^ 2) ≤ S p q * S p q := by
              rw [mul_one_div, div_le_iff₀ hn2]
              linarith
            have h7 : 0 ≤ 1 - 1 / (n : ℝ) ^ 2 := by
              have : 1 / (n : ℝ) ^ 2 ≤ 1 := by
                rw [div_le_one hn2]
                have : (1 : ℝ) ≤ n := by exact_mod_cast hS.n1
                nlinarith
              linarith
            have h8 := mul_le_mul_of_nonneg_right hoff h7
            rw [pow_succ (1 - 1 / (n : ℝ) ^ 2) k, ← mul_assoc]
            linarith
        obtain ⟨A', U'', hloop, rest⟩ := ih (k + 1) _ _ (by omega) hinv
        refine ⟨A', U'', fun fuel hf => ?_, rest⟩
        obtain ⟨f, rfl⟩ : ∃ f, fuel = f + 1 := ⟨fuel - 1, by omega⟩
        rw [Format.svdLoop, if_neg hstop, e]
        exact hloop f (by omega)

/-! ### The theorem -/

/-- C100. In floating-point arithmetic the decomposition of a symmetric matrix `A` of finite numbers with norm at most `N` gives, after at most `K` iterations, finite values `D`
and a finite matrix `U` that lies close to an orthogonal matrix `V` with `V D Vᵀ` close to `A`: the error of every entry is at most `220 u K N` for the roundings, plus the
tolerance `epsilon` of the loop times `n`. -/
theorem svd_float_accurate (hF : F.Wide u η H) (bit : Num → Num → Num → Bool) {N eps : ℝ} {K : ℕ} (hS : Suits u η H n N eps K) (A : Fin n → Fin n → ℝ) (hA : ∀ i j, A i j = A j i)
    (hAN : ∑ i, ∑ j, A i j ^ 2 ≤ N ^ 2) :
    ∃ (D : Fin n → ℝ) (U V : Fin n → Fin n → ℝ),
      (∀ fuel, K < fuel → F.svd bit eps fuel (fun i j => some (A i j : EReal)) = some (fun i => some (D i : EReal), fun i j => some (U i j : EReal))) ∧
      (∀ i j, ∑ k, V i k * V j k = if i = j then 1 else 0) ∧
      (∀ i j, |U i j - V i j| ≤ 220 * u * K * Real.sqrt n) ∧
      ∀ i j, |A i j - ∑ k, V i k * D k * V j k| ≤ 220 * u * K * N + n * eps := by
  have hu0 := hF.close.u0
  have hN0 : 0 ≤ N := by linarith [hS.N1]
  obtain ⟨B, hB⟩ : ∃ B : Matrix (Fin n) (Fin n) ℝ, ∀ i j, B i j = A i j := ⟨A, fun _ _ => rfl⟩
  have hBs : ∀ i j, B i j = B j i := fun i j => by rw [hB, hB, hA]
  have hAn : ‖B‖ ≤ N := by
    refine abs_le_of_sq_le_sq' ?_ hN0 |>.2
    rw [fro_sq]
    simpa only [hB] using hAN
  have hsym : nsym (emb B) = emb B := by
    funext i j
    unfold nsym emb
    rcases le_total i j with h | h
    · rw [min_eq_left h, max_eq_right h]
    · rw [min_eq_right h, max_eq_left h, hBs]
  have hinv : AccInv u N B 0 (emb B) (fun i j => if i = j then some 1 else some 0) := by
    refine ⟨B, 1, 1, hsym, hBs, ?_, by simp, by simp, by simp, ?_⟩
    · funext i j
      unfold emb
      rw [Matrix.one_apply]
      split_ifs <;> simp
    · rw [pow_zero, mul_one]
      exact (offSum_emb B).trans (pow_le_pow_left₀ (norm_nonneg _) hAn 2)
  obtain ⟨A', U', hloop, k', hk', ⟨S, Ur, V, hA', hSs, hU', hV, eS, eU, hoff⟩, hoffd⟩ := svdLoop_acc hF bit hS B hAn K 0 _ _ (by omega) hinv
  have hkK : 220 * u * k' ≤ 220 * u * K := mul_le_mul_of_nonneg_left (by exact_mod_cast hk') (by linarith)
  have hD : ∀ i, A' i i = some ((S i i : ℝ) : EReal) := by
    intro i
    rw [← nsym_self A' i, hA']
    rfl
  refine ⟨fun i => S i i, Ur, V, fun fuel hf => ?_, ?_, ?_, ?_⟩
  · rw [Format.svd, show (fun i j => some ((A i j : ℝ) : EReal)) = emb B from by funext i j; rw [emb, hB], hloop fuel hf, Option.map_some, hU']
    simp only [hD]
    rfl
  · intro i j
    have := congrFun (congrFun hV i) j
    rw [Matrix.mul_apply, Matrix.one_apply] at this
    simpa only [Matrix.transpose_apply] using this
  · intro i j
    refine ((entry_le_fro (Ur - V) i j).trans eU).trans ?_
    exact mul_le_mul_of_nonneg_right hkK (Real.sqrt_nonneg _)
  · intro i j
    have hVt : Vᵀ * Vᵀᵀ = 1 := by rw [transpose_transpose]; exact mul_eq_one_comm.1 hV
    have e1 : ∑ k, V i k * S k k * V j k = (V * Matrix.diagonal (fun k => S k k) * Vᵀ) i j := by
      rw [Matrix.mul_apply]
      refine sum_congr rfl fun k _ => ?_
      rw [Matrix.mul_diagonal, Matrix.transpose_apply]
    have e2 : A i j - ∑ k, V i k * S k k * V j k = (V * (S - Matrix.diagonal (fun k => S k k)) * Vᵀ - (V * S * Vᵀ - B)) i j := by
      rw [e1, Matrix.mul_sub, Matrix.sub_mul]
      simp only [Matrix.sub_apply, hB]
      ring
    rw [e2]
    refine (entry_le_fro _ i j).trans ((norm_sub_le _ _).trans ?_)
    have h1 : ‖V * (S - Matrix.diagonal (fun k => S k k)) * Vᵀ‖ ≤ n * eps := by
      rw [fro_mul_orth _ _ hVt, fro_orth_mul _ _ hV]
      have h0 : 0 ≤ n * eps := mul_nonneg (Nat.cast_nonneg n) hS.eps0.le
      refine abs_le_of_sq_le_sq' ?_ h0 |>.2
      rw [fro_sq]
      calc ∑ i, ∑ j, (S - Matrix.diagonal (fun k => S k k)) i j ^ 2 ≤ ∑ _i : Fin n, ∑ _j : Fin n, eps ^ 2 := by
            refine sum_le_sum fun i _ => sum_le_sum fun j _ => ?_
            rw [Matrix.sub_apply]
            by_cases hij : i = j
            · subst hij
              rw [Matrix.diagonal_apply_eq, sub_self]
              simpa using sq_nonneg eps
            · rw [Matrix.diagonal_apply_ne _ hij, sub_zero, ← sq_abs]
              have := hoffd i j hij _ (by rw [hA', emb, nabs_real])
              exact pow_le_pow_left₀ (abs_nonneg _) (by exact_mod_cast this) 2
        _ = (n * eps) ^ 2 := by simp; ring
    have h2 : 220 * u * k' * N ≤ 220 * u * K * N := mul_le_mul_of_nonneg_right hkK hN0
    linarith

/-! ### `float` and `double` -/

lemma few_iterations {n m : ℕ} (hn : 1 ≤ n) (hm : n ≤ m) (L : ℕ) : (1 - 1 / (n : ℝ) ^ 2) ^ (m ^ 2 * L) ≤ (1 / 2) ^ L := by
  have hn1 : (1 : ℝ) ≤ n := by exact_mod_cast hn
  have hm1 : (n : ℝ) ≤ m := by exact_mod_cast hm
  have hn2 : (1 : ℝ) ≤ (n : ℝ) ^ 2 := one_le_pow₀ hn1
  have h0 : 0 ≤ 1 - 1 / (n : ℝ) ^ 2 := by
    have : 1 / (n : ℝ) ^ 2 ≤ 1 := by rw [div_le_one (by linarith)]; exact hn2
    linarith
  rw [pow_mul]
  refine pow_le_pow_left₀ (pow_nonneg h0 _) ?_ L
  calc (1 - 1 / (n : ℝ) ^ 2) ^ m ^ 2 ≤ Real.exp (-(1 / (n : ℝ) ^ 2)) ^ m ^ 2 := pow_le_pow_left₀ h0 (Real.one_sub_le_exp_neg _) _
    _ = Real.exp (-((m : ℝ) ^ 2 / (n : ℝ) ^ 2)) := by
        rw [← Real.exp_nat_mul]
        congr 1
        push_cast
        ring
    _ ≤ Real.exp (-1) := by
        refine Real.exp_le_exp.2 (neg_le_neg ?_)
        rw [one_le_div (by linarith)]
        exact pow_le_pow_left₀ (by linarith) hm1 2
    _ ≤ 1 / 2 := by
        rw [Real.exp_neg, ← one_div]
        exact one_div_le_one_div_of_le (by norm_num) (by
          have := Real.add_one_le_exp (1 : ℝ)
          linarith)

theorem Ieee.wide {p : ℕ} {emin emax : ℤ} (hp : 10 ≤ p) (h1 : emin + p ≤ -3) (h2 : 4 ≤ emax) (fma : Bool) :
    (Ieee.format p (by omega) emin emax fma).Wide (2 ^ (-(p : ℤ))) (2 ^ (emin - 1)) (2 ^ (emax - 1)) where
  close := Ieee.close hp h1 h2 fma
  wide := by
    have key : ∀ x : ℝ, 0 ≤ x → x ≤ 2 ^ (emax - 1) → Ieee.pos p emin emax x = (Ieee.near p emin x : EReal) := by
      intro x h0 h8
      unfold Ieee.pos
      rw [if_pos]
      calc Ieee.near p emin x ≤ Ieee.near p emin (2 ^ (emax - 1)) := Ieee.near_mono (by omega) h0 h8
        _ = 2 ^ (emax - 1) := Ieee.near_pow (by omega) (by omega)
        _ < 2 ^ emax := zpow_lt_zpow_right₀ (by norm_num) (by omega)
    intro x hx
    show ∃ y : ℝ, Ieee.rnd p emin emax x = y
    unfold Ieee.rnd
    split_ifs with h
    · exact ⟨_, key x h (by rwa [abs_of_nonneg h] at hx)⟩
    · push Not at h
      rw [abs_of_neg h] at hx
      exact ⟨-Ieee.near p emin (-x), by rw [key (-x) (by linarith) hx, EReal.coe_neg]⟩

lemma suits_double {n : ℕ} (hn : 1 ≤ n) (hn20 : n ≤ 20) {N : ℝ} (hN : 1 ≤ N) (hN2 : N ≤ 2 ^ 20) :
    Suits (2 ^ (-53 : ℤ)) (2 ^ (-1075 : ℤ)) (2 ^ (1023 : ℤ)) n N (2 ^ (-52 : ℤ)) (20 ^ 2 * 144) := by
  have hn' : (n : ℝ) ≤ 20 := by exact_mod_cast hn20
  have hn0 : (0 : ℝ) ≤ n := Nat.cast_nonneg n
  have hη : (2 : ℝ) ^ (-1075 : ℤ) ≤ 2 ^ (-200 : ℤ) := zpow_le_zpow_right₀ (by norm_num) (by norm_num)
  have hη0 : (0 : ℝ) < 2 ^ (-1075 : ℤ) := by positivity
  have hH : (2 : ℝ) ^ (200 : ℤ) ≤ 2 ^ (1023 : ℤ) := zpow_le_zpow_right₀ (by norm_num) (by norm_num)
  have hNN : N * N ≤ 2 ^ 20 * 2 ^ 20 := mul_le_mul hN2 hN2 (by linarith) (by norm_num)
  generalize (2 : ℝ) ^ (-1075 : ℤ) = η at *
  generalize (2 : ℝ) ^ (1023 : ℤ) = H at *
  refine ⟨hn, hN, by positivity, by norm_num, ?_, by norm_num, ?_, ?_, ?_, ?_, ?_⟩
  · have h1 := few_iterations hn hn20 144
    calc N ^ 2 * (1 - 1 / (n : ℝ) ^ 2) ^ (20 ^ 2 * 144) ≤ (2 ^ 20 * 2 ^ 20) * (1 / 2) ^ 144 := by
          refine mul_le_mul (by rw [sq]; exact hNN) h1 ?_ (by norm_num)
          rw [mul_comm (20 ^ 2), pow_mul]
          exact Even.pow_nonneg (by decide) _
      _ = (2 ^ (-52 : ℤ)) ^ 2 := by norm_num
  · have : (n : ℝ) ^ 2 ≤ 400 := by nlinarith
    norm_num
    linarith
  · have e : 400 * (N / 2 ^ (-52 : ℤ) * (N / 2 ^ (-52 : ℤ))) = 400 * 2 ^ 104 * (N * N) := by
      norm_num
      ring
    rw [e]
    refine le_trans ?_ hH
    norm_num at *
    linarith
  · refine le_trans ?_ hH
    norm_num
    linarith
  · have h1 : N * η ≤ 2 ^ 20 * 2 ^ (-200 : ℤ) := mul_le_mul hN2 hη hη0.le (by norm_num)
    norm_num at *
    linarith
  · have h1 : η ^ 2 ≤ (2 ^ (-200 : ℤ)) ^ 2 := pow_le_pow_left₀ hη0.le hη 2
    have h2 : (n : ℝ) * η ^ 2 ≤ 20 * (2 ^ (-200 : ℤ)) ^ 2 := mul_le_mul hn' h1 (by positivity) (by norm_num)
    norm_num at *
    linarith

/-- C100 for `double`: at most 20 rows, norm at most `2^20`; the errors are below `2^-29` times the norm, and below `2^-26` for `U`. -/
theorem svd_float64_accurate {n : ℕ} (hn : 1 ≤ n) (hn20 : n ≤ 20) (fma : Bool) (bit : Num → Num → Num → Bool) {N : ℝ} (hN : 1 ≤ N) (hN2 : N ≤ 2 ^ 20) (A : Fin n → Fin n → ℝ)
    (hA : ∀ i j, A i j = A j i) (hAN : ∑ i, ∑ j, A i j ^ 2 ≤ N ^ 2) :
    ∃ (D : Fin n → ℝ) (U V : Fin n → Fin n → ℝ),
      (∀ fuel, 57600 < fuel → (Ieee.double fma).svd bit (2 ^ (-52 : ℤ)) fuel (fun i j => some (A i j : EReal)) = some (fun i => some (D i : EReal), fun i j => some (U i j : EReal))) ∧
      (∀ i j, ∑ k, V i k * V j k = if i = j then 1 else 0) ∧
      (∀ i j, |U i j - V i j| ≤ 2 ^ (-26 : ℤ)) ∧
      ∀ i j, |A i j - ∑ k, V i k * D k * V j k| ≤ 2 ^ (-29 : ℤ) * N + n * 2 ^ (-52 : ℤ) := by
  have hF := Ieee.wide (p := 53) (emin := -1074) (emax := 1024) (by norm_num) (by norm_num) (by norm_num) fma
  obtain ⟨D, U, V, h1, h2, h3, h4⟩ := svd_float_accurate (F := Ieee.double fma) (u := 2 ^ (-53 : ℤ)) (η := 2 ^ (-1075 : ℤ)) (H := 2 ^ (1023 : ℤ))
    (by norm_num at hF ⊢; exact hF) bit (suits_double hn hn20 hN hN2) A hA hAN
  refine ⟨D, U, V, fun fuel hf => h1 fuel (by norm_num; exact hf), h2, fun i j => (h3 i j).trans ?_, fun i j => (h4 i j).trans ?_⟩
  · have hs : Real.sqrt n ≤ 5 := by
      rw [Real.sqrt_le_left (by norm_num)]
      have : (n : ℝ) ≤ 20 := by exact_mod_cast hn20
      linarith
    norm_num
    linarith
  · norm_num
    linarith

lemma suits_float {n : ℕ} (hn : 1 ≤ n) (hn4 : n ≤ 4) {N : ℝ} (hN : 1 ≤ N) (hN2 : N ≤ 2 ^ 10) :
    Suits (2 ^ (-24 : ℤ)) (2 ^ (-150 : ℤ)) (2 ^ (127 : ℤ)) n N (2 ^ (-23 : ℤ)) (4 ^ 2 * 66) := by
  have hn' : (n : ℝ) ≤ 4 := by exact_mod_cast hn4
  have hn0 : (0 : ℝ) ≤ n := Nat.cast_nonneg n
  have hNN : N * N ≤ 2 ^ 10 * 2 ^ 10 := mul_le_mul hN2 hN2 (by linarith) (by norm_num)
  refine ⟨hn, hN, by positivity, by norm_num, ?_, by norm_num, ?_, ?_, ?_, ?_, ?_⟩
  · have h1 := few_iterations hn hn4 66
    calc N ^ 2 * (1 - 1 / (n : ℝ) ^ 2) ^ (4 ^ 2 * 66) ≤ (2 ^ 10 * 2 ^ 10) * (1 / 2) ^ 66 := by
          refine mul_le_mul (by rw [sq]; exact hNN) h1 ?_ (by norm_num)
          rw [mul_comm (4 ^ 2), pow_mul]
          exact Even.pow_nonneg (by decide) _
      _ = (2 ^ (-23 : ℤ)) ^ 2 := by norm_num
  · have : (n : ℝ) ^ 2 ≤ 16 := by nlinarith
    norm_num
    linarith
  · have e : 400 * (N / 2 ^ (-23 : ℤ) * (N / 2 ^ (-23 : ℤ))) = 400 * 2 ^ 46 * (N * N) := by
      norm_num
      ring
    rw [e]
    norm_num at *
    linarith
  · norm_num
    linarith
  · norm_num
    norm_num at hN2
    linarith
  · norm_num
    linarith

/-- C100 for `float`: at most 4 rows, norm at most `2^10`; the errors are below `2^-6` times the norm, and below `2^-5` for `U`. -/
theorem svd_float32_accurate {n : ℕ} (hn : 1 ≤ n) (hn4 : n ≤ 4) (fma : Bool) (bit : Num → Num → Num → Bool) {N : ℝ} (hN : 1 ≤ N) (hN2 : N ≤ 2 ^ 10) (A : Fin n → Fin n → ℝ)
    (hA : ∀ i j, A i j = A j i) (hAN : ∑ i, ∑ j, A i j ^ 2 ≤ N ^ 2) :
    ∃ (D : Fin n → ℝ) (U V : Fin n → Fin n → ℝ),
      (∀ fuel, 1056 < fuel → (Ieee.float fma).svd bit (2 ^ (-23 : ℤ)) fuel (fun i j => some (A i j : EReal)) = some (fun i => some (D i : EReal), fun i j => some (U i j : EReal))) ∧
      (∀ i j, ∑ k, V i k * V j k = if i = j then 1 else 0) ∧
      (∀ i j, |U i j - V i j| ≤ 2 ^ (-5 : ℤ)) ∧
      ∀ i j, |A i j - ∑ k, V i k * D k * V j k| ≤ 2 ^ (-6 : ℤ) * N + n * 2 ^ (-23 : ℤ) := by
  have hF := Ieee.wide (p := 24) (emin := -149) (emax := 128) (by norm_num) (by norm_num) (by norm_num) fma
  obtain ⟨D, U, V, h1, h2, h3, h4⟩ := svd_float_accurate (F := Ieee.float fma) (u := 2 ^ (-24 : ℤ)) (η := 2 ^ (-150 : ℤ)) (H := 2 ^ (127 : ℤ))
    (by norm_num at hF ⊢; exact hF) bit (suits_float hn hn4 hN hN2) A hA hAN
  refine ⟨D, U, V, fun fuel hf => h1 fuel (by norm_num; exact hf), h2, fun i j => (h3 i j).trans ?_, fun i j => (h4 i j).trans ?_⟩
  · have hs : Real.sqrt n ≤ 2 := by
      rw [Real.sqrt_le_left (by norm_num)]
      have : (n : ℝ) ≤ 4 := by exact_mod_cast hn4
      linarith
    norm_num
    linarith
  · norm_num
    linarith

/-- Non-vacuity: a matrix with no zero entry. -/
example (fma : Bool) (bit : Num → Num → Num → Bool) : ∃ (D : Fin 3 → ℝ) (U : Fin 3 → Fin 3 → ℝ),
    ∀ fuel, 57600 < fuel → (Ieee.double fma).svd bit (2 ^ (-52 : ℤ)) fuel (fun i j => some ((((i : ℕ) + 1) * ((j : ℕ) + 1) : ℝ) : EReal)) = some (fun i => some (D i : EReal), fun i j => some (U i j : EReal)) := by
  obtain ⟨D, U, _, h, _⟩ := svd_float64_accurate (n := 3) (by norm_num) (by norm_num) fma bit (N := 14) (by norm_num) (by norm_num) (fun i j => (((i : ℕ) + 1) * ((j : ℕ) + 1) : ℝ))
    (fun i j => mul_comm _ _) (by simp [Fin.sum_univ_three]; norm_num)
  exact ⟨D, U, h⟩

end ArborX.Fp
