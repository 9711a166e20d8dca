import Verif.Interp.SvdFloatLemmas
import Mathlib.Algebra.Order.Floor.Semiring

/-!
# Symmetric singular value decomposition in floating-point arithmetic: progress

Every iteration makes a finite entry of the diagonal infinite or NaN, or an entry away from the diagonal NaN, or removes the last infinite entries, or decreases the sum of the
squares away from the diagonal by a fixed amount.
-/

namespace ArborX.Fp

open Nearest Finset

variable {n : ℕ} {F : Format} {u η : ℝ}

/-- The number is infinite. -/
def Inf (x : Num) : Prop := x = some ⊤ ∨ x = some ⊥

lemma num_cases (x : Num) : x = none ∨ Inf x ∨ Real x := by
  cases x with
  | none => exact Or.inl rfl
  | some x =>
    induction x with
    | bot => exact Or.inr (Or.inl (Or.inr rfl))
    | top => exact Or.inr (Or.inl (Or.inl rfl))
    | coe x => exact Or.inr (Or.inr ⟨x, rfl⟩)

/-- Square of a finite number, and zero otherwise. -/
noncomputable def sqr : Num → ℝ
  | some x => x.toReal * x.toReal
  | none => 0

lemma sqr_nonneg (x : Num) : 0 ≤ sqr x := by
  cases x with
  | none => exact le_rfl
  | some x => exact mul_self_nonneg _

@[simp] lemma sqr_real (x : ℝ) : sqr (some (x : EReal)) = x * x := rfl

lemma sqr_not_real {x : Num} (h : ¬ Real x) : sqr x = 0 := by
  rcases num_cases x with rfl | (rfl | rfl) | hx
  · rfl
  · simp [sqr]
  · simp [sqr]
  · exact absurd hx h

open Classical in
/-- The finite entries of the diagonal. -/
noncomputable def diagF (S : NMat n) : Finset (Fin n) := univ.filter fun i => Real (S i i)

open Classical in
/-- The entries away from the diagonal that are not NaN. -/
noncomputable def nonNaN (S : NMat n) : Finset (Fin n × Fin n) := univ.filter fun x => x.1 ≠ x.2 ∧ S x.1 x.2 ≠ none

/-- An infinite entry such that all other entries of its rows and columns are NaN. -/
def Iso (S : NMat n) (i j : Fin n) : Prop := Inf (S i j) ∧ ∀ k, k ≠ i → k ≠ j → S k i = none ∧ S k j = none

open Classical in
noncomputable def isos (S : NMat n) : Finset (Fin n × Fin n) := univ.filter fun x => x.1 ≠ x.2 ∧ Iso S x.1 x.2

/-- The sum of the squares away from the diagonal. -/
noncomputable def offSum (S : NMat n) : ℝ := ∑ i, ∑ j, if i = j then 0 else sqr (S i j)

lemma offSum_nonneg (S : NMat n) : 0 ≤ offSum S := by
  unfold offSum
  refine sum_nonneg fun i _ => sum_nonneg fun j _ => ?_
  split_ifs
  · exact le_rfl
  · exact sqr_nonneg _

lemma sum_split (p q : Fin n) (hpq : p ≠ q) (f : Fin n → ℝ) : ∑ i, f i = f p + f q + ∑ i ∈ (univ.erase p).erase q, f i := by
  rw [← add_sum_erase univ f (mem_univ p), ← add_sum_erase (univ.erase p) f (mem_erase.2 ⟨hpq.symm, mem_univ q⟩)]
  ring

lemma offSum_split (S : NMat n) (hS : ∀ i j, S i j = S j i) (p q : Fin n) (hpq : p ≠ q) :
    offSum S = 2 * sqr (S p q) + 2 * ∑ i ∈ (univ.erase p).erase q, (sqr (S i p) + sqr (S i q))
      + ∑ i ∈ (univ.erase p).erase q, ∑ j ∈ (univ.erase p).erase q, if i = j then 0 else sqr (S i j) := by
  unfold offSum
  have h1 : ∀ i, (∑ j, if i = j then 0 else sqr (S i j)) = (if i = p then 0 else sqr (S i p)) + (if i = q then 0 else sqr (S i q))
      + ∑ j ∈ (univ.erase p).erase q, if i = j then 0 else sqr (S i j) := fun i => sum_split p q hpq _
  simp only [h1]
  rw [sum_split p q hpq]
  have h2 : ∀ r : Fin n, (r = p ∨ r = q) → (∑ j ∈ (univ.erase p).erase q, if r = j then 0 else sqr (S r j)) = ∑ j ∈ (univ.erase p).erase q, sqr (S j r) := by
    intro r hr
    refine sum_congr rfl fun j hj => ?_
    simp only [mem_erase, mem_univ, and_true] at hj
    rw [if_neg, hS]
    rintro rfl
    rcases hr with h | h
    · exact hj.2 h
    · exact hj.1 h
  rw [h2 p (Or.inl rfl), h2 q (Or.inr rfl)]
  have h3 : (∑ i ∈ (univ.erase p).erase q, ((if i = p then 0 else sqr (S i p)) + (if i = q then 0 else sqr (S i q))
      + ∑ j ∈ (univ.erase p).erase q, if i = j then 0 else sqr (S i j))) = ∑ i ∈ (univ.erase p).erase q, (sqr (S i p) + sqr (S i q))
      + ∑ i ∈ (univ.erase p).erase q, ∑ j ∈ (univ.erase p).erase q, if i = j then 0 else sqr (S i j) := by
    rw [← sum_add_distrib]
    refine sum_congr rfl fun i hi => ?_
    simp only [mem_erase, mem_univ, and_true] at hi
    rw [if_neg hi.1, if_neg hi.2]
  rw [h3, if_pos rfl, if_pos rfl, if_neg hpq, if_neg hpq.symm, hS q p, sum_add_distrib]
  ring

/-- The rotation of a pair of entries that are not infinite. -/
lemma pair_step (hF : F.Close u η) (bit : Num → Num → Num → Bool) (a b c x y : Num) (hx : ¬ Inf x) (hy : ¬ Inf y) :
    sqr (F.ndot (F.cos (F.tan bit a b c)) x (F.sin (F.tan bit a b c)) y) + sqr (F.ndot (nneg (F.sin (F.tan bit a b c))) x (F.cos (F.tan bit a b c)) y)
      ≤ (1 + 320 * u) * (sqr x + sqr y) + 128 * (η * η) / u := by
  have hu0 := hF.u0
  have hη := hF.η0
  have hnn : 0 ≤ (1 + 320 * u) * (sqr x + sqr y) + 128 * (η * η) / u := by
    have := sqr_nonneg x
    have := sqr_nonneg y
    positivity
  rcases tan_cases hF bit a b c with ht | ⟨t, ht, ht1⟩
  · rw [ht, (cos_sin_none F).1, ndot_none_c, (cos_sin_none F).2]
    simpa [nneg, sqr] using hnn
  rcases num_cases x with rfl | hx' | ⟨x, rfl⟩
  · simpa [sqr] using hnn
  · exact absurd hx' hx
  rcases num_cases y with rfl | hy' | ⟨y, rfl⟩
  · simpa [sqr] using hnn
  · exact absurd hy' hy
  obtain ⟨c, s, hc, hs, hcs⟩ := cos_sin_bound hF ht1
  rw [ht, hc, hs, nneg_real]
  have key : ∀ c s x y : ℝ, ∃ r : ℝ, sqr (F.ndot (some (c : EReal)) (some (x : EReal)) (some (s : EReal)) (some (y : EReal))) ≤ r * r ∧
      |r - (c * x + s * y)| ≤ 3 * u * (|c * x| + |s * y|) + 4 * η := by
    intro c s x y
    by_cases hr : Real (F.ndot (some (c : EReal)) (some (x : EReal)) (some (s : EReal)) (some (y : EReal)))
    · obtain ⟨r, hr⟩ := hr
      exact ⟨r, by rw [hr]; exact le_rfl, ndot_err hF hr⟩
    · refine ⟨c * x + s * y, by rw [sqr_not_real hr]; exact mul_self_nonneg _, ?_⟩
      rw [sub_self, abs_zero]
      positivity
  obtain ⟨r1, h1, e1⟩ := key c s x y
  obtain ⟨r2, h2, e2⟩ := key (-s) c x y
  have := pair_bound hu0 hF.u1 hη hcs e1 e2
  simp only [sqr_real]
  linarith

/-- One iteration on a matrix without infinite entries decreases the sum of the squares of the finite entries. -/
lemma offSum_step (hF : F.Close u η) (bit : Num → Num → Num → Bool) {eps : ℝ} (heps : 0 < eps) (hn : 320 * u * (n : ℝ) ^ 2 ≤ 1 / 2) (hη : 256 * n * (η * η) / u ≤ eps ^ 2 / 2)
    {S S' : NMat n} (hS : ∀ i j, S i j = S j i) {p q : Fin n} (hpq : p ≠ q) (hR : Rotated F bit p q S S') {b : ℝ} (hb : S p q = some (b : EReal)) (hbe : eps < |b|)
    (hmax : ∀ i j, i ≠ j → sqr (S i j) ≤ b * b) (hinf : ∀ i j, i ≠ j → ¬ Inf (S i j)) : offSum S' + b * b ≤ offSum S := by
  have hu0 := hF.u0
  have hu1 := hF.u1
  have hη0 := hF.η0
  have hbb : eps ^ 2 < b * b := by
    rw [← abs_mul_abs_self, sq]
    exact mul_lt_mul'' hbe hbe heps.le heps.le
  have hoff : offSum S ≤ n ^ 2 * (b * b) := by
    unfold offSum
    calc (∑ i, ∑ j, if i = j then 0 else sqr (S i j)) ≤ ∑ _i : Fin n, ∑ _j : Fin n, b * b := by
          refine sum_le_sum fun i _ => sum_le_sum fun j _ => ?_
          split_ifs with h
          · exact mul_self_nonneg b
          · exact hmax i j h
      _ = n ^ 2 * (b * b) := by simp; ring
  have hoff2 : 2 * ∑ i ∈ (univ.erase p).erase q, (sqr (S i p) + sqr (S i q)) ≤ offSum S := by
    rw [offSum_split S hS p q hpq]
    have h1 := sqr_nonneg (S p q)
    have h2 : 0 ≤ ∑ i ∈ (univ.erase p).erase q, ∑ j ∈ (univ.erase p).erase q, if i = j then 0 else sqr (S i j) := by
      refine sum_nonneg fun i _ => sum_nonneg fun j _ => ?_
      split_ifs
      · exact le_rfl
      · exact sqr_nonneg _
    linarith
  have hrest : (∑ i ∈ (univ.erase p).erase q, ∑ j ∈ (univ.erase p).erase q, if i = j then 0 else sqr (S' i j))
      = ∑ i ∈ (univ.erase p).erase q, ∑ j ∈ (univ.erase p).erase q, if i = j then 0 else sqr (S i j) := by
    refine sum_congr rfl fun i hi => sum_congr rfl fun j hj => ?_
    simp only [mem_erase, mem_univ, and_true] at hi hj
    rw [hR.ij i j hi.2 hi.1 hj.2 hj.1]
  have hK : 0 ≤ 128 * (η * η) / u := by positivity
  have hpair : ∑ i ∈ (univ.erase p).erase q, (sqr (S' i p) + sqr (S' i q))
      ≤ (1 + 320 * u) * ∑ i ∈ (univ.erase p).erase q, (sqr (S i p) + sqr (S i q)) + n * (128 * (η * η) / u) := by
    calc ∑ i ∈ (univ.erase p).erase q, (sqr (S' i p) + sqr (S' i q))
        ≤ ∑ i ∈ (univ.erase p).erase q, ((1 + 320 * u) * (sqr (S i p) + sqr (S i q)) + 128 * (η * η) / u) := by
          refine sum_le_sum fun i hi => ?_
          simp only [mem_erase, mem_univ, and_true] at hi
          rw [hR.ip i hi.2 hi.1, hR.iq i hi.2 hi.1]
          exact pair_step hF bit _ _ _ _ _ (hinf i p hi.2) (hinf i q hi.1)
      _ = (1 + 320 * u) * ∑ i ∈ (univ.erase p).erase q, (sqr (S i p) + sqr (S i q)) + (((univ.erase p).erase q).card : ℝ) * (128 * (η * η) / u) := by
          rw [sum_add_distrib, ← mul_sum, sum_const, nsmul_eq_mul]
      _ ≤ _ := by
          have : (((univ.erase p).erase q).card : ℝ) ≤ n := by
            have := card_le_univ ((univ.erase p).erase q : Finset (Fin n))
            rw [Fintype.card_fin] at this
            exact_mod_cast this
          have := mul_le_mul_of_nonneg_right this hK
          linarith
  have e := offSum_split S hS p q hpq
  have e' := offSum_split S' hR.comm p q hpq
  rw [hrest, hR.pq] at e'
  rw [hb, sqr_real] at e
  have z : sqr (some 0) = 0 := by simp [sqr]
  rw [z] at e'
  have h5 : 320 * u * (2 * ∑ i ∈ (univ.erase p).erase q, (sqr (S i p) + sqr (S i q))) ≤ 320 * u * (n ^ 2 * (b * b)) :=
    mul_le_mul_of_nonneg_left (hoff2.trans hoff) (by positivity)
  have h6 : 320 * u * n ^ 2 * (b * b) ≤ 1 / 2 * (b * b) := mul_le_mul_of_nonneg_right hn (mul_self_nonneg b)
  have h7 : 256 * n * (η * η) / u = 2 * (n * (128 * (η * η) / u)) := by ring
  linarith

/-- The progress measure. -/
noncomputable def measure (eps : ℝ) (S : NMat n) : ℕ × ℕ × ℕ :=
  open Classical in
  ((diagF S).card + (nonNaN S).card, (isos S).card, if ∃ i j, i ≠ j ∧ Inf (S i j) then 0 else ⌊offSum S / eps ^ 2⌋₊ + 1)

/-- Before or smaller. -/
abbrev Less (a b : ℕ × ℕ × ℕ) : Prop := a.1 < b.1 ∨ (a.1 = b.1 ∧ (a.2.1 < b.2.1 ∨ (a.2.1 = b.2.1 ∧ a.2.2 < b.2.2)))

lemma less_wf : WellFounded Less := by
  have h : WellFounded (Prod.Lex (fun a b : ℕ => a < b) (Prod.Lex (fun a b : ℕ => a < b) (fun a b : ℕ => a < b))) :=
    WellFounded.prod_lex wellFounded_lt (WellFounded.prod_lex wellFounded_lt wellFounded_lt)
  refine Subrelation.wf ?_ h
  rintro ⟨a, b, c⟩ ⟨a', b', c'⟩ hl
  rcases hl with h | ⟨h1, h | ⟨h2, h⟩⟩
  · exact Prod.Lex.left _ _ h
  · dsimp only at h1; subst h1
    exact Prod.Lex.right _ (Prod.Lex.left _ _ h)
  · dsimp only at h1 h2; subst h1; subst h2
    exact Prod.Lex.right _ (Prod.Lex.right _ h)

/-- Entries away from the diagonal that are NaN remain so, unless it is the rotated one. -/
lemma nonNaN_step (bit : Num → Num → Num → Bool) {S S' : NMat n} (hS : ∀ i j, S i j = S j i) {p q : Fin n} (hR : Rotated F bit p q S S') (hb : S p q ≠ none) :
    nonNaN S' ⊆ nonNaN S := by
  have k : ∀ i, i ≠ p → i ≠ q → S i p = none ∨ S i q = none → S' i p = none ∧ S' i q = none := by
    intro i h1 h2 h
    rw [hR.ip i h1 h2, hR.iq i h1 h2]
    rcases h with h | h <;> rw [h] <;> simp
  rintro ⟨i, j⟩ h
  simp only [nonNaN, mem_filter, mem_univ, true_and] at h ⊢
  refine ⟨h.1, fun hn => ?_⟩
  by_cases hip : i = p
  · by_cases hjq : j = q
    · subst hip; subst hjq; exact hb hn
    · have hjp : j ≠ p := fun e => h.1 (hip.trans e.symm)
      subst hip
      exact h.2 (by rw [hR.comm]; exact (k j hjp hjq (Or.inl (by rw [hS]; exact hn))).1)
  · by_cases hiq : i = q
    · by_cases hjp : j = p
      · subst hiq; subst hjp; exact hb (by rw [hS]; exact hn)
      · have hjq : j ≠ q := fun e => h.1 (hiq.trans e.symm)
        subst hiq
        exact h.2 (by rw [hR.comm]; exact (k j hjp hjq (Or.inr (by rw [hS]; exact hn))).2)
    · by_cases hjp : j = p
      · subst hjp
        exact h.2 (k i hip hiq (Or.inl hn)).1
      · by_cases hjq : j = q
        · subst hjq
          exact h.2 (k i hip hiq (Or.inr hn)).2
        · exact h.2 (by rw [hR.ij i j hip hiq hjp hjq]; exact hn)

/-- Entries of the diagonal that are not finite remain so. -/
lemma diagF_step (bit : Num → Num → Num → Bool) {S S' : NMat n} {p q : Fin n} (hR : Rotated F bit p q S S') : diagF S' ⊆ diagF S := by
  intro i h
  simp only [diagF, mem_filter, mem_univ, true_and] at h ⊢
  by_cases hip : i = p
  · subst hip
    rw [hR.pp] at h
    obtain ⟨r, hr⟩ := h
    exact nmac_eq_real hr
  · by_cases hiq : i = q
    · subst hiq
      rw [hR.qq] at h
      obtain ⟨r, hr⟩ := h
      exact nmac_eq_real hr
    · rwa [hR.ij i i hip hiq hip hiq] at h

/-- Every iteration makes progress. -/
lemma measure_step (hF : F.Close u η) (bit : Num → Num → Num → Bool) {eps : ℝ} (heps : 0 < eps) (hn : 320 * u * (n : ℝ) ^ 2 ≤ 1 / 2) (hη : 256 * n * (η * η) / u ≤ eps ^ 2 / 2)
    {S S' : NMat n} (hS : ∀ i j, S i j = S j i) {p q : Fin n} (hpq : p ≠ q) (hR : Rotated F bit p q S S') {m : EReal} (hm : nabs (S p q) = some m) (hme : (eps : EReal) < m)
    (hmax : ∀ i j, i ≠ j → ∀ x, nabs (S i j) = some x → x ≤ m) : Less (measure eps S') (measure eps S) := by
  have hb : S p q ≠ none := by rintro e; rw [e] at hm; cases hm
  have hNN := nonNaN_step bit hS hR hb
  have hDF := diagF_step bit hR
  have c1 := card_le_card hNN
  have c2 := card_le_card hDF
  have habs : ∀ x : Num, Inf x ↔ nabs x = some ⊤ := by
    intro x
    rcases num_cases x with rfl | h | ⟨x, rfl⟩
    · simp [Inf, nabs]
    · refine iff_of_true h ?_
      rcases h with rfl | rfl <;> simp [nabs]
    · rw [nabs_real]; simp [Inf]
  by_cases hex : ∃ i j, i ≠ j ∧ Inf (S i j)
  · -- the chosen entry is infinite
    have hmt : m = ⊤ := by
      obtain ⟨i, j, hij, hi⟩ := hex
      exact top_le_iff.1 (hmax i j hij _ ((habs _).1 hi))
    have hbi : Inf (S p q) := (habs _).2 (hmt ▸ hm)
    rcases tan_infinite hF bit (S p p) (S p q) (S q q) hbi with ht | ⟨ha, hx⟩
    · have hcs := cos_sin_none F
      have hrow : ∀ k, k ≠ p → k ≠ q → S' k p = none ∧ S' k q = none := by
        intro k h1 h2
        rw [hR.ip k h1 h2, hR.iq k h1 h2, ht, hcs.1, hcs.2]
        simp [nneg]
      by_cases hiso : Iso S p q
      · -- the isolated entry becomes zero
        have hsub : isos S' ⊆ (isos S).erase (p, q) := by
          rintro ⟨i, j⟩ h
          simp only [isos, mem_filter, mem_univ, true_and] at h
          obtain ⟨hij, hI, hA⟩ := h
          have hsome : S' i j ≠ none := by rintro e; rw [e] at hI; rcases hI with h | h <;> cases h
          have zero : ¬ Inf (some (0 : EReal)) := by rintro (h | h) <;> cases h
          have hip : i ≠ p := by
            rintro rfl
            by_cases hjq : j = q
            · subst hjq; rw [hR.pq] at hI; exact zero hI
            · rw [hR.comm] at hsome; exact hsome (hrow j hij.symm hjq).1
          have hiq : i ≠ q := by
            rintro rfl
            by_cases hjp : j = p
            · subst hjp; rw [hR.comm, hR.pq] at hI; exact zero hI
            · rw [hR.comm] at hsome; exact hsome (hrow j hjp hij.symm).2
          have hjp : j ≠ p := by rintro rfl; exact hsome (hrow i hip hiq).1
          have hjq : j ≠ q := by rintro rfl; exact hsome (hrow i hip hiq).2
          rw [hR.ij i j hip hiq hjp hjq] at hI
          simp only [isos, mem_erase, mem_filter, mem_univ, true_and, ne_eq, Prod.mk.injEq, not_and]
          refine ⟨fun h => absurd h hip, hij, hI, fun k hki hkj => ?_⟩
          by_cases hkp : k = p
          · subst hkp
            exact ⟨by rw [hS]; exact (hiso.2 i hip hiq).1, by rw [hS]; exact (hiso.2 j hjp hjq).1⟩
          · by_cases hkq : k = q
            · subst hkq
              exact ⟨by rw [hS]; exact (hiso.2 i hip hiq).2, by rw [hS]; exact (hiso.2 j hjp hjq).2⟩
            · have := hA k hki hkj
              rwa [hR.ij k i hkp hkq hip hiq, hR.ij k j hkp hkq hjp hjq] at this
        have hmem : (p, q) ∈ isos S := by simp only [isos, mem_filter, mem_univ, true_and]; exact ⟨hpq, hiso⟩
        have c3 : (isos S').card < (isos S).card := lt_of_le_of_lt (card_le_card hsub) (card_erase_lt_of_mem hmem)
        rcases (add_le_add c2 c1).lt_or_eq with h | h
        · exact Or.inl h
        · exact Or.inr ⟨h, Or.inl c3⟩
      · -- another entry becomes NaN
        left
        have : ∃ k, k ≠ p ∧ k ≠ q ∧ (S k p ≠ none ∨ S k q ≠ none) := by
          by_contra hcon
          push Not at hcon
          exact hiso ⟨hbi, fun k h1 h2 => hcon k h1 h2⟩
        obtain ⟨k, h1, h2, h⟩ := this
        have hss : nonNaN S' ⊂ nonNaN S := by
          refine hNN.ssubset_of_ne fun e => ?_
          rcases h with h | h
          · have : (k, p) ∈ nonNaN S := by simp only [nonNaN, mem_filter, mem_univ, true_and]; exact ⟨h1, h⟩
            rw [← e] at this
            simp only [nonNaN, mem_filter, mem_univ, true_and] at this
            exact this.2 (hrow k h1 h2).1
          · have : (k, q) ∈ nonNaN S := by simp only [nonNaN, mem_filter, mem_univ, true_and]; exact ⟨h2, h⟩
            rw [← e] at this
            simp only [nonNaN, mem_filter, mem_univ, true_and] at this
            exact this.2 (hrow k h1 h2).2
        exact Nat.add_lt_add_of_le_of_lt c2 (card_lt_card hss)
    · left
      have hss : diagF S' ⊂ diagF S := by
        refine hDF.ssubset_of_ne fun e => ?_
        have : p ∈ diagF S := by simp only [diagF, mem_filter, mem_univ, true_and]; exact ha
        rw [← e] at this
        simp only [diagF, mem_filter, mem_univ, true_and] at this
        rw [hR.pp] at this
        exact hx this
      exact Nat.add_lt_add_of_lt_of_le (card_lt_card hss) c1
  · -- there is no infinite entry
    push Not at hex
    have hno : isos S = ∅ := by
      ext ⟨i, j⟩
      simp only [isos, mem_filter, mem_univ, true_and, notMem_empty, iff_false]
      rintro ⟨h, hi, _⟩
      exact hex i j h hi
    have hno' : isos S' = ∅ := by
      ext ⟨i, j⟩
      simp only [isos, mem_filter, mem_univ, true_and, notMem_empty, iff_false]
      rintro ⟨hij, hI, hA⟩
      by_cases hi : i = p ∨ i = q
      · -- the rotated entry is zero, not NaN
        rcases hi with rfl | rfl
        · by_cases hjq : j = q
          · subst hjq; rw [hR.pq] at hI; rcases hI with h | h <;> cases h
          · have := (hA q hpq.symm (Ne.symm hjq)).1
            rw [hR.comm, hR.pq] at this
            cases this
        · by_cases hjp : j = p
          · subst hjp; rw [hR.comm, hR.pq] at hI; rcases hI with h | h <;> cases h
          · have := (hA p hpq (Ne.symm hjp)).1
            rw [hR.pq] at this
            cases this
      · push Not at hi
        by_cases hj : j = p ∨ j = q
        · rcases hj with rfl | rfl
          · have := (hA q hi.2.symm hpq.symm).2
            rw [hR.comm, hR.pq] at this
            cases this
          · have := (hA p hi.1.symm hpq).2
            rw [hR.pq] at this
            cases this
        · push Not at hj
          rw [hR.ij i j hi.1 hi.2 hj.1 hj.2] at hI
          exact hex i j hij hI
    rcases (add_le_add c2 c1).lt_or_eq with h | h
    · exact Or.inl h
    refine Or.inr ⟨h, Or.inr ⟨by simp only [measure]; rw [hno, hno'], ?_⟩⟩
    simp only [measure]
    rw [if_neg (c := ∃ i j, i ≠ j ∧ Inf (S i j)) (by push Not; exact hex)]
    split_ifs with h'
    · exact Nat.succ_pos _
    · obtain ⟨b, hb'⟩ : Real (S p q) := by
        rcases num_cases (S p q) with h | h | h
        · exact absurd h hb
        · exact absurd h (hex p q hpq)
        · exact h
      rw [hb', nabs_real] at hm
      have hm' : m = ((|b| : ℝ) : EReal) := (Option.some.inj hm).symm
      rw [hm'] at hme hmax
      have hbe : eps < |b| := by exact_mod_cast hme
      have hle : ∀ i j, i ≠ j → sqr (S i j) ≤ b * b := by
        intro i j hij
        rcases num_cases (S i j) with h | h | ⟨x, hx⟩
        · rw [h]; exact mul_self_nonneg b
        · exact absurd h (hex i j hij)
        · have := hmax i j hij _ (by rw [hx, nabs_real])
          have hxb : |x| ≤ |b| := by exact_mod_cast this
          rw [hx, sqr_real, ← abs_mul_abs_self x, ← abs_mul_abs_self b]
          exact mul_self_le_mul_self (abs_nonneg x) hxb
      have hstep := offSum_step hF bit heps hn hη hS hpq hR hb' hbe hle hex
      have hbb : eps ^ 2 < b * b := by
        rw [← abs_mul_abs_self, sq]
        exact mul_lt_mul'' hbe hbe heps.le heps.le
      have he2 : 0 < eps ^ 2 := by positivity
      have hq : offSum S' / eps ^ 2 + 1 ≤ offSum S / eps ^ 2 := by
        rw [div_add_one he2.ne']
        exact div_le_div_of_nonneg_right (by linarith) he2.le
      have h0 : 0 ≤ offSum S' / eps ^ 2 := div_nonneg (offSum_nonneg S') he2.le
      have := Nat.floor_le_floor hq
      rw [Nat.floor_add_one h0] at this
      omega

end ArborX.Fp
