import Mathlib.Data.Nat.Prime.Basic
import Mathlib.Algebra.BigOperators.Group.List.Basic
import Mathlib.Data.List.Sort
import Mathlib.Algebra.Order.BigOperators.Group.List
import Mathlib.Tactic.Linarith

/-!
# `closestFactors` (C44)

`none` is a signed overflow (or fuel exhausted, in `trialDivision`).
-/

namespace ArborX.Distributed

/-! ## Model -/

/-- The loop that finds the prime factors (`ArborX_DistributedUtils.hpp` 39-52), `nn` and `i` its
variables, the factors in the order of `push_back`. The operands of `%` and `/` are positive and
below `2^31`, where `int` and `unsigned` agree with `ℕ`. -/
def trialDivision : (fuel nn i : ℕ) → Option (List ℕ)
  | 0, nn, _ => if nn ≤ 1 then some [] else none
  | fuel + 1, nn, i =>
    if nn > 1 then
      if nn % i ≠ 0 then trialDivision fuel nn (i + 1)
      else (trialDivision fuel (nn / i) i).map (i :: ·)
    else some []

/-- `std::sort` in ascending order, by specification. -/
def sort (l : List ℕ) : List ℕ := l.insertionSort (· ≤ ·)

/-- One iteration of the loop over the factors (58-62); `int` has 32 bits. -/
def multiply (result : List ℕ) (f : ℕ) : Option (List ℕ) :=
  match result with
  | [] => none
  | a :: t => if a * f < 2 ^ 31 then some (sort (a * f :: t)) else none

/-- `closestFactors<DIM>(n)` (24-66). -/
def closestFactors (fuel DIM n : ℕ) : Option (List ℕ) :=
  if DIM = 1 then some [n]
  else match trialDivision fuel n 2 with
    | none => none
    | some factors => ((factors.reverse).foldlM multiply (List.replicate DIM 1)).map List.reverse

/-! ## Lemmas -/

lemma trialDivision_spec : ∀ (fuel nn i : ℕ), 2 ≤ i → 1 ≤ nn → (∀ p, p.Prime → p ∣ nn → i ≤ p) →
    2 * nn - i ≤ fuel → ∃ L, trialDivision fuel nn i = some L ∧ L.prod = nn ∧ ∀ f ∈ L, 0 < f := by
  intro fuel
  induction fuel with
  | zero =>
    intro nn i h2 h1 hp hf
    have : nn ≤ 1 := by
      by_contra h
      have := hp _ (Nat.minFac_prime (by omega)) (Nat.minFac_dvd nn)
      have := Nat.minFac_le (n := nn) (by omega)
      omega
    refine ⟨[], by simp [trialDivision, this], ?_, by simp⟩
    simp only [List.prod_nil]; omega
  | succ fuel ih =>
    intro nn i h2 h1 hp hf
    rw [trialDivision.eq_def]
    dsimp only
    by_cases h : nn > 1
    · rw [if_pos h]
      have hle : i ≤ nn := by
        have := hp _ (Nat.minFac_prime (by omega)) (Nat.minFac_dvd nn)
        have := Nat.minFac_le (n := nn) (by omega)
        omega
      by_cases hm : nn % i ≠ 0
      · rw [if_pos hm]
        apply ih nn (i + 1) (by omega) h1 _ (by omega)
        intro p hpp hd
        rcases Nat.lt_or_ge i p with h' | h'
        · exact h'
        · have : i = p := le_antisymm (hp p hpp hd) h'
          subst this
          exact absurd (Nat.mod_eq_zero_of_dvd hd) hm
      · rw [if_neg hm]
        have hd : i ∣ nn := Nat.dvd_of_mod_eq_zero (not_not.mp hm)
        obtain ⟨c, rfl⟩ := hd
        have hc : 0 < c := by
          rcases Nat.eq_zero_or_pos c with h0 | h0
          · subst h0; omega
          · exact h0
        rw [Nat.mul_div_cancel_left _ (by omega)]
        obtain ⟨L, e, hL, hpos⟩ := ih c i h2 hc (fun p hpp hd => hp p hpp (hd.mul_left i)) (by
          have : 2 * c ≤ i * c := Nat.mul_le_mul_right _ h2
          omega)
        refine ⟨i :: L, by rw [e]; rfl, by rw [List.prod_cons, hL], ?_⟩
        intro f hf
        rcases List.mem_cons.mp hf with rfl | hf
        · omega
        · exact hpos f hf
    · rw [if_neg h]
      refine ⟨[], rfl, ?_, by simp⟩
      simp only [List.prod_nil]; omega

lemma sort_perm (l : List ℕ) : (sort l).Perm l := List.perm_insertionSort _ _

lemma sort_sorted (l : List ℕ) : (sort l).Pairwise (· ≤ ·) := by
  exact List.pairwise_insertionSort (· ≤ ·) l

lemma prod_pos : ∀ (l : List ℕ), (∀ x ∈ l, 0 < x) → 0 < l.prod
  | [], _ => by simp
  | a :: l, h => by
    rw [List.prod_cons]
    exact Nat.mul_pos (h a List.mem_cons_self) (prod_pos l (fun x hx => h x (List.mem_cons_of_mem _ hx)))

lemma multiply_all (fs : List ℕ) : ∀ (r : List ℕ) (DIM : ℕ), 1 ≤ DIM → r.length = DIM → (∀ x ∈ r, 0 < x) → (∀ f ∈ fs, 0 < f) →
    r.Pairwise (· ≤ ·) → r.prod * fs.prod < 2 ^ 31 →
    ∃ r', fs.foldlM multiply r = some r' ∧ r'.length = DIM ∧ (∀ x ∈ r', 0 < x) ∧ r'.Pairwise (· ≤ ·) ∧
      r'.prod = r.prod * fs.prod := by
  induction fs with
  | nil => intro r DIM h1 hl hp _ hs _; exact ⟨r, rfl, hl, hp, hs, by simp⟩
  | cons f fs ih =>
    intro r DIM h1 hl hp hpf hs hlt
    match r, hl with
    | [], hl => simp only [List.length_nil] at hl; omega
    | a :: t, hl =>
      have hf : 0 < f := hpf f List.mem_cons_self
      have hpt : 0 < t.prod := prod_pos _ (fun x hx => hp x (List.mem_cons_of_mem _ hx))
      have hpfs : 0 < fs.prod := prod_pos _ (fun x hx => hpf x (List.mem_cons_of_mem _ hx))
      have e1 : (a :: t).prod * (f :: fs).prod = (a * f) * (t.prod * fs.prod) := by
        simp only [List.prod_cons]; ac_rfl
      have hb : a * f < 2 ^ 31 := by
        rw [e1] at hlt
        have : 1 ≤ t.prod * fs.prod := Nat.mul_pos hpt hpfs
        exact lt_of_le_of_lt (Nat.le_mul_of_pos_right _ this) hlt
      have es : multiply (a :: t) f = some (sort (a * f :: t)) := by
        exact if_pos hb
      have hpm := sort_perm (a * f :: t)
      have hprod : (sort (a * f :: t)).prod * fs.prod = (a :: t).prod * (f :: fs).prod := by
        rw [hpm.prod_eq, e1, List.prod_cons]; ac_rfl
      obtain ⟨r', h2, h3, h4, h5, h6⟩ := ih (sort (a * f :: t)) DIM h1 (by rw [hpm.length_eq]; exact hl)
        (by
          intro x hx
          rcases List.mem_cons.mp (hpm.mem_iff.mp hx) with rfl | hx
          · exact Nat.mul_pos (hp a List.mem_cons_self) hf
          · exact hp x (List.mem_cons_of_mem _ hx))
        (fun g hg => hpf g (List.mem_cons_of_mem _ hg)) (sort_sorted _) (by rw [hprod]; exact hlt)
      refine ⟨r', ?_, h3, h4, h5, by rw [h6, hprod]⟩
      rw [List.foldlM_cons, es]
      exact h2

/-! ## Property theorem -/

/-- **C44.** For every `int` `n ≥ 1` and every `DIM ≥ 1`, `closestFactors<DIM>(n)` terminates (after
at most `2n` steps of the search for prime factors) without overflow and returns `DIM` positive
factors in decreasing order whose product is `n`. -/
theorem closestFactors_correct (DIM n : ℕ) (hD : 1 ≤ DIM) (hn : 1 ≤ n) (hint : n < 2 ^ 31) (fuel : ℕ) (hfuel : 2 * n ≤ fuel) :
    ∃ r, closestFactors fuel DIM n = some r ∧ r.length = DIM ∧ (∀ x ∈ r, 0 < x) ∧ r.Pairwise (· ≥ ·) ∧ r.prod = n := by
  unfold closestFactors
  by_cases h1 : DIM = 1
  · rw [if_pos h1]
    exact ⟨[n], rfl, by simp [h1], by simp; omega, by simp, by simp⟩
  · rw [if_neg h1]
    obtain ⟨L, e, hprod, hpos⟩ := trialDivision_spec fuel n 2 le_rfl hn (fun p hp _ => hp.two_le) (by omega)
    rw [e]
    dsimp only
    have hone : (List.replicate DIM 1).prod = 1 := by simp
    obtain ⟨r, h2, h3, h4, h5, h6⟩ := multiply_all L.reverse (List.replicate DIM 1) DIM hD (by simp)
      (by intro x hx; rw [List.eq_of_mem_replicate hx]; exact Nat.one_pos) (by intro f hf; exact hpos f (List.mem_reverse.mp hf))
      (List.pairwise_replicate.mpr (.inr le_rfl)) (by rw [hone, List.prod_reverse, hprod]; omega)
    rw [h2]
    refine ⟨r.reverse, rfl, by rw [List.length_reverse]; exact h3, fun x hx => h4 x (List.mem_reverse.mp hx), ?_, ?_⟩
    · rw [List.pairwise_reverse]; exact h5
    · rw [List.prod_reverse, h6, hone, List.prod_reverse, hprod]; omega

/-- Sixty ranks as a 3D grid. -/
example : closestFactors 120 3 60 = some [5, 4, 3] := by decide +kernel
example : ∃ r, closestFactors 120 3 60 = some r ∧ r.length = 3 ∧ (∀ x ∈ r, 0 < x) ∧ r.Pairwise (· ≥ ·) ∧ r.prod = 60 :=
  closestFactors_correct 3 60 (by decide) (by decide) (by decide) 120 (by decide)

end ArborX.Distributed
