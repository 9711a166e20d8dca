import Verif.Dbscan.Theorems
import Mathlib.Data.List.Perm.Basic
import Mathlib.Data.List.Nodup

/-!
# Points that are near no point do not influence a clustering
-/

namespace ArborX.Dbscan

/-- The points `f 0, …, f (m - 1)` of `n` points are the only ones that are near some point; `near'` are their neighbourhoods. -/
structure Embedded (n : ℕ) (near : ℕ → ℕ → Bool) (m : ℕ) (near' : ℕ → ℕ → Bool) (f : ℕ → ℕ) : Prop where
  lt : ∀ j < m, f j < n
  mono : ∀ j < m, ∀ k < m, j < k → f j < f k
  same : ∀ j < m, ∀ k < m, near (f j) (f k) = near' j k
  alone : ∀ i < n, (∃ k < n, near i k = true ∨ near k i = true) → ∃ j < m, f j = i

variable {n m minPts : ℕ} {near near' : ℕ → ℕ → Bool} {f : ℕ → ℕ} (E : Embedded n near m near' f)
include E

lemma Embedded.inj {j k : ℕ} (hj : j < m) (hk : k < m) (h : f j = f k) : j = k := by
  rcases lt_trichotomy j k with h1 | h1 | h1
  · exact absurd h (E.mono j hj k hk h1).ne
  · exact h1
  · exact absurd h (E.mono k hk j hj h1).ne'

lemma Embedded.le_iff {j k : ℕ} (hj : j < m) (hk : k < m) : f j ≤ f k ↔ j ≤ k := by
  constructor
  · intro h
    by_contra hcon
    exact absurd (E.mono k hk j hj (by omega)) (by omega)
  · intro h
    rcases h.lt_or_eq with h | rfl
    · exact (E.mono j hj k hk h).le
    · exact le_rfl

lemma Embedded.count {j : ℕ} (hj : j < m) :
    ((List.range n).filter (near (f j))).length = ((List.range m).filter (near' j)).length := by
  have : ((List.range n).filter (near (f j))).Perm (((List.range m).filter (near' j)).map f) := by
    rw [List.perm_ext_iff_of_nodup (List.nodup_range.filter _)]
    · intro i
      simp only [List.mem_filter, List.mem_range, List.mem_map]
      constructor
      · rintro ⟨hi, h⟩
        obtain ⟨k, hk, rfl⟩ := E.alone i hi ⟨f j, E.lt j hj, .inr h⟩
        exact ⟨k, ⟨hk, by rw [← E.same j hj k hk]; exact h⟩, rfl⟩
      · rintro ⟨k, ⟨hk, h⟩, rfl⟩
        exact ⟨E.lt k hk, by rw [E.same j hj k hk]; exact h⟩
    · refine (List.nodup_range.filter _).map_on ?_
      intro a ha b hb h
      exact E.inj (List.mem_range.mp (List.mem_filter.mp ha).1) (List.mem_range.mp (List.mem_filter.mp hb).1) h
  rw [this.length_eq, List.length_map]

lemma Embedded.core {j : ℕ} (hj : j < m) : Core n near minPts (f j) ↔ Core m near' minPts j := by
  unfold Core
  rw [E.count hj]

lemma Embedded.not_core {i : ℕ} (h1 : 1 ≤ minPts) (hi : i < n) (h : ∀ j < m, f j ≠ i) : ¬ Core n near minPts i ∧ ¬ NearCore n near minPts i := by
  have hno : ∀ k < n, ¬ near i k = true := by
    intro k hk hn
    obtain ⟨j, hj, e⟩ := E.alone i hi ⟨k, hk, .inl hn⟩
    exact h j hj e
  constructor
  · unfold Core
    have : (List.range n).filter (near i) = [] := by
      rw [List.filter_eq_nil_iff]
      exact fun k hk => hno k (List.mem_range.mp hk)
    rw [this, List.length_nil]
    omega
  · rintro ⟨k, hk, -, hn⟩
    exact hno k hk hn

lemma Embedded.chained {j k : ℕ} (hj : j < m) (hk : k < m) : Chained n near minPts (f j) (f k) ↔ Chained m near' minPts j k := by
  constructor
  · intro h
    have key : ∀ i, Chained n near minPts (f j) i → ∃ k < m, f k = i ∧ Chained m near' minPts j k := by
      intro i h
      induction h with
      | refl => exact ⟨j, hj, rfl, .refl⟩
      | tail _ h2 ih =>
        obtain ⟨a, ha, rfl, hc⟩ := ih
        obtain ⟨h3, h4, h5, h6, h7⟩ := h2
        obtain ⟨b, hb, rfl⟩ := E.alone _ h4 ⟨f a, h3, .inr h7⟩
        exact ⟨b, hb, rfl, hc.tail ⟨ha, hb, (E.core ha).mp h5, (E.core hb).mp h6, by rw [← E.same a ha b hb]; exact h7⟩⟩
    obtain ⟨k', hk', e, hc⟩ := key _ h
    rw [E.inj hk' hk e] at hc
    exact hc
  · intro h
    have key : ∀ k, Chained m near' minPts j k → Chained n near minPts (f j) (f k) := by
      intro k h
      induction h with
      | refl => exact .refl
      | tail _ h2 ih =>
        obtain ⟨h3, h4, h5, h6, h7⟩ := h2
        exact ih.tail ⟨E.lt _ h3, E.lt _ h4, (E.core h3).mpr h5, (E.core h4).mpr h6, by rw [E.same _ h3 _ h4]; exact h7⟩
    exact key k h

lemma Embedded.nearCore {j : ℕ} (hj : j < m) : NearCore n near minPts (f j) ↔ NearCore m near' minPts j := by
  constructor
  · rintro ⟨i, hi, hc, hn⟩
    obtain ⟨k, hk, rfl⟩ := E.alone i hi ⟨f j, E.lt j hj, .inr hn⟩
    exact ⟨k, hk, (E.core hk).mp hc, by rw [← E.same j hj k hk]; exact hn⟩
  · rintro ⟨k, hk, hc, hn⟩
    exact ⟨f k, E.lt k hk, (E.core hk).mpr hc, by rw [E.same j hj k hk]; exact hn⟩

/-- The labels of core points correspond. -/
lemma Embedded.canonical {l l' : ℕ → ℤ} (h : Canonical n near minPts l) (h' : Canonical m near' minPts l') {j : ℕ} (hj : j < m)
    (hc : Core m near' minPts j) : ∃ r < m, l' j = r ∧ l (f j) = f r := by
  obtain ⟨r, e, hr, hrc, hch, hmin⟩ := h' j hj hc
  obtain ⟨R, eR, hR, hRc, hRch, hRmin⟩ := h (f j) (E.lt j hj) ((E.core hj).mpr hc)
  refine ⟨r, hr, e, ?_⟩
  have h1 : R ≤ f r := hRmin (f r) (E.lt r hr) ((E.core hr).mpr hrc) ((E.chained hj hr).mpr hch)
  obtain ⟨k, hk, rfl⟩ : ∃ k < m, f k = R := by
    by_contra hcon
    push Not at hcon
    by_cases h0 : 1 ≤ minPts
    · exact (E.not_core h0 hR hcon).1 hRc
    · have : ∃ k < m, f k = R := by
        cases hRch.cases_tail with
        | inl e => exact ⟨j, hj, e.symm⟩
        | inr h =>
          obtain ⟨b, -, h3, h4, -, -, h7⟩ := h
          exact E.alone R h4 ⟨b, h3, .inr h7⟩
      obtain ⟨k, hk, e⟩ := this
      exact hcon k hk e
  have h2 := hmin k hk ((E.core hk).mp hRc) ((E.chained hj hk).mp hRch)
  rw [eR, le_antisymm h1 ((E.le_iff hr hk).mpr h2)]

/-- Noise corresponds, for DBSCAN. -/
lemma Embedded.noise {l l' : ℕ → ℤ} (h : IsDBSCAN n near minPts l) (h' : IsDBSCAN m near' minPts l') {j : ℕ} (hj : j < m) :
    l (f j) = -1 ↔ l' j = -1 := by
  have key : ∀ (n : ℕ) (near : ℕ → ℕ → Bool) (l : ℕ → ℤ), IsDBSCAN n near minPts l → ∀ i < n,
      (l i = -1 ↔ ¬ Core n near minPts i ∧ ¬ NearCore n near minPts i) := by
    intro n near l h i hi
    constructor
    · intro e
      refine ⟨fun hc => by have := h.core i hi hc; omega, fun hn => ?_⟩
      by_cases hc : Core n near minPts i
      · have := h.core i hi hc; omega
      · obtain ⟨k, hk, hkc, -, e'⟩ := h.border i hi hc hn
        have := h.core k hk hkc
        omega
    · rintro ⟨h1, h2⟩
      exact h.noise i hi h1 h2
  rw [key n near l h (f j) (E.lt j hj), key m near' l' h' j hj, E.core hj, E.nearCore hj]

/-- Noise corresponds, for DBSCAN*. -/
lemma Embedded.noise_star {l l' : ℕ → ℤ} (h : IsDBSCANStar n near minPts l) (h' : IsDBSCANStar m near' minPts l') {j : ℕ} (hj : j < m) :
    l (f j) = -1 ↔ l' j = -1 := by
  have key : ∀ (n : ℕ) (near : ℕ → ℕ → Bool) (l : ℕ → ℤ), IsDBSCANStar n near minPts l → ∀ i < n,
      (l i = -1 ↔ ¬ Core n near minPts i) := by
    intro n near l h i hi
    exact ⟨fun e hc => by have := h.core i hi hc; omega, h.noise i hi⟩
  rw [key n near l h (f j) (E.lt j hj), key m near' l' h' j hj, E.core hj]

end ArborX.Dbscan
