import Verif.DistDbscan.GatherModel
import Verif.Crs.Theorems

/-!
# The merge pairs of all processes (C95)

The specification is the concatenation of the arrays of all processes.
-/

namespace ArborX.DistDbscan

variable {T : Type}

lemma scaled_small {x : ℕ} (h : x * 16 < 2 ^ 31) : scaled x = 16 * (x : ℤ) := by
  unfold scaled Int.bmod
  dsimp only
  split <;> omega

lemma gatherOffset_mono (pairs : ℕ → List T) {s t : ℕ} (h : s ≤ t) : gatherOffset pairs s ≤ gatherOffset pairs t := Crs.scan_mono _ h

lemma gatherOffset_succ (pairs : ℕ → List T) (s : ℕ) : gatherOffset pairs (s + 1) = gatherOffset pairs s + (pairs s).length := rfl

/-- Every process gets the arrays of all processes, in the order of the ranks, if they have less than `2 ^ 31` bytes together. Without this condition the claim is false (`gather_loses`). -/
theorem gather_bytes_partial (P : ℕ) (pairs : ℕ → List T) (h : ((List.range P).flatMap pairs).length * 16 < 2 ^ 31) (r : ℕ) :
    communicate P pairs r = some (((List.range P).flatMap pairs).map some) := by
  have htot : ∀ n, gatherOffset pairs n = ((List.range n).flatMap pairs).length := by
    intro n
    induction n with
    | zero => rfl
    | succ n ih => rw [gatherOffset_succ, ih, List.range_succ, List.flatMap_append, List.length_append, List.flatMap_singleton]
  rw [← htot] at h
  have hoff : ∀ s ≤ P, gatherOffset pairs s * 16 < 2 ^ 31 := fun s hs => by have := gatherOffset_mono pairs hs; omega
  have hsucc : ∀ s < P, gatherOffset pairs s + (pairs s).length ≤ gatherOffset pairs P := fun s hs => by
    rw [← gatherOffset_succ]; exact gatherOffset_mono pairs hs
  have hcnt : ∀ s < P, (pairs s).length * 16 < 2 ^ 31 := fun s hs => by have := hsucc s hs; omega
  have hpart : ∀ s < P, ∀ x, inPart pairs s x = true ↔ gatherOffset pairs s ≤ x ∧ x < gatherOffset pairs s + (pairs s).length := by
    intro s hs x
    unfold inPart
    rw [scaled_small (hoff s hs.le), scaled_small (hcnt s hs), decide_eq_true_eq]
    omega
  have huniq : ∀ s < P, ∀ t < P, ∀ x, inPart pairs s x = true → inPart pairs t x = true → s = t := by
    intro s hs t ht x h1 h2
    rw [hpart s hs] at h1
    rw [hpart t ht] at h2
    exact (Crs.scan_disjoint (fun i => (pairs i).length) (i := s) (j := t) (k := x - gatherOffset pairs s) (l := x - gatherOffset pairs t)
      (by omega) (by omega) (by unfold gatherOffset at *; omega)).1
  unfold communicate
  rw [if_pos]
  · congr 1
    have : gatherOffset pairs P = Crs.scan (fun i => (pairs i).length) P := rfl
    rw [this]
    refine Crs.toList_rows (rows := pairs) (n := P) (out := allgatherv P pairs r) ?_
    intro j k v hj hk
    have hkl := (List.getElem?_eq_some_iff.mp hk).1
    have hin : inPart pairs j (Crs.scan (fun i => (pairs i).length) j + k) = true := by
      rw [hpart j hj]
      unfold gatherOffset
      omega
    unfold allgatherv
    cases hf : (List.range P).find? (fun s => inPart pairs s (Crs.scan (fun i => (pairs i).length) j + k)) with
    | none =>
      rw [List.find?_eq_none] at hf
      exact absurd hin (hf j (List.mem_range.mpr hj))
    | some s =>
      have h1 := List.find?_some hf
      have h2 := List.mem_range.mp (List.mem_of_find?_eq_some hf)
      have : s = j := huniq s h2 j hj _ h1 hin
      subst this
      simp only
      unfold inPlace
      rw [if_pos ((hpart s hj _).mp hin)]
      unfold gatherOffset
      rw [Nat.add_sub_cancel_left, hk]
  · refine ⟨?_, ?_, huniq⟩
    · intro x hx
      obtain ⟨s, hs, rfl⟩ := List.mem_map.mp hx
      have := hoff s (by have := List.mem_range.mp hs; omega)
      constructor <;> omega
    · intro s hs
      rw [scaled_small (hoff s hs.le), scaled_small (hcnt s hs)]
      omega

lemma allgatherv_one {pairs : ℕ → List T} {P : ℕ} (hP : P ≤ 2) (h : ∀ x, inPart pairs 0 x = false) (x : ℕ) : allgatherv P pairs 1 x = inPlace pairs 1 x := by
  unfold allgatherv
  cases hf : (List.range P).find? (fun s => inPart pairs s x) with
  | none => rfl
  | some s =>
    have h1 := List.find?_some hf
    have h2 := List.mem_range.mp (List.mem_of_find?_eq_some hf)
    have : s = 0 ∨ s = 1 := by omega
    rcases this with rfl | rfl
    · simp only [h x] at h1
      exact absurd h1 Bool.false_ne_true
    · rfl

/-- **C95 (defect).** With `2 ^ 31` merge pairs or more in total their number overflows (line 130): the behaviour is undefined. -/
theorem gather_overflow (P : ℕ) (pairs : ℕ → List T) (h : 2 ^ 31 ≤ ((List.range P).flatMap pairs).length) (r : ℕ) : communicate P pairs r = none := by
  have htot : ∀ n, gatherOffset pairs n = ((List.range n).flatMap pairs).length := by
    intro n
    induction n with
    | zero => rfl
    | succ n ih => rw [gatherOffset_succ, ih, List.range_succ, List.flatMap_append, List.length_append, List.flatMap_singleton]
  rw [← htot] at h
  unfold communicate
  rw [if_neg]
  rintro ⟨h1, -⟩
  have := h1 (gatherOffset pairs P : ℤ) (List.mem_map.2 ⟨P, by simp, rfl⟩)
  unfold IsInt at this
  omega

/-- The defect: process 0 has `2 ^ 28` pairs and process 1 has one. The call succeeds, but process 1 gets none of the pairs of process 0. -/
theorem gather_loses (n : ℕ) (hn : n * 16 = 2 ^ 32) (a : List T) (ha : a.length = n) (b : T) :
    communicate 2 (fun s => if s = 0 then a else [b]) 1 = some (List.replicate n none ++ [some b]) := by
  set pairs : ℕ → List T := fun s => if s = 0 then a else [b] with hpairs
  have h0 : gatherOffset pairs 0 = 0 := rfl
  have h1 : gatherOffset pairs 1 = n := by rw [gatherOffset_succ, h0, Nat.zero_add, ← ha]; rfl
  have h2 : gatherOffset pairs 2 = n + 1 := by rw [gatherOffset_succ, h1]; rfl
  have hs0 : scaled 0 = 0 := by decide
  have hs1 : scaled 1 = 16 := by decide
  have hsn : scaled n = 0 := by unfold scaled; rw [hn]; decide
  have hlt : n < 2 ^ 29 := by
    by_contra hc
    have := Nat.mul_le_mul_right 16 (Nat.le_of_not_lt hc)
    rw [hn] at this
    norm_num at this
  clear hn
  have hl0 : (pairs 0).length = n := ha
  have hl1 : (pairs 1).length = 1 := rfl
  have hp0 : ∀ x, inPart pairs 0 x = false := by
    intro x
    unfold inPart
    rw [h0, hl0, hs0, hsn, decide_eq_false_iff_not]
    omega
  have hp1 : ∀ x, inPart pairs 1 x = decide (x = 0) := by
    intro x
    unfold inPart
    rw [h1, hl1, hsn, hs1, decide_eq_decide]
    omega
  unfold communicate
  rw [if_pos]
  · rw [h2]
    refine congrArg some ?_
    rw [List.range_succ, List.map_append, List.map_singleton]
    have hv := allgatherv_one (P := 2) le_rfl hp0
    have hi : ∀ x, inPlace pairs 1 x = if x = n then some b else none := by
      intro x
      unfold inPlace
      rw [h1, hl1]
      by_cases hx : x = n
      · rw [if_pos (by omega), if_pos hx, hx, Nat.sub_self]; rfl
      · rw [if_neg (by omega), if_neg hx]
    refine congrArg₂ (· ++ ·) ?_ ?_
    · refine List.eq_replicate_iff.mpr ⟨by simp, ?_⟩
      intro y hy
      obtain ⟨x, hx, rfl⟩ := List.mem_map.mp hy
      have := List.mem_range.mp hx
      rw [hv, hi, if_neg (by omega)]
    · simp only [hv, hi, if_true]
  · refine ⟨?_, ?_, ?_⟩
    · intro x hx
      obtain ⟨s, hs, rfl⟩ := List.mem_map.mp hx
      have hs := List.mem_range.mp hs
      have : s = 0 ∨ s = 1 ∨ s = 2 := by omega
      rcases this with rfl | rfl | rfl
      · rw [h0]; constructor <;> norm_num
      · rw [h1]; constructor <;> omega
      · rw [h2]; constructor <;> omega
    · intro s hs
      have : s = 0 ∨ s = 1 := by omega
      rcases this with rfl | rfl
      · rw [h0, hl0, hs0, hsn]; decide
      · rw [h1, hl1, hsn, hs1]; decide
    · intro s hs t ht x e1 e2
      have hs' : s = 0 ∨ s = 1 := by omega
      have ht' : t = 0 ∨ t = 1 := by omega
      rcases hs' with rfl | rfl
      · rw [hp0] at e1; exact absurd e1 (by decide)
      · rcases ht' with rfl | rfl
        · rw [hp0] at e2; exact absurd e2 (by decide)
        · rfl

/-! ## Cases that meet the hypotheses -/

/-- Three processes with two, no and one pair. -/
example : communicate 3 (fun s => if s = 0 then [(7, 3), (8, 3)] else if s = 2 then [(3, 1)] else []) 1 =
    some [some (7, 3), some (8, 3), some ((3 : ℤ), (1 : ℤ))] := gather_bytes_partial 3 _ (by decide) 1

/-- `2 ^ 28` pairs of 16 bytes. -/
example : ∃ n : ℕ, n * 16 = 2 ^ 32 ∧ ∃ a : List (ℤ × ℤ), a.length = n := ⟨2 ^ 28, by norm_num, _, List.length_replicate (a := (1, 0))⟩

end ArborX.DistDbscan
