import Mathlib.Order.Basic
import Mathlib.Order.Lattice
import Mathlib.Order.MinMax
import Mathlib.Data.Nat.Bitwise
import Mathlib.Tactic.Linarith

/-!
# Edges (C24, C25)

Models `DirectedEdge` (`src/cluster/detail/ArborX_BoruvkaHelpers.hpp` lines 37-105) on 64-bit
vectors, and `WeightedEdge` (`src/cluster/detail/ArborX_WeightedEdge.hpp`). Weights are
elements of a linear order `W`: floating-point numbers without NaN.
-/

namespace ArborX.Mst

variable {W : Type} [LinearOrder W]

/-! ## Directed edges -/

/-- Members of `DirectedEdge` (lines 40-41). -/
structure DirectedEdge (W : Type) where
  key : BitVec 64
  weight : W

/-- `UINT_MAX >> 1`, converted to 64 bits (lines 47-50). -/
def half : BitVec 64 := ((BitVec.allOnes 32) >>> 1).setWidth 64

/-- `mask_source` (lines 47-48). -/
def maskSource : BitVec 64 := half <<< 32

/-- `mask_target` (lines 49-50). -/
def maskTarget : BitVec 64 := half <<< 1

/-- The constructor (lines 83-99). -/
def DirectedEdge.mk' (source target : ℕ) (weight : W) : DirectedEdge W where
  key :=
    if source < target then
      (maskSource &&& (BitVec.ofNat 64 source <<< 32)) + (maskTarget &&& (BitVec.ofNat 64 target <<< 1))
    else
      1#64 + (maskSource &&& (BitVec.ofNat 64 target <<< 32)) + (maskTarget &&& (BitVec.ofNat 64 source <<< 1))
  weight := weight

/-- `reverse` (lines 67-70). -/
def DirectedEdge.reverse (e : DirectedEdge W) : Bool := e.key &&& 1#64 == 1#64

/-- `source` (lines 73-77). -/
def DirectedEdge.source (e : DirectedEdge W) : ℕ :=
  (if e.reverse then (e.key &&& maskTarget) >>> 1 else (e.key &&& maskSource) >>> 32).toNat

/-- `target` (lines 78-82). -/
def DirectedEdge.target (e : DirectedEdge W) : ℕ :=
  (if e.reverse then (e.key &&& maskSource) >>> 32 else (e.key &&& maskTarget) >>> 1).toNat

/-- `operator<` (lines 60-65). -/
def DirectedEdge.lt (a b : DirectedEdge W) : Bool :=
  if a.weight ≠ b.weight then decide (a.weight < b.weight) else decide (a.key < b.key)

/-- The default constructor (lines 40-41, 100): `ULLONG_MAX` and infinity. -/
def DirectedEdge.default (inf : W) : DirectedEdge W := ⟨BitVec.allOnes 64, inf⟩

/-! ## Weighted edges -/

/-- `WeightedEdge` (lines 22-26). -/
structure WeightedEdge (W : Type) where
  source : ℕ
  target : ℕ
  weight : W
  deriving DecidableEq

/-- `operator<` (lines 31-48). -/
def WeightedEdge.lt (a b : WeightedEdge W) : Bool :=
  if a.weight ≠ b.weight then decide (a.weight < b.weight)
  else if min a.source a.target ≠ min b.source b.target then
    decide (min a.source a.target < min b.source b.target)
  else decide (max a.source a.target < max b.source b.target)

/-! ## Lemmas -/

lemma half_toNat : half.toNat = 2 ^ 31 - 1 := by decide

lemma and_mask (x k : ℕ) : (2 ^ 31 - 1) <<< k &&& x <<< k = (x % 2 ^ 31) <<< k := by
  rw [← Nat.shiftLeft_and_distrib, Nat.and_comm, Nat.and_two_pow_sub_one_eq_mod]

lemma mask_part (x k : ℕ) (hk : k ≤ 32) (hx : x < 2 ^ 31) :
    ((half <<< k) &&& (BitVec.ofNat 64 x <<< k)).toNat = x * 2 ^ k := by
  have hp : 2 ^ k ≤ 2 ^ 32 := Nat.pow_le_pow_right (by norm_num) hk
  rw [BitVec.toNat_and, BitVec.toNat_shiftLeft, BitVec.toNat_shiftLeft, half_toNat, BitVec.toNat_ofNat,
    Nat.mod_eq_of_lt (a := x) (by omega), Nat.mod_eq_of_lt, Nat.mod_eq_of_lt, and_mask, Nat.mod_eq_of_lt hx,
    Nat.shiftLeft_eq]
  · rw [Nat.shiftLeft_eq]; nlinarith
  · rw [Nat.shiftLeft_eq]
    have : (2 ^ 31 - 1) * 2 ^ k ≤ (2 ^ 31 - 1) * 2 ^ 32 := Nat.mul_le_mul_left _ hp
    omega

lemma unmask (d : BitVec 64) (k : ℕ) (hk : k ≤ 32) :
    ((d &&& (half <<< k)) >>> k).toNat = d.toNat / 2 ^ k % 2 ^ 31 := by
  have hp : 2 ^ k ≤ 2 ^ 32 := Nat.pow_le_pow_right (by norm_num) hk
  rw [BitVec.toNat_ushiftRight, BitVec.toNat_and, BitVec.toNat_shiftLeft, half_toNat, Nat.mod_eq_of_lt,
    Nat.shiftRight_and_distrib, Nat.shiftLeft_shiftRight, Nat.and_two_pow_sub_one_eq_mod, Nat.shiftRight_eq_div_pow]
  rw [Nat.shiftLeft_eq]
  have : (2 ^ 31 - 1) * 2 ^ k ≤ (2 ^ 31 - 1) * 2 ^ 32 := Nat.mul_le_mul_left _ hp
  omega

omit [LinearOrder W] in
/-- The key as a number: smaller index, larger index, direction. -/
lemma key_toNat {s t : ℕ} (hs : s < 2 ^ 31) (ht : t < 2 ^ 31) (w : W) :
    (DirectedEdge.mk' s t w).key.toNat = min s t * 2 ^ 32 + max s t * 2 + (if s < t then 0 else 1) := by
  unfold DirectedEdge.mk'
  dsimp only
  have a1 := mask_part s 32 le_rfl hs
  have a2 := mask_part t 32 le_rfl ht
  have b1 := mask_part s 1 (by norm_num) hs
  have b2 := mask_part t 1 (by norm_num) ht
  split_ifs with h
  · rw [BitVec.toNat_add]
    unfold maskSource maskTarget
    rw [a1, b2, min_eq_left h.le, max_eq_right h.le]
    omega
  · rw [BitVec.toNat_add, BitVec.toNat_add]
    unfold maskSource maskTarget
    rw [a2, b1, min_eq_right (by omega), max_eq_left (by omega)]
    have : (1#64).toNat = 1 := rfl
    rw [this]
    omega

omit [LinearOrder W] in
lemma reverse_eq (e : DirectedEdge W) : e.reverse = decide (e.key.toNat % 2 = 1) := by
  unfold DirectedEdge.reverse
  rw [Bool.eq_iff_iff, beq_iff_eq, decide_eq_true_eq, ← BitVec.toNat_inj, BitVec.toNat_and]
  have : (1#64).toNat = 1 := rfl
  rw [this, Nat.and_one_is_mod]

/-! ## Property theorems -/

omit [LinearOrder W] in
/-- **C24.** A directed edge returns the source, the target and the weight it was built from. -/
theorem directed_edge_roundtrip (s t : ℕ) (hs : s < 2 ^ 31) (ht : t < 2 ^ 31) (w : W) :
    (DirectedEdge.mk' s t w).source = s ∧ (DirectedEdge.mk' s t w).target = t ∧
    (DirectedEdge.mk' s t w).weight = w := by
  have hk := key_toNat hs ht w
  unfold DirectedEdge.source DirectedEdge.target
  rw [reverse_eq]
  unfold maskSource maskTarget
  rw [apply_ite BitVec.toNat, apply_ite BitVec.toNat, unmask _ 1 (by norm_num), unmask _ 32 le_rfl]
  by_cases h : s < t
  · rw [if_pos h, min_eq_left h.le, max_eq_right h.le, Nat.add_zero] at hk
    rw [hk, decide_eq_false (by omega)]
    simp only [Bool.false_eq_true, if_false]
    exact ⟨by omega, by omega, rfl⟩
  · rw [if_neg h, min_eq_right (by omega), max_eq_left (by omega)] at hk
    rw [hk, decide_eq_true (by omega)]
    simp only [if_true]
    exact ⟨by omega, by omega, rfl⟩

/-- **C24.** Comparison of directed edges: by weight, then by the smaller index, then by the larger
index, whatever the directions of the two edges; of the two directions of one edge the one from the
smaller index comes first. -/
theorem directed_edge_order (s t s' t' : ℕ) (hs : s < 2 ^ 31) (ht : t < 2 ^ 31) (hs' : s' < 2 ^ 31) (ht' : t' < 2 ^ 31)
    (w w' : W) :
    (DirectedEdge.mk' s t w).lt (DirectedEdge.mk' s' t' w') = true ↔
      w < w' ∨ (w = w' ∧ (min s t < min s' t' ∨ (min s t = min s' t' ∧ (max s t < max s' t' ∨
        (max s t = max s' t' ∧ s < t ∧ ¬ s' < t'))))) := by
  unfold DirectedEdge.lt
  have e : (DirectedEdge.mk' s t w).weight = w := rfl
  have e' : (DirectedEdge.mk' s' t' w').weight = w' := rfl
  rw [e, e']
  by_cases h : w = w'
  · rw [if_neg (by simpa using h), decide_eq_true_eq, BitVec.lt_def, key_toNat hs ht, key_toNat hs' ht']
    subst h
    simp only [lt_irrefl, false_or, true_and]
    have h1 : max s t < 2 ^ 31 := max_lt hs ht
    have h2 : max s' t' < 2 ^ 31 := max_lt hs' ht'
    split_ifs <;> omega
  · rw [if_pos h, decide_eq_true_eq]
    simp [h]

/-- **C24.** Equal keys mean the same source and the same target. -/
theorem directed_edge_key_inj (s t s' t' : ℕ) (hs : s < 2 ^ 31) (ht : t < 2 ^ 31) (hs' : s' < 2 ^ 31)
    (ht' : t' < 2 ^ 31) (w w' : W) (h : (DirectedEdge.mk' s t w).key = (DirectedEdge.mk' s' t' w').key) :
    s = s' ∧ t = t' := by
  have a := directed_edge_roundtrip s t hs ht w
  have b := directed_edge_roundtrip s' t' hs' ht' w'
  have hsrc : (DirectedEdge.mk' s t w).source = (DirectedEdge.mk' s' t' w').source := by
    unfold DirectedEdge.source DirectedEdge.reverse; rw [h]
  have htgt : (DirectedEdge.mk' s t w).target = (DirectedEdge.mk' s' t' w').target := by
    unfold DirectedEdge.target DirectedEdge.reverse; rw [h]
  rw [a.1, b.1] at hsrc
  rw [a.2.1, b.2.1] at htgt
  exact ⟨hsrc, htgt⟩

/-- **C24.** Every edge of weight at most infinity comes before the default edge. -/
theorem directed_edge_lt_default (s t : ℕ) (hs : s < 2 ^ 31) (ht : t < 2 ^ 31) (w inf : W) (hw : w ≤ inf) :
    (DirectedEdge.mk' s t w).lt (DirectedEdge.default inf) = true := by
  unfold DirectedEdge.lt
  have e : (DirectedEdge.mk' s t w).weight = w := rfl
  have e' : (DirectedEdge.default inf).weight = inf := rfl
  rw [e, e']
  by_cases h : w = inf
  · rw [if_neg (by simpa using h), decide_eq_true_eq, BitVec.lt_def, key_toNat hs ht]
    have : (DirectedEdge.default inf).key.toNat = 2 ^ 64 - 1 := by
      unfold DirectedEdge.default; dsimp only; decide
    rw [this]
    have h1 : max s t < 2 ^ 31 := max_lt hs ht
    have h2 : min s t < 2 ^ 31 := min_lt_of_left_lt hs
    split_ifs <;> omega
  · rw [if_pos h, decide_eq_true_eq]
    exact lt_of_le_of_ne hw h

/-- A case that meets the hypotheses: large indices in both directions. -/
example : (DirectedEdge.mk' 2147483647 5 (3 : ℕ)).source = 2147483647 ∧
    (DirectedEdge.mk' 2147483647 5 (3 : ℕ)).target = 5 ∧ (DirectedEdge.mk' 5 2147483647 (3 : ℕ)).source = 5 ∧
    (DirectedEdge.mk' 5 2147483647 (3 : ℕ)).lt (DirectedEdge.mk' 2147483647 5 3) = true := by
  decide

/-- The two edges are the same undirected edge with the same weight. -/
def WeightedEdge.Same (a b : WeightedEdge W) : Prop :=
  a.weight = b.weight ∧
    ((a.source = b.source ∧ a.target = b.target) ∨ (a.source = b.target ∧ a.target = b.source))

lemma weighted_lt_iff (a b : WeightedEdge W) : a.lt b = true ↔
    a.weight < b.weight ∨ (a.weight = b.weight ∧ (min a.source a.target < min b.source b.target ∨
      (min a.source a.target = min b.source b.target ∧ max a.source a.target < max b.source b.target))) := by
  unfold WeightedEdge.lt
  by_cases h : a.weight = b.weight
  · rw [if_neg (by simpa using h)]
    simp only [h, lt_irrefl, false_or, true_and]
    split_ifs with h2
    · rw [decide_eq_true_eq]; omega
    · rw [decide_eq_true_eq]; omega
  · rw [if_pos h, decide_eq_true_eq]
    simp [h]

/-- **C25.** Comparison of weighted edges: weight first, then the unordered pair of vertices. It is
irreflexive, transitive, and two edges are incomparable exactly if they are the same undirected
edge, whatever the direction. -/
theorem weighted_edge_order :
    (∀ a b : WeightedEdge W, a.weight < b.weight → a.lt b = true) ∧
    (∀ a b : WeightedEdge W, a.lt b = true → a.weight ≤ b.weight) ∧
    (∀ a : WeightedEdge W, a.lt a = false) ∧
    (∀ a b c : WeightedEdge W, a.lt b = true → b.lt c = true → a.lt c = true) ∧
    (∀ a b : WeightedEdge W, (a.lt b = false ∧ b.lt a = false) ↔ a.Same b) ∧
    (∀ a a' b b' : WeightedEdge W, a.Same a' → b.Same b' → a.lt b = a'.lt b') := by
  refine ⟨?_, ?_, ?_, ?_, ?_, ?_⟩
  · intro a b h
    rw [weighted_lt_iff]; exact Or.inl h
  · intro a b h
    rw [weighted_lt_iff] at h
    rcases h with h | ⟨h, -⟩
    · exact h.le
    · exact h.le
  · intro a
    rw [← Bool.not_eq_true, weighted_lt_iff]
    simp
  · intro a b c h1 h2
    rw [weighted_lt_iff] at h1 h2 ⊢
    rcases h1 with h1 | ⟨h1, h1'⟩ <;> rcases h2 with h2 | ⟨h2, h2'⟩
    · exact Or.inl (h1.trans h2)
    · exact Or.inl (h2 ▸ h1)
    · exact Or.inl (h1 ▸ h2)
    · exact Or.inr ⟨h1.trans h2, by omega⟩
  · intro a b
    rw [← Bool.not_eq_true, ← Bool.not_eq_true, weighted_lt_iff, weighted_lt_iff]
    unfold WeightedEdge.Same
    constructor
    · rintro ⟨h1, h2⟩
      rw [not_or] at h1 h2
      have hw : a.weight = b.weight := le_antisymm (not_lt.mp h2.1) (not_lt.mp h1.1)
      refine ⟨hw, ?_⟩
      have h3 : ¬ _ := fun h => h1.2 ⟨hw, h⟩
      have h4 : ¬ _ := fun h => h2.2 ⟨hw.symm, h⟩
      omega
    · rintro ⟨hw, h⟩
      rw [hw]
      simp only [lt_irrefl, false_or, true_and]
      constructor <;> omega
  · rintro a a' b b' ⟨h1, h2⟩ ⟨h3, h4⟩
    rw [Bool.eq_iff_iff, weighted_lt_iff, weighted_lt_iff, h1, h3]
    have e1 : min a.source a.target = min a'.source a'.target := by omega
    have e2 : min b.source b.target = min b'.source b'.target := by omega
    have e3 : max a.source a.target = max a'.source a'.target := by omega
    have e4 : max b.source b.target = max b'.source b'.target := by omega
    rw [e1, e2, e3, e4]

/-- The order separates edges of equal weight, and reversed edges are the same. -/
example : (⟨4, 1, 7⟩ : WeightedEdge ℕ).lt ⟨2, 3, 7⟩ = true ∧ (⟨4, 1, 7⟩ : WeightedEdge ℕ).Same ⟨1, 4, 7⟩ := by
  refine ⟨by decide, rfl, Or.inr ⟨rfl, rfl⟩⟩

end ArborX.Mst
