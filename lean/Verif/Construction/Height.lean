import Verif.Construction.Keys
import Mathlib.Data.Nat.Size
import Mathlib.Tactic.Ring

/-!
# The shape of the hierarchy: Cartesian tree of the split keys, and its height

Used for the capacity of the traversal stacks (C06).
-/

namespace ArborX.Construction

/-- Specification. `T` is the tree over leaves `l, ..., r` obtained by splitting at the
position of the largest key, recursively: everything left of the split has a key at
most the key of the split, everything right of it a smaller one. -/
inductive CartTree (key : ℕ → ℤ) : ℕ → ℕ → BTree → Prop
  | leaf (i : ℕ) : CartTree key i i (.leaf i)
  | node (l p r : ℕ) (a b : BTree) : l ≤ p → p < r →
      CartTree key l p a → CartTree key (p + 1) r b →
      (∀ s, l ≤ s → s < p → key s ≤ key p) → (∀ s, p < s → s < r → key s < key p) →
      CartTree key l r (.node a b)

lemma CartTree.le {key : ℕ → ℤ} {l r : ℕ} {T : BTree} (h : CartTree key l r T) : l ≤ r := by
  cases h <;> omega

/-- The tree is determined by the keys. -/
theorem CartTree.unique {key : ℕ → ℤ} {l r : ℕ} {T T' : BTree} (h : CartTree key l r T)
    (h' : CartTree key l r T') : T = T' := by
  induction h generalizing T' with
  | leaf i =>
    generalize hi : i = j at h'
    cases h' with
    | leaf => rfl
    | node _ p _ a b h1 h2 => omega
  | node l p r a b h1 h2 ha hb h3 h4 iha ihb =>
    cases h' with
    | leaf i => omega
    | node _ p' _ a' b' h1' h2' ha' hb' h3' h4' =>
      have hp : p = p' := by
        rcases lt_trichotomy p p' with h | h | h
        · have := h3' p h1 h; have := h4 p' h h2'; omega
        · exact h
        · have := h3 p' h1' h; have := h4' p h h2; omega
      subst hp
      rw [iha ha', ihb hb']

variable {α V : Type} [SemilatticeSup V] [OrderBot V]

lemma Built.cart {P : Params α V} {L I} {l r : ℕ} {T : BTree}
    (h : Built P L I l r T) (hr : r ≤ P.m) : CartTree P.key l r T := by
  induction h with
  | leaf i => exact .leaf i
  | node l p r a b ha hb h1 h2 _ iha ihb =>
    have la := ha.le
    have lb := hb.le
    have na := ha.isNode (by omega)
    have nb := hb.isNode hr
    refine .node l p r a b la (by omega) (iha (by omega)) (ihb hr) ?_ ?_
    · intro s hs1 hs2
      have := (na.2.2 s hs1 hs2).2
      rwa [dR_lt P (by omega), dR_lt P (by omega)] at this
    · intro s hs1 hs2
      have := (nb.2.2 s (by omega) hs2).1
      rwa [dL_succ, dR_lt P (by omega), dR_lt P (by omega)] at this

/-- **C02 (shape).** The tree of `construction_correct` is the Cartesian tree of the
split keys. -/
theorem construction_cartesian (P : Params α V) (h : ValidKeys P) :
    ∃ T : BTree, CartTree P.key 0 P.m T ∧ ∀ sched, Complete P (run P sched) →
      WellFormed (memOf P (run P sched)) P.value P.vol T := by
  have g := h.good
  obtain ⟨T, hT⟩ := construction_correct P h
  obtain ⟨sched0, hc0⟩ := exists_complete P h
  obtain ⟨blk0, hI0⟩ := inv_run g sched0
  obtain ⟨T0, hT0⟩ := hI0.complete g hc0
  refine ⟨T0, hT0.cart le_rfl, fun sched hc => ?_⟩
  obtain ⟨blk, hI⟩ := inv_run g sched
  obtain ⟨T', hT'⟩ := hI.complete g hc
  have e := hT0.unique hT' le_rfl
  subst e
  refine ⟨?_, ?_⟩
  · rw [hT'.leaves, memOf, List.range_eq_range']; rfl
  · have := hT'.layout g le_rfl
    have hid : idOf P 0 P.m = P.m + 1 := by
      have := g.pos
      simp only [idOf]; rw [if_neg (by omega)]
      have : ¬ isLeft P 0 P.m := by
        unfold isLeft; rw [dL_zero, dR_ge P le_rfl]; exact lt_irrefl _
      simp [karras, this, internalIndex]
    have hro : ropeOf P P.m = none := by simp [ropeOf, setRope]
    rw [hid, hro] at this
    exact this

/-- A level function for the keys: monotone, and between two splits of the same level
there is one of a higher level. -/
structure Levels (key : ℕ → ℤ) (lev : ℕ → ℕ) (m : ℕ) : Prop where
  mono : ∀ i j, i < m → j < m → key i ≤ key j → lev i ≤ lev j
  sep : ∀ i k, i < k → k < m → lev i = lev k → ∃ j, i < j ∧ j < k ∧ lev i < lev j

lemma CartTree.height_le {key : ℕ → ℤ} {lev : ℕ → ℕ} {m : ℕ} (hl : Levels key lev m)
    {l r : ℕ} {T : BTree} (h : CartTree key l r T) (hr : r ≤ m) (B : ℕ)
    (hB : ∀ s, l ≤ s → s < r → lev s < B) : T.height ≤ B := by
  induction h generalizing B with
  | leaf i => simp [BTree.height]
  | node l p r a b h1 h2 ha hb h3 h4 iha ihb =>
    have hla : ∀ s, l ≤ s → s < p → lev s < lev p := by
      intro s hs1 hs2
      have := hl.mono s p (by omega) (by omega) (h3 s hs1 hs2)
      rcases Nat.lt_or_eq_of_le this with h | h
      · exact h
      · obtain ⟨j, j1, j2, j3⟩ := hl.sep s p hs2 (by omega) h
        have := hl.mono j p (by omega) (by omega) (h3 j (by omega) j2)
        omega
    have hlb : ∀ s, p + 1 ≤ s → s < r → lev s < lev p := by
      intro s hs1 hs2
      have := hl.mono s p (by omega) (by omega) (h4 s (by omega) hs2).le
      rcases Nat.lt_or_eq_of_le this with h | h
      · exact h
      · obtain ⟨j, j1, j2, j3⟩ := hl.sep p s (by omega) (by omega) h.symm
        have := hl.mono j p (by omega) (by omega) (h4 j (by omega) (by omega)).le
        omega
    have hp := hB p h1 h2
    have := iha (by omega) (lev p) hla
    have := ihb hr (lev p) hlb
    simp only [BTree.height]
    omega

/-! Level of an exclusive-or: position of the highest differing bit. -/

lemma xor_div_pow (a b k : ℕ) : (a ^^^ b) / 2 ^ k = (a / 2 ^ k) ^^^ (b / 2 ^ k) := by
  rw [← Nat.shiftRight_eq_div_pow, ← Nat.shiftRight_eq_div_pow, ← Nat.shiftRight_eq_div_pow,
    Nat.shiftRight_xor_distrib]

lemma xor_lt_pow_iff (a b k : ℕ) : a ^^^ b < 2 ^ k ↔ a / 2 ^ k = b / 2 ^ k := by
  rw [← Nat.div_eq_zero_iff_lt (by positivity), xor_div_pow]
  constructor
  · exact xor_zero
  · intro h; rw [h, Nat.xor_self]

lemma size_xor_le (a b k : ℕ) : (a ^^^ b).size ≤ k ↔ a / 2 ^ k = b / 2 ^ k := by
  rw [Nat.size_le, xor_lt_pow_iff]

/-- between two equal levels of a sorted sequence there is a higher one -/
lemma level_sep (c : ℕ → ℕ) (i k L : ℕ) (hik : i < k) (hs : ∀ j, i ≤ j → j ≤ k → c j ≤ c (j + 1))
    (h1 : (c i ^^^ c (i + 1)).size = L + 1) (h2 : (c k ^^^ c (k + 1)).size = L + 1) :
    ∃ j, i < j ∧ j < k ∧ L + 1 < (c j ^^^ c (j + 1)).size := by
  by_contra hno
  have hno : ∀ j, i < j → j < k → c j / 2 ^ (L + 1) = c (j + 1) / 2 ^ (L + 1) := by
    intro j hj1 hj2
    rw [← size_xor_le]
    by_contra hc
    exact hno ⟨j, hj1, hj2, by omega⟩
  have a1 := (size_xor_le (c i) (c (i + 1)) (L + 1)).mp (by omega)
  have b1 : c i / 2 ^ L ≠ c (i + 1) / 2 ^ L := by rw [Ne, ← size_xor_le]; omega
  have a2 := (size_xor_le (c k) (c (k + 1)) (L + 1)).mp (by omega)
  have b2 : c k / 2 ^ L ≠ c (k + 1) / 2 ^ L := by rw [Ne, ← size_xor_le]; omega
  have mono1 : ∀ j, i + 1 ≤ j → j ≤ k → c (i + 1) / 2 ^ (L + 1) = c j / 2 ^ (L + 1) ∧
      c (i + 1) ≤ c j := by
    intro j hj
    induction j, hj using Nat.le_induction with
    | base => intro _; exact ⟨rfl, le_rfl⟩
    | succ j hj ih =>
      intro hjk
      obtain ⟨e1, e2⟩ := ih (by omega)
      exact ⟨e1.trans (hno j (by omega) (by omega)), e2.trans (hs j (by omega) (by omega))⟩
  obtain ⟨e1, e2⟩ := mono1 k hik le_rfl
  have m1 : c i / 2 ^ L ≤ c (i + 1) / 2 ^ L := Nat.div_le_div_right (hs i le_rfl hik.le)
  have m2 : c k / 2 ^ L ≤ c (k + 1) / 2 ^ L := Nat.div_le_div_right (hs k hik.le le_rfl)
  have m3 : c (i + 1) / 2 ^ L ≤ c k / 2 ^ L := Nat.div_le_div_right e2
  have d : ∀ x, x / 2 ^ (L + 1) = x / 2 ^ L / 2 := by
    intro x; rw [Nat.pow_succ, Nat.div_div_eq_div_mul]
  rw [d, d] at a1 a2 e1
  omega

/-- Level of the split between `i` and `i + 1`: ties below everything else. -/
def lev (K : ℕ) {w : ℕ} (code : ℕ → BitVec w) (i : ℕ) : ℕ :=
  if code i = code (i + 1) then (i ^^^ (i + 1)).size - 1
  else K + ((code i).toNat ^^^ (code (i + 1)).toNat).size - 1

lemma size_xor_succ_pos (i : ℕ) : 1 ≤ (i ^^^ (i + 1)).size := by
  rw [Nat.succ_le_iff, Nat.size_pos]; exact xor_succ_pos i

lemma levels_deltaBits {w : ℕ} (hw : 2 ≤ w) (n K : ℕ) (code : ℕ → BitVec w)
    (hn' : n ≤ 2 ^ (w - 1)) (hK : n ≤ 2 ^ K)
    (hs : SortedCodes n code) (ht : TopBitUnused n code) :
    Levels (deltaBits code) (lev K code) (n - 1) := by
  have tieK : ∀ i, i + 1 < n → (i ^^^ (i + 1)).size ≤ K := by
    intro i hi
    rw [Nat.size_le]
    exact Nat.xor_lt_two_pow (by omega) (by omega)
  have neSize : ∀ i, i + 1 < n → code i ≠ code (i + 1) →
      1 ≤ ((code i).toNat ^^^ (code (i + 1)).toNat).size := by
    intro i hi h
    rw [Nat.succ_le_iff, Nat.size_pos]
    exact (deltaBits_ne hw code i (ht i (by omega)) (ht _ (by omega)) h).2.1
  constructor
  · intro i j hi hj hle
    unfold lev
    by_cases hi' : code i = code (i + 1) <;> by_cases hj' : code j = code (j + 1)
    · rw [if_pos hi', if_pos hj']
      rw [deltaBits_eq hw code i (by omega) hi', deltaBits_eq hw code j (by omega) hj'] at hle
      have : i ^^^ (i + 1) ≤ j ^^^ (j + 1) := by omega
      have := Nat.size_le_size this
      omega
    · rw [if_pos hi', if_neg hj']
      have := tieK i (by omega)
      have := neSize j (by omega) hj'
      omega
    · exfalso
      obtain ⟨e, hp, _⟩ := deltaBits_ne hw code i (ht i (by omega)) (ht _ (by omega)) hi'
      rw [e, deltaBits_eq hw code j (by omega) hj'] at hle
      have hb : j ^^^ (j + 1) < 2 ^ (w - 1) := Nat.xor_lt_two_pow (by omega) (by omega)
      have : ((j ^^^ (j + 1) : ℕ) : ℤ) < (2 ^ (w - 1) : ℤ) := by exact_mod_cast hb
      have : (1 : ℤ) ≤ (((code i).toNat ^^^ (code (i + 1)).toNat : ℕ) : ℤ) := by exact_mod_cast hp
      linarith
    · rw [if_neg hi', if_neg hj']
      obtain ⟨e, _, _⟩ := deltaBits_ne hw code i (ht i (by omega)) (ht _ (by omega)) hi'
      obtain ⟨e', _, _⟩ := deltaBits_ne hw code j (ht j (by omega)) (ht _ (by omega)) hj'
      rw [e, e'] at hle
      have : (code i).toNat ^^^ (code (i + 1)).toNat ≤ (code j).toNat ^^^ (code (j + 1)).toNat := by
        omega
      have := Nat.size_le_size this
      omega
  · intro i k hik hk heq
    have si := size_xor_succ_pos i
    have sk := size_xor_succ_pos k
    by_cases hi' : code i = code (i + 1)
    · have hk' : code k = code (k + 1) := by
        by_contra hk'
        unfold lev at heq
        rw [if_pos hi', if_neg hk'] at heq
        have := tieK i (by omega)
        have := neSize k (by omega) hk'
        omega
      unfold lev at heq
      rw [if_pos hi', if_pos hk'] at heq
      obtain ⟨j, j1, j2, j3⟩ := level_sep (fun x => x) i k ((i ^^^ (i + 1)).size - 1) hik
        (fun j _ _ => by simp) (by omega) (by omega)
      refine ⟨j, j1, j2, ?_⟩
      unfold lev
      rw [if_pos hi']
      split_ifs with hj
      · omega
      · have := tieK i (by omega)
        have := neSize j (by omega) hj
        omega
    · have hk' : code k ≠ code (k + 1) := by
        intro hk'
        unfold lev at heq
        rw [if_neg hi', if_pos hk'] at heq
        have := tieK k (by omega)
        have := neSize i (by omega) hi'
        omega
      unfold lev at heq
      rw [if_neg hi', if_neg hk'] at heq
      have ni := neSize i (by omega) hi'
      have nk := neSize k (by omega) hk'
      obtain ⟨j, j1, j2, j3⟩ := level_sep (fun x => (code x).toNat) i k
        (((code i).toNat ^^^ (code (i + 1)).toNat).size - 1) hik
        (fun j _ _ => hs j (by omega)) (by omega) (by omega)
      refine ⟨j, j1, j2, ?_⟩
      have hj : code j ≠ code (j + 1) := by
        intro hj
        rw [hj, Nat.xor_self] at j3
        simp at j3
      unfold lev
      rw [if_neg hi', if_neg hj]
      omega

/-- **C06 (height).** For sorted codes below `2^c` and at most `2^K` values, the height of
the hierarchy is at most `K + c`. -/
theorem height_bound {w : ℕ} (hw : 2 ≤ w) (n K c : ℕ) (code : ℕ → BitVec w)
    (hn' : n ≤ 2 ^ (w - 1)) (hK : n ≤ 2 ^ K) (hc : c < w)
    (hs : SortedCodes n code) (hcode : ∀ i < n, (code i).toNat < 2 ^ c) {T : BTree}
    (hT : CartTree (deltaBits code) 0 (n - 1) T) : T.height ≤ K + c := by
  have ht : TopBitUnused n code := fun i hi =>
    lt_of_lt_of_le (hcode i hi) (Nat.pow_le_pow_right (by omega) (by omega))
  refine hT.height_le (levels_deltaBits hw n K code hn' hK hs ht) le_rfl _ ?_
  intro s _ hsn
  unfold lev
  split_ifs with h
  · have : (s ^^^ (s + 1)).size ≤ K := by
      rw [Nat.size_le]; exact Nat.xor_lt_two_pow (by omega) (by omega)
    have := size_xor_succ_pos s
    omega
  · have h1 : ((code s).toNat ^^^ (code (s + 1)).toNat).size ≤ c := by
      rw [Nat.size_le]; exact Nat.xor_lt_two_pow (hcode s (by omega)) (hcode _ (by omega))
    have h2 : 1 ≤ ((code s).toNat ^^^ (code (s + 1)).toNat).size := by
      rw [Nat.succ_le_iff, Nat.size_pos]
      exact (deltaBits_ne hw code s (ht s (by omega)) (ht _ (by omega)) h).2.1
    omega

/-- The height is less than the number of leaves. -/
lemma height_lt_leaves (T : BTree) : T.height < T.leaves.length := by
  induction T with
  | leaf i => simp [BTree.height, BTree.leaves]
  | node a b iha ihb => simp [BTree.height, BTree.leaves]; omega

lemma cart_leaves_length {key : ℕ → ℤ} {l r : ℕ} {T : BTree} (h : CartTree key l r T) :
    T.leaves.length = r + 1 - l := by
  induction h with
  | leaf i => simp [BTree.leaves]
  | node l p r a b h1 h2 ha hb _ _ iha ihb => simp [BTree.leaves, iha, ihb]; omega

lemma CartTree.lev_lt {key : ℕ → ℤ} {lev : ℕ → ℕ} {m : ℕ} (hl : Levels key lev m) {l p r : ℕ} (h1 : l ≤ p) (h2 : p < r) (hr : r ≤ m)
    (h3 : ∀ s, l ≤ s → s < p → key s ≤ key p) (h4 : ∀ s, p < s → s < r → key s < key p) :
    (∀ s, l ≤ s → s < p → lev s < lev p) ∧ ∀ s, p + 1 ≤ s → s < r → lev s < lev p := by
  constructor
  · intro s hs1 hs2
    have := hl.mono s p (by omega) (by omega) (h3 s hs1 hs2)
    rcases Nat.lt_or_eq_of_le this with h | h
    · exact h
    · obtain ⟨j, j1, j2, j3⟩ := hl.sep s p hs2 (by omega) h
      have := hl.mono j p (by omega) (by omega) (h3 j (by omega) j2)
      omega
  · intro s hs1 hs2
    have := hl.mono s p (by omega) (by omega) (h4 s (by omega) hs2).le
    rcases Nat.lt_or_eq_of_le this with h | h
    · exact h
    · obtain ⟨j, j1, j2, j3⟩ := hl.sep p s (by omega) (by omega) h.symm
      have := hl.mono j p (by omega) (by omega) (h4 j (by omega) (by omega)).le
      omega

/-- Equal codes in at most `2 ^ g + 1` places in a row: a subtree of height at most `g + 1`. -/
lemma height_ties {w : ℕ} (hw : 2 ≤ w) (n K : ℕ) (code : ℕ → BitVec w) (hn' : n ≤ 2 ^ (w - 1)) (hK : n ≤ 2 ^ K)
    (hs : SortedCodes n code) (htop : TopBitUnused n code) {g l r : ℕ} (hlr : r - l ≤ 2 ^ g) (hr : r ≤ n - 1)
    (heq : ∀ s, l ≤ s → s < r → code s = code (s + 1)) {T : BTree} (h : CartTree (deltaBits code) l r T) : T.height ≤ g + 1 := by
  have hl := levels_deltaBits hw n K code hn' hK hs htop
  cases h with
  | leaf i => simp [BTree.height]
  | node _ p _ a b h1 h2 ha hb h3 h4 =>
    obtain ⟨hla, hlb⟩ := CartTree.lev_lt hl h1 h2 hr h3 h4
    have hlev : ∀ s, l ≤ s → s < r → lev K code s = (s ^^^ (s + 1)).size - 1 := fun s hs1 hs2 => if_pos (heq s hs1 hs2)
    -- only the top split can have a level above `g`
    have key : ∀ s, l ≤ s → s < r → s ≠ p → (s ^^^ (s + 1)).size ≤ g := by
      intro s hs1 hs2 hne
      by_contra hgt
      have hp : g < (p ^^^ (p + 1)).size := by
        have e1 := hlev s hs1 hs2
        have e2 := hlev p h1 h2
        have := size_xor_succ_pos s
        rcases Nat.lt_or_gt_of_ne hne with h | h
        · have := hla s hs1 h; omega
        · have := hlb s h hs2; omega
      have d1 : s / 2 ^ g ≠ (s + 1) / 2 ^ g := by rw [Ne, ← size_xor_le]; exact hgt
      have d2 : p / 2 ^ g ≠ (p + 1) / 2 ^ g := by rw [Ne, ← size_xor_le]; omega
      have two : ∀ i k, l ≤ i → i < k → k < r → i / 2 ^ g ≠ (i + 1) / 2 ^ g → k / 2 ^ g ≠ (k + 1) / 2 ^ g → False := by
        intro i k hi hik hk e1 e2
        have m1 : i / 2 ^ g ≤ (i + 1) / 2 ^ g := Nat.div_le_div_right (by omega)
        have m2 : (i + 1) / 2 ^ g ≤ k / 2 ^ g := Nat.div_le_div_right (by omega)
        have m3 : k / 2 ^ g ≤ (k + 1) / 2 ^ g := Nat.div_le_div_right (by omega)
        have hpos : 0 < 2 ^ g := by positivity
        have q1 := Nat.div_add_mod i (2 ^ g)
        have q2 := Nat.mod_lt i hpos
        have q3 := Nat.mul_div_le (k + 1) (2 ^ g)
        have : 2 ^ g * (i / 2 ^ g + 2) ≤ 2 ^ g * ((k + 1) / 2 ^ g) := Nat.mul_le_mul_left _ (by omega)
        rw [Nat.mul_add] at this
        omega
      rcases Nat.lt_or_gt_of_ne hne with h | h
      · exact two s p hs1 h h2 d1 d2
      · exact two p s h1 h hs2 d2 d1
    have b1 := ha.height_le hl (by omega) g (fun s hs1 hs2 => by
      have := key s hs1 (by omega) (by omega)
      have := size_xor_succ_pos s
      have := hlev s hs1 (by omega)
      omega)
    have b2 := hb.height_le hl hr g (fun s hs1 hs2 => by
      have := key s (by omega) hs2 (by omega)
      have := size_xor_succ_pos s
      have := hlev s (by omega) hs2
      omega)
    simp only [BTree.height]
    omega

end ArborX.Construction
