import Verif.Nearest.Lemmas
import Verif.Construction.Height

/-!
How many entries the traversal of a hierarchy may need, from the codes the hierarchy is built from.
-/

namespace ArborX.Nearest

open Construction

lemma need_leaves (T : BTree) : (isNode T = true → 2 * need T + 2 ≤ T.leaves.length) ∧
    (isNode T = false → T.leaves.length = 1 ∧ need T = 0) := by
  induction T with
  | leaf i => simp [isNode, need, BTree.leaves]
  | node a b iha ihb =>
    refine ⟨fun _ => ?_, fun h => by simp [isNode] at h⟩
    simp only [need, BTree.leaves, List.length_append]
    rcases ha : isNode a with _ | _ <;> rcases hb : isNode b with _ | _ <;> rw [ha] at iha <;> rw [hb] at ihb <;>
      simp at iha ihb ⊢ <;> omega

/-- A pending entry takes a subtree with two leaves aside. -/
lemma need_le_leaves (T : BTree) : 2 * need T + 2 ≤ T.leaves.length ∨ T.leaves.length = 1 ∧ need T = 0 := by
  rcases h : isNode T with _ | _
  · exact .inr ((need_leaves T).2 h)
  · exact .inl ((need_leaves T).1 h)

/-- The entries, if subtrees below level `K` need at most `t` of them. -/
lemma need_le_add {key : ℕ → ℤ} {lev : ℕ → ℕ} {m : ℕ} (hl : Levels key lev m) {K t : ℕ}
    (ht : ∀ l r T, CartTree key l r T → r ≤ m → (∀ s, l ≤ s → s < r → lev s < K) → need T ≤ t)
    {l r : ℕ} {T : BTree} (h : CartTree key l r T) (hr : r ≤ m) (B : ℕ)
    (hB : ∀ s, l ≤ s → s < r → lev s < K + B) : need T ≤ B + t := by
  induction h generalizing B with
  | leaf i => simp [need]
  | node l p r a b h1 h2 ha hb h3 h4 iha ihb =>
    obtain ⟨hla, hlb⟩ := CartTree.lev_lt hl h1 h2 hr h3 h4
    rcases Nat.lt_or_ge (lev p) K with hp | hp
    · have := ht l r _ (.node l p r a b h1 h2 ha hb h3 h4) hr (by
        intro s hs1 hs2
        rcases lt_trichotomy s p with h | rfl | h
        · have := hla s hs1 h; omega
        · exact hp
        · have := hlb s h hs2; omega)
      omega
    · have hpB := hB p h1 h2
      have := iha (by omega) (lev p - K) (fun s hs1 hs2 => by have := hla s hs1 hs2; omega)
      have := ihb hr (lev p - K) (fun s hs1 hs2 => by have := hlb s hs1 hs2; omega)
      simp only [need]
      split_ifs <;> omega

/-- For sorted codes below `2 ^ c`, each of which occurs in at most `2 t + 3` or at most `2 ^ t + 1`
places in a row, the traversal needs at most `c + t` entries, whatever the number of values. -/
lemma need_bound_groups {w : ℕ} (hw : 2 ≤ w) (n c t : ℕ) (code : ℕ → BitVec w)
    (hn' : n ≤ 2 ^ (w - 1)) (hc : c < w) (hs : SortedCodes n code) (hcode : ∀ i < n, (code i).toNat < 2 ^ c)
    (hg : ∀ l r, l ≤ r → r < n → (∀ s, l ≤ s → s ≤ r → code s = code l) → r + 1 - l ≤ max (2 * t + 3) (2 ^ t + 1)) {T : BTree}
    (hT : CartTree (deltaBits code) 0 (n - 1) T) : need T ≤ c + t := by
  have ht : TopBitUnused n code := fun i hi =>
    lt_of_lt_of_le (hcode i hi) (Nat.pow_le_pow_right (by omega) (by omega))
  have hl := levels_deltaBits hw n (w - 1) code hn' hn' hs ht
  have neSize : ∀ i, i + 1 < n → code i ≠ code (i + 1) → 1 ≤ ((code i).toNat ^^^ (code (i + 1)).toNat).size := by
    intro i hi h
    rw [Nat.succ_le_iff, Nat.size_pos]
    exact (deltaBits_ne hw code i (ht i (by omega)) (ht _ (by omega)) h).2.1
  refine need_le_add hl (K := w - 1) (t := t) ?_ hT le_rfl c ?_
  · intro l r T' hT' hr hlev
    by_cases hlr : r ≤ l
    · rcases need_le_leaves T' with h | h
      · rw [cart_leaves_length hT'] at h; omega
      · omega
    have heq : ∀ s, l ≤ s → s < r → code s = code (s + 1) := by
      intro s hs1 hs2
      by_contra hne
      have h1 := hlev s hs1 hs2
      unfold lev at h1
      rw [if_neg hne] at h1
      have := neSize s (by omega) hne
      omega
    have hrun := hg l r (by omega) (by omega) (by
      intro s hs1 hs2
      induction s, hs1 using Nat.le_induction with
      | base => rfl
      | succ s hs ih => rw [← heq s hs (by omega)]; exact ih (by omega))
    rcases le_max_iff.mp hrun with h | h
    · rcases need_le_leaves T' with h' | h'
      · rw [cart_leaves_length hT'] at h'; omega
      · omega
    · have h1 := height_ties hw n (w - 1) code hn' hn' hs ht (g := t) (by omega) hr heq hT'
      have h2 := need_lt_height T'
      omega
  · intro s _ hsn
    unfold lev
    split_ifs with h
    · have : (s ^^^ (s + 1)).size ≤ w - 1 := by
        rw [Nat.size_le]; exact Nat.xor_lt_two_pow (by omega) (by omega)
      have := size_xor_succ_pos s
      omega
    · have h1 : ((code s).toNat ^^^ (code (s + 1)).toNat).size ≤ c := by
        rw [Nat.size_le]; exact Nat.xor_lt_two_pow (hcode s (by omega)) (hcode _ (by omega))
      have h2 := neSize s (by omega) h
      omega

end ArborX.Nearest
