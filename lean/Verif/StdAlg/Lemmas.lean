import Verif.StdAlg.Model
import Verif.Heap.Lemmas

namespace ArborX.StdAlg

open ArborX.Heap (StrictWeak getElem?_set_ne' getElem?_set_self')

variable {T : Type} {lt : T → T → Bool}

/-- `r` is a rearrangement of `a` within positions `lo ≤ i < hi`. -/
structure RangePerm (lo hi : ℕ) (a r : List T) : Prop where
  perm : r.Perm a
  out : ∀ i, ¬ (lo ≤ i ∧ i < hi) → r[i]? = a[i]?
  inn : ∀ i, lo ≤ i → i < hi → ∃ k, lo ≤ k ∧ k < hi ∧ r[i]? = a[k]?

lemma RangePerm.refl (lo hi : ℕ) (a : List T) : RangePerm lo hi a a :=
  ⟨List.Perm.refl _, fun _ _ => rfl, fun i h1 h2 => ⟨i, h1, h2, rfl⟩⟩

lemma RangePerm.trans {lo hi : ℕ} {a b c : List T} (h1 : RangePerm lo hi a b)
    (h2 : RangePerm lo hi b c) : RangePerm lo hi a c := by
  refine ⟨h2.perm.trans h1.perm, fun i hi' => (h2.out i hi').trans (h1.out i hi'), ?_⟩
  intro i hlo hhi
  obtain ⟨k, k1, k2, k3⟩ := h2.inn i hlo hhi
  obtain ⟨l, l1, l2, l3⟩ := h1.inn k k1 k2
  exact ⟨l, l1, l2, k3.trans l3⟩

lemma RangePerm.mono {lo hi lo' hi' : ℕ} {a r : List T} (h : RangePerm lo hi a r) (h1 : lo' ≤ lo)
    (h2 : hi ≤ hi') : RangePerm lo' hi' a r := by
  refine ⟨h.perm, fun i hi => h.out i (by omega), ?_⟩
  intro i hlo hhi
  by_cases hc : lo ≤ i ∧ i < hi
  · obtain ⟨k, k1, k2, k3⟩ := h.inn i hc.1 hc.2
    exact ⟨k, by omega, by omega, k3⟩
  · exact ⟨i, hlo, hhi, h.out i hc⟩

lemma swap_get {a : List T} {i j : ℕ} (hi : i < a.length) (hj : j < a.length) :
    ∃ r, swap a i j = some r ∧ (∀ lo hi, lo ≤ i → i < hi → lo ≤ j → j < hi → RangePerm lo hi a r) ∧
      r[i]? = a[j]? ∧ r[j]? = a[i]? ∧ ∀ k, k ≠ i → k ≠ j → r[k]? = a[k]? := by
  unfold swap
  rw [List.getElem?_eq_getElem hi, List.getElem?_eq_getElem hj]
  dsimp only
  have e1 : ((a.set i a[j]).set j a[i])[i]? = a[j]? := by
    by_cases e : i = j
    · subst e; rw [getElem?_set_self' (by simpa)]; exact (List.getElem?_eq_getElem hi).symm
    · rw [getElem?_set_ne' (Ne.symm e), getElem?_set_self' hi, List.getElem?_eq_getElem hj]
  have e2 : ((a.set i a[j]).set j a[i])[j]? = a[i]? := by
    rw [getElem?_set_self' (by simpa), List.getElem?_eq_getElem hi]
  have e3 : ∀ k, k ≠ i → k ≠ j → ((a.set i a[j]).set j a[i])[k]? = a[k]? := by
    intro k h1 h2
    rw [getElem?_set_ne' (Ne.symm h2), getElem?_set_ne' (Ne.symm h1)]
  refine ⟨_, rfl, ?_, by rw [e1, List.getElem?_eq_getElem hj],
    by rw [e2, List.getElem?_eq_getElem hi], e3⟩
  intro lo hi' h1 h2 h3 h4
  refine ⟨List.set_set_perm hi hj, ?_, ?_⟩
  · intro k hk; exact e3 k (by omega) (by omega)
  · intro k hk1 hk2
    by_cases c1 : k = i
    · subst c1; exact ⟨j, h3, h4, e1⟩
    · by_cases c2 : k = j
      · subst c2; exact ⟨i, h1, h2, e2⟩
      · exact ⟨k, hk1, hk2, e3 k c1 c2⟩

lemma partLoop_spec (left right : ℕ) (v : T) : ∀ (k : ℕ) (a : List T) (i : ℕ),
    right < a.length → left ≤ i → i + k ≤ right → a[right]? = some v →
    (∀ m x, left ≤ m → m < i → a[m]? = some x → lt x v = true) →
    (∀ m x, i ≤ m → m < right - k → a[m]? = some x → lt x v = false) →
    ∃ r i', partLoop lt a right i k = some (r, i') ∧ RangePerm left right a r ∧ left ≤ i' ∧
      i' ≤ right ∧ r[right]? = some v ∧
      (∀ m x, left ≤ m → m < i' → r[m]? = some x → lt x v = true) ∧
      (∀ m x, i' ≤ m → m < right → r[m]? = some x → lt x v = false)
  | 0, a, i, hr, hli, hik, hv, h1, h2 => by
    exact ⟨a, i, rfl, RangePerm.refl _ _ _, hli, by omega, hv, h1, fun m x hm hm' => h2 m x hm (by omega)⟩
  | k + 1, a, i, hr, hli, hik, hv, h1, h2 => by
    have hj : right - (k + 1) < a.length := by omega
    rw [partLoop, List.getElem?_eq_getElem hj, hv]
    dsimp only
    by_cases hlt : lt (a[right - (k + 1)]'hj) v = true
    · rw [if_pos hlt]
      obtain ⟨a', s1, s2, s3, s4, s5⟩ := swap_get (a := a) hj (show i < a.length by omega)
      rw [s1]
      dsimp only
      have rp := s2 left right (by omega) (by omega) (by omega) (by omega)
      obtain ⟨r, i', r1, r2, r3, r4, r5, r6, r7⟩ := partLoop_spec left right v k a' (i + 1)
        (by rw [rp.perm.length_eq]; exact hr) (by omega) (by omega)
        (by rw [s5 right (by omega) (by omega)]; exact hv)
        (by
          intro m x hm hm' hx
          by_cases e : m = i
          · subst e
            rw [s4, List.getElem?_eq_getElem hj] at hx
            simp at hx; subst hx; exact hlt
          · by_cases e2 : m = right - (k + 1)
            · omega
            · rw [s5 m e2 e] at hx
              exact h1 m x hm (by omega) hx)
        (by
          intro m x hm hm' hx
          by_cases e2 : m = right - (k + 1)
          · subst e2
            rw [s3] at hx
            exact h2 i x (Nat.le_refl _) (by omega) hx
          · rw [s5 m e2 (by omega)] at hx
            exact h2 m x (by omega) (by omega) hx)
      exact ⟨r, i', r1, rp.trans r2, r3, r4, r5, r6, r7⟩
    · rw [if_neg hlt]
      exact partLoop_spec left right v k a i hr hli (by omega) hv h1 (by
        intro m x hm hm' hx
        by_cases e2 : m = right - (k + 1)
        · subst e2
          rw [List.getElem?_eq_getElem hj] at hx
          simp at hx; subst hx; simpa using hlt
        · exact h2 m x hm (by omega) hx)

lemma partition_spec (sw : StrictWeak lt) {a : List T} {left right pivot : ℕ} (hr : right ≤ a.length)
    (h1 : left ≤ pivot) (h2 : pivot < right) :
    ∃ r i v, partition lt a left right pivot = some (r, i) ∧ RangePerm left right a r ∧
      left ≤ i ∧ i < right ∧ r[i]? = some v ∧
      (∀ m x, left ≤ m → m < i → r[m]? = some x → lt v x = false) ∧
      (∀ m x, i ≤ m → m < right → r[m]? = some x → lt x v = false) := by
  unfold partition
  obtain ⟨a1, s1, s2, s3, s4, s5⟩ := swap_get (a := a) (i := pivot) (j := right - 1) (by omega) (by omega)
  rw [s1]
  dsimp only
  have rp1 := s2 left right h1 h2 (by omega) (by omega)
  have hl1 := rp1.perm.length_eq
  obtain ⟨a2, i, r1, r2, r3, r4, r5, r6, r7⟩ := partLoop_spec (lt := lt) left (right - 1)
    (a[pivot]'(by omega)) (right - 1 - left) a1 left (by omega) (Nat.le_refl _) (by omega)
    (by rw [s4, List.getElem?_eq_getElem]) (by intro m x hm hm'; omega) (by intro m x hm hm'; omega)
  rw [r1]
  dsimp only
  have hl2 := r2.perm.length_eq
  obtain ⟨a3, t1, t2, t3, t4, t5⟩ := swap_get (a := a2) (i := i) (j := right - 1) (by omega) (by omega)
  rw [t1]
  refine ⟨a3, i, a[pivot]'(by omega), rfl, ?_, r3, by omega, by rw [t3, r5], ?_, ?_⟩
  · exact (rp1.trans (r2.mono (Nat.le_refl _) (by omega))).trans
      (t2 left right r3 (by omega) (by omega) (by omega))
  · intro m x hm hm' hx
    rw [t5 m (by omega) (by omega)] at hx
    exact sw.asymm _ _ (r6 m x hm hm' hx)
  · intro m x hm hm' hx
    by_cases e : m = i
    · subst e
      rw [t3, r5] at hx
      simp at hx; subst hx; exact sw.irrefl _
    · by_cases e2 : m = right - 1
      · subst e2
        rw [t4] at hx
        exact r7 i x (Nat.le_refl _) (by omega) hx
      · rw [t5 m e e2] at hx
        exact r7 m x hm (by omega) hx

lemma nthLoop_spec (sw : StrictWeak lt) (F L nth : ℕ) : ∀ (fuel : ℕ) (a : List T) (first last : ℕ),
    last - first < fuel → L ≤ a.length → F ≤ first → first ≤ nth → nth < last → last ≤ L →
    (∀ i j x y, F ≤ i → i < first → first ≤ j → j < L → a[i]? = some x → a[j]? = some y →
      lt y x = false) →
    (∀ i j x y, F ≤ i → i < last → last ≤ j → j < L → a[i]? = some x → a[j]? = some y →
      lt y x = false) →
    ∃ r v, nthLoop lt fuel a first nth last = some r ∧ RangePerm F L a r ∧ r[nth]? = some v ∧
      (∀ i x, F ≤ i → i < nth → r[i]? = some x → lt v x = false) ∧
      (∀ i x, nth < i → i < L → r[i]? = some x → lt x v = false)
  | 0, a, first, last, hf, _, _, _, _, _, _, _ => by omega
  | fuel + 1, a, first, last, hf, hL, hF, hn1, hn2, hl, hlo, hhi => by
    rw [nthLoop, if_neg (by omega)]
    obtain ⟨a', p, v, p1, p2, p3, p4, p5, p6, p7⟩ := partition_spec sw (a := a) (left := first)
      (right := last) (pivot := nth) (by omega) hn1 hn2
    rw [p1]
    dsimp only
    have rp := p2.mono hF hl
    have hlen := p2.perm.length_eq
    -- the two separation properties survive the partition
    have hlo' : ∀ i j x y, F ≤ i → i < first → first ≤ j → j < L → a'[i]? = some x →
        a'[j]? = some y → lt y x = false := by
      intro i j x y hi1 hi2 hj1 hj2 hx hy
      rw [p2.out i (by omega)] at hx
      by_cases hc : j < last
      · obtain ⟨k, k1, k2, k3⟩ := p2.inn j hj1 hc
        rw [k3] at hy
        exact hlo i k x y hi1 hi2 k1 (by omega) hx hy
      · rw [p2.out j (by omega)] at hy
        exact hlo i j x y hi1 hi2 hj1 hj2 hx hy
    have hhi' : ∀ i j x y, F ≤ i → i < last → last ≤ j → j < L → a'[i]? = some x →
        a'[j]? = some y → lt y x = false := by
      intro i j x y hi1 hi2 hj1 hj2 hx hy
      rw [p2.out j (by omega)] at hy
      by_cases hc : first ≤ i
      · obtain ⟨k, k1, k2, k3⟩ := p2.inn i hc hi2
        rw [k3] at hx
        exact hhi k j x y (by omega) k2 hj1 hj2 hx hy
      · rw [p2.out i (by omega)] at hx
        exact hhi i j x y hi1 hi2 hj1 hj2 hx hy
    -- separation by the pivot over the whole range
    have below : ∀ i x, F ≤ i → i < p → a'[i]? = some x → lt v x = false := by
      intro i x hi1 hi2 hx
      by_cases hc : first ≤ i
      · exact p6 i x hc hi2 hx
      · exact hlo' i p x v hi1 (by omega) p3 (by omega) hx p5
    have above : ∀ i x, p ≤ i → i < L → a'[i]? = some x → lt x v = false := by
      intro i x hi1 hi2 hx
      by_cases hc : i < last
      · exact p7 i x hi1 hc hx
      · exact hhi' p i v x (by omega) p4 (by omega) hi2 p5 hx
    by_cases e : p = nth
    · rw [if_pos e]
      subst e
      exact ⟨a', v, rfl, rp, p5, below, fun i x h1 h2 => above i x (by omega) h2⟩
    · rw [if_neg e]
      by_cases hlt : nth < p
      · rw [if_pos hlt]
        obtain ⟨r, w, q1, q2, q3, q4, q5⟩ := nthLoop_spec sw F L nth fuel a' first p (by omega)
          (by omega) hF hn1 hlt (by omega) hlo' (by
            intro i j x y hi1 hi2 hj1 hj2 hx hy
            exact sw.negtrans _ _ _ (above j y hj1 hj2 hy) (below i x hi1 hi2 hx))
        exact ⟨r, w, q1, rp.trans q2, q3, q4, q5⟩
      · rw [if_neg hlt]
        obtain ⟨r, w, q1, q2, q3, q4, q5⟩ := nthLoop_spec sw F L nth fuel a' (p + 1) last (by omega)
          (by omega) (by omega) (by omega) hn2 hl (by
            intro i j x y hi1 hi2 hj1 hj2 hx hy
            by_cases e' : i = p
            · subst e'
              rw [p5] at hx; simp at hx; subst hx
              exact above j y (by omega) hj2 hy
            · exact sw.negtrans _ _ _ (above j y (by omega) hj2 hy) (below i x hi1 (by omega) hx))
          hhi'
        exact ⟨r, w, q1, rp.trans q2, q3, q4, q5⟩

lemma upperLoop_spec (v : T) (a : List T) (L : ℕ) (hL : L ≤ a.length) (F : ℕ) (count : ℕ) :
    ∀ first, F ≤ first → first + count ≤ L →
    (∀ i j x y, F ≤ i → i ≤ j → j < L → a[i]? = some x → a[j]? = some y → lt v x = true →
      lt v y = true) →
    (∀ i x, F ≤ i → i < first → a[i]? = some x → lt v x = false) →
    (∀ i x, first + count ≤ i → i < L → a[i]? = some x → lt v x = true) →
    ∃ r, upperLoop lt a v first count = some r ∧ F ≤ r ∧ r ≤ L ∧
      (∀ i x, F ≤ i → i < r → a[i]? = some x → lt v x = false) ∧
      (∀ i x, r ≤ i → i < L → a[i]? = some x → lt v x = true) := by
  induction count using Nat.strongRecOn with
  | _ count ih =>
    intro first hF hc hs h1 h2
    rw [upperLoop]
    by_cases hpos : 0 < count
    · rw [dif_pos hpos, List.getElem?_eq_getElem (by omega)]
      dsimp only
      have g : a[first + count / 2]? = some (a[first + count / 2]'(by omega)) :=
        List.getElem?_eq_getElem (by omega)
      by_cases hlt : lt v (a[first + count / 2]'(by omega)) = true
      · rw [if_neg (by simp [hlt])]
        exact ih (count / 2) (by omega) first hF (by omega) hs h1 (by
          intro i x hi1 hi2 hx
          exact hs _ i _ x (by omega) hi1 hi2 g hx hlt)
      · rw [if_pos (by simpa using hlt)]
        exact ih _ (by omega) _ (by omega) (by omega) hs (by
          intro i x hi1 hi2 hx
          by_contra hcon
          have hcon : lt v x = true := by simpa using hcon
          exact hlt (hs i _ x _ hi1 (by omega) (by omega) hx g hcon)) (by
          intro i x hi1 hi2 hx
          exact h2 i x (by omega) hi2 hx)
    · rw [dif_neg hpos]
      exact ⟨first, rfl, hF, by omega, h1, fun i x hi => h2 i x (by omega)⟩

lemma lowerLoop_spec (v : T) (a : List T) (L : ℕ) (hL : L ≤ a.length) (F : ℕ) (count : ℕ) :
    ∀ first, F ≤ first → first + count ≤ L →
    (∀ i j x y, F ≤ i → i ≤ j → j < L → a[i]? = some x → a[j]? = some y → lt y v = true →
      lt x v = true) →
    (∀ i x, F ≤ i → i < first → a[i]? = some x → lt x v = true) →
    (∀ i x, first + count ≤ i → i < L → a[i]? = some x → lt x v = false) →
    ∃ r, lowerLoop lt a v first count = some r ∧ F ≤ r ∧ r ≤ L ∧
      (∀ i x, F ≤ i → i < r → a[i]? = some x → lt x v = true) ∧
      (∀ i x, r ≤ i → i < L → a[i]? = some x → lt x v = false) := by
  induction count using Nat.strongRecOn with
  | _ count ih =>
    intro first hF hc hs h1 h2
    rw [lowerLoop]
    by_cases hpos : 0 < count
    · rw [dif_pos hpos, List.getElem?_eq_getElem (by omega)]
      dsimp only
      have g : a[first + count / 2]? = some (a[first + count / 2]'(by omega)) :=
        List.getElem?_eq_getElem (by omega)
      by_cases hlt : lt (a[first + count / 2]'(by omega)) v = true
      · rw [if_pos hlt]
        exact ih _ (by omega) _ (by omega) (by omega) hs (by
          intro i x hi1 hi2 hx
          exact hs i _ x _ hi1 (by omega) (by omega) hx g hlt) (by
          intro i x hi1 hi2 hx
          exact h2 i x (by omega) hi2 hx)
      · rw [if_neg hlt]
        exact ih (count / 2) (by omega) first hF (by omega) hs h1 (by
          intro i x hi1 hi2 hx
          by_contra hcon
          have hcon : lt x v = true := by simpa using hcon
          exact hlt (hs _ i _ x (by omega) hi1 hi2 g hx hcon))
    · rw [dif_neg hpos]
      exact ⟨first, rfl, hF, by omega, h1, fun i x hi => h2 i x (by omega)⟩

end ArborX.StdAlg
