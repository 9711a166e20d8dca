import Verif.DistDbscan.Merge
import Verif.Distributed.NearestLemmas
import Mathlib.Logic.Relation

/-!
# Lemmas about the merge phase of the distributed DBSCAN
-/

namespace ArborX.DistDbscan

open Distributed

/-! ## Sorting -/

lemma pairLe_trans {a b c : Pair} (h1 : pairLe a b) (h2 : pairLe b c) : pairLe a c := by
  unfold pairLe at *; omega

lemma pairLe_total (a b : Pair) : pairLe a b ∨ pairLe b a := by
  unfold pairLe; omega

instance : Std.Total pairLe := ⟨pairLe_total⟩

instance : IsTrans Pair pairLe := ⟨fun _ _ _ => pairLe_trans⟩

lemma sortPairs_perm (l : List Pair) : (sortPairs l).Perm l := List.perm_insertionSort _ _

lemma sortPairs_sorted (l : List Pair) : (sortPairs l).Pairwise pairLe := List.pairwise_insertionSort _ _

lemma mem_sortPairs {l : List Pair} {p : Pair} : p ∈ sortPairs l ↔ p ∈ l := (sortPairs_perm l).mem_iff

lemma pairAt_eq {l : List Pair} {i : ℕ} (h : i < l.length) : pairAt l i = l[i] := by
  simp [pairAt, List.getD_eq_getElem?_getD, h]

lemma pairAt_mem {l : List Pair} {i : ℕ} (h : i < l.length) : pairAt l i ∈ l := by
  rw [pairAt_eq h]; exact List.getElem_mem h

lemma exists_pairAt {l : List Pair} {p : Pair} (h : p ∈ l) : ∃ i < l.length, pairAt l i = p := by
  obtain ⟨i, hi, rfl⟩ := List.getElem_of_mem h
  exact ⟨i, hi, pairAt_eq hi⟩

lemma sorted_le {l : List Pair} (hs : l.Pairwise pairLe) {i j : ℕ} (hij : i ≤ j) (hj : j < l.length) :
    pairLe (pairAt l i) (pairAt l j) := by
  rcases Nat.lt_or_ge i j with h | h
  · rw [pairAt_eq (by omega), pairAt_eq hj]
    exact List.pairwise_iff_getElem.mp hs i j (by omega) hj h
  · have : i = j := by omega
    subst this
    right; exact ⟨rfl, le_rfl⟩

/-! ## The filter -/

/-- Position `i` is the first one of its `from`. -/
def FirstAt (l : List Pair) (i : ℕ) : Prop := ¬ (i > 0 ∧ (pairAt l i).1 = (pairAt l (i - 1)).1)

lemma mem_reinsert {l : List Pair} {f t : ℤ} {p : Pair} (j : ℕ) :
    p ∈ reinsert l f t j ↔ ∃ k, j ≤ k ∧ k < l.length ∧ (∀ m, j ≤ m → m ≤ k → (pairAt l m).1 = f) ∧
      (pairAt l k).2 ≠ (pairAt l (k - 1)).2 ∧ p = ((pairAt l k).2, t) := by
  induction hd : l.length - j using Nat.strong_induction_on generalizing j with
  | _ d ih =>
    rw [reinsert.eq_def]
    split_ifs with h hne
    · rw [List.mem_append, List.mem_singleton, ih (l.length - (j + 1)) (by omega) (j + 1) rfl]
      constructor
      · rintro (rfl | ⟨k, h1, h2, h3, h4, h5⟩)
        · exact ⟨j, le_rfl, h.1, fun m h1 h2 => by rw [show m = j by omega]; exact h.2, hne, rfl⟩
        · refine ⟨k, by omega, h2, fun m hm1 hm2 => ?_, h4, h5⟩
          by_cases hm : m = j
          · rw [hm]; exact h.2
          · exact h3 m (by omega) hm2
      · rintro ⟨k, h1, h2, h3, h4, h5⟩
        by_cases hk : k = j
        · subst hk; exact Or.inl h5
        · exact Or.inr ⟨k, by omega, h2, fun m hm1 hm2 => h3 m (by omega) hm2, h4, h5⟩
    · rw [List.nil_append, ih (l.length - (j + 1)) (by omega) (j + 1) rfl]
      constructor
      · rintro ⟨k, h1, h2, h3, h4, h5⟩
        refine ⟨k, by omega, h2, fun m hm1 hm2 => ?_, h4, h5⟩
        by_cases hm : m = j
        · rw [hm]; exact h.2
        · exact h3 m (by omega) hm2
      · rintro ⟨k, h1, h2, h3, h4, h5⟩
        by_cases hk : k = j
        · subst hk; exact absurd h4 hne
        · exact ⟨k, by omega, h2, fun m hm1 hm2 => h3 m (by omega) hm2, h4, h5⟩
    · constructor
      · intro hp; simp at hp
      · rintro ⟨k, h1, h2, h3, h4, h5⟩
        exact absurd ⟨by omega, h3 j le_rfl h1⟩ h

/-- The number of pairs does not grow. -/
lemma reinsert_length (l : List Pair) (j : ℕ) (t : ℤ) (hj : 1 ≤ j) (hjl : j ≤ l.length) :
    (reinsert l (pairAt l (j - 1)).1 t j).length + ((List.range' j (l.length - j)).map (fun k => (filterAt l k).length)).sum ≤
      l.length - j := by
  induction hd : l.length - j using Nat.strong_induction_on generalizing j t with
  | _ d ih =>
    subst hd
    by_cases hjl' : j = l.length
    · subst hjl'
      rw [reinsert.eq_def]
      simp
    have hlt : j < l.length := by omega
    have hr : List.range' j (l.length - j) = j :: List.range' (j + 1) (l.length - (j + 1)) := by
      rw [show l.length - j = (l.length - (j + 1)) + 1 by omega, List.range'_succ]
    rw [hr, List.map_cons, List.sum_cons, reinsert.eq_def]
    by_cases he : (pairAt l j).1 = (pairAt l (j - 1)).1
    · have h0 : filterAt l j = [] := by unfold filterAt; rw [if_pos ⟨by omega, he⟩]
      have := ih (l.length - (j + 1)) (by omega) (j + 1) t (by omega) (by omega) rfl
      rw [Nat.add_sub_cancel, he] at this
      rw [h0, dif_pos ⟨hlt, he⟩, List.length_append, List.length_nil]
      have h1 : (if (pairAt l j).2 ≠ (pairAt l (j - 1)).2 then [((pairAt l j).2, t)] else []).length ≤ 1 := by
        split_ifs <;> simp
      omega
    · have := ih (l.length - (j + 1)) (by omega) (j + 1) (pairAt l j).2 (by omega) (by omega) rfl
      rw [Nat.add_sub_cancel] at this
      rw [dif_neg (fun h => he h.2), List.length_nil]
      have h0 : filterAt l j = pairAt l j :: reinsert l (pairAt l j).1 (pairAt l j).2 (j + 1) := by
        unfold filterAt; rw [if_neg (fun h => he h.2)]
      rw [h0, List.length_cons]
      omega

lemma filter_total (l : List Pair) : Crs.scan (fun i => (filterAt l i).length) l.length ≤ l.length := by
  have key : Crs.scan (fun i => (filterAt l i).length) l.length = ((List.range l.length).map (fun k => (filterAt l k).length)).sum := by
    rw [← Crs.scan_length]
    rw [List.length_flatMap]
  rw [key]
  rcases Nat.eq_zero_or_pos l.length with h | h
  · rw [h]; simp
  · have hr : List.range l.length = 0 :: List.range' 1 (l.length - 1) := by
      rw [List.range_eq_range', show l.length = (l.length - 1) + 1 by omega, List.range'_succ]
      simp
    have h0 : filterAt l 0 = pairAt l 0 :: reinsert l (pairAt l 0).1 (pairAt l 0).2 1 := by
      unfold filterAt; rw [if_neg (by omega)]
    rw [hr, List.map_cons, List.sum_cons, h0, List.length_cons]
    have := reinsert_length l 1 (pairAt l 0).2 le_rfl h
    rw [Nat.sub_self] at this
    omega

/-- What the filter keeps. -/
def Kept (s : List Pair) (p : Pair) : Prop :=
  ∃ i < s.length, FirstAt s i ∧ (p = pairAt s i ∨ ∃ k, i < k ∧ k < s.length ∧ (∀ m, i < m → m ≤ k → (pairAt s m).1 = (pairAt s i).1) ∧
    (pairAt s k).2 ≠ (pairAt s (k - 1)).2 ∧ p = ((pairAt s k).2, (pairAt s i).2))

lemma mem_filter {s : List Pair} {p : Pair} : p ∈ (List.range s.length).flatMap (filterAt s) ↔ Kept s p := by
  unfold Kept
  rw [List.mem_flatMap]
  constructor
  · rintro ⟨i, hi, hp⟩
    have hi := List.mem_range.mp hi
    unfold filterAt at hp
    split_ifs at hp with h
    · simp at hp
    · refine ⟨i, hi, h, ?_⟩
      rcases List.mem_cons.mp hp with h1 | h1
      · exact Or.inl h1
      · obtain ⟨k, h2, h3, h4, h5, h6⟩ := (mem_reinsert _).mp h1
        exact Or.inr ⟨k, by omega, h3, fun m hm1 hm2 => h4 m (by omega) hm2, h5, h6⟩
  · rintro ⟨i, hi, hf, h⟩
    refine ⟨i, List.mem_range.mpr hi, ?_⟩
    unfold filterAt
    rw [if_neg hf]
    rcases h with h | ⟨k, h2, h3, h4, h5, h6⟩
    · rw [h]; simp
    · exact List.mem_cons_of_mem _ ((mem_reinsert _).mpr ⟨k, by omega, h3, fun m hm1 hm2 => h4 m (by omega) hm2, h5, h6⟩)

lemma scanWrites_spec {X : Type} {order : List ℕ} {n cap : ℕ} {emit : ℕ → List X} (ho : order.Perm (List.range n))
    (hc : Crs.scan (fun i => (emit i).length) n ≤ cap) : scanWrites order n cap emit = some ((List.range n).flatMap emit) := by
  unfold scanWrites
  rw [if_pos hc]
  exact writeRows_spec order n ho _ emit (fun _ _ => rfl)

lemma sortAndFilter_some {order : List ℕ} {l : List Pair} (ho : order.Perm (List.range l.length)) :
    ∃ out, sortAndFilter order l = some out ∧ out.Pairwise pairLe ∧ ∀ p, p ∈ out ↔ Kept (sortPairs l) p := by
  have hlen : (sortPairs l).length = l.length := (sortPairs_perm l).length_eq
  unfold sortAndFilter
  by_cases h : l.length = 0
  · rw [if_pos h]
    have : l = [] := List.length_eq_zero_iff.mp h
    subst this
    exact ⟨[], rfl, List.Pairwise.nil, fun p => by simp [Kept, sortPairs]⟩
  · rw [if_neg h]
    have h1 := filter_total (sortPairs l)
    have h2 := fun p => mem_filter (s := sortPairs l) (p := p)
    rw [hlen] at h1 h2
    rw [scanWrites_spec ho h1]
    exact ⟨_, rfl, sortPairs_sorted _, fun p => by rw [mem_sortPairs, h2]⟩

/-! ## Connectivity -/

/-- Labels joined by a pair. -/
def Rel (l : List Pair) (a b : ℤ) : Prop := (a, b) ∈ l

lemma first_exists {s : List Pair} (k : ℕ) : ∃ i ≤ k, FirstAt s i ∧ ∀ m, i ≤ m → m ≤ k → (pairAt s m).1 = (pairAt s k).1 := by
  induction k with
  | zero => exact ⟨0, le_rfl, by unfold FirstAt; omega, fun m h1 h2 => by rw [show m = 0 by omega]⟩
  | succ k ih =>
    by_cases h : (pairAt s (k + 1)).1 = (pairAt s k).1
    · obtain ⟨i, h1, h2, h3⟩ := ih
      refine ⟨i, by omega, h2, fun m hm1 hm2 => ?_⟩
      by_cases hm : m = k + 1
      · rw [hm]
      · rw [h]; exact h3 m hm1 (by omega)
    · exact ⟨k + 1, le_rfl, fun h' => h (by simpa using h'.2), fun m h1 h2 => by rw [show m = k + 1 by omega]⟩

/-- The filter keeps the smallest `to` of every `from`. -/
lemma first_min {s : List Pair} (hs : s.Pairwise pairLe) {i : ℕ} (hi : i < s.length) (hf : FirstAt s i) {t : ℤ}
    (ht : ((pairAt s i).1, t) ∈ s) : (pairAt s i).2 ≤ t := by
  obtain ⟨k, hk, he⟩ := exists_pairAt ht
  rcases Nat.lt_or_ge k i with h | h
  · exfalso
    apply hf
    have h1 := sorted_le hs (show k ≤ i - 1 by omega) (show i - 1 < s.length by omega)
    have h2 := sorted_le hs (show i - 1 ≤ i by omega) hi
    rw [he] at h1
    unfold pairLe at h1 h2
    simp only at h1
    omega
  · have h1 := sorted_le hs h hk
    rw [he] at h1
    unfold pairLe at h1
    simp only at h1
    omega

lemma kept_decreasing {s : List Pair} (hs : s.Pairwise pairLe) (hd : ∀ p ∈ s, p.2 < p.1) {p : Pair} (hp : Kept s p) : p.2 < p.1 := by
  obtain ⟨i, hi, hf, h | ⟨k, h1, h2, h3, h4, h5⟩⟩ := hp
  · rw [h]; exact hd _ (pairAt_mem hi)
  · rw [h5]
    have e1 := sorted_le hs (show i ≤ k - 1 by omega) (show k - 1 < s.length by omega)
    have e2 := sorted_le hs (show k - 1 ≤ k by omega) h2
    have e3 := h3 k h1 le_rfl
    unfold pairLe at e1 e2
    simp only
    omega

lemma kept_sound {s : List Pair} {p : Pair} (hp : Kept s p) : Relation.EqvGen (Rel s) p.1 p.2 := by
  obtain ⟨i, hi, hf, h | ⟨k, h1, h2, h3, h4, h5⟩⟩ := hp
  · rw [h]; exact .rel _ _ (pairAt_mem hi)
  · rw [h5]
    refine .trans _ (pairAt s i).1 _ (.symm _ _ (.rel _ _ ?_)) (.rel _ _ (pairAt_mem hi))
    rw [← h3 k h1 le_rfl]
    exact pairAt_mem h2

lemma kept_complete {s out : List Pair} (hout : ∀ p, Kept s p → p ∈ out) {p : Pair} (hp : p ∈ s) :
    Relation.EqvGen (Rel out) p.1 p.2 := by
  obtain ⟨k, hk, rfl⟩ := exists_pairAt hp
  obtain ⟨i, hik, hf, hsame⟩ := first_exists (s := s) k
  have h0 : Rel out (pairAt s k).1 (pairAt s i).2 := by
    rw [← hsame i le_rfl hik]
    exact hout _ ⟨i, by omega, hf, Or.inl rfl⟩
  refine .trans _ _ _ (.rel _ _ h0) ?_
  -- the `to`s of the group are connected with the first one
  have : ∀ m, i ≤ m → m ≤ k → Relation.EqvGen (Rel out) (pairAt s i).2 (pairAt s m).2 := by
    intro m hm
    induction m, hm using Nat.le_induction with
    | base => intro _; exact .refl _
    | succ m hm ih =>
      intro hmk
      by_cases he : (pairAt s (m + 1)).2 = (pairAt s m).2
      · rw [he]; exact ih (by omega)
      · refine .symm _ _ (.rel _ _ (hout _ ⟨i, by omega, hf, Or.inr ⟨m + 1, by omega, by omega, ?_, by simpa using he, rfl⟩⟩))
        intro m' h1 h2
        rw [hsame m' (by omega) (by omega), hsame i le_rfl hik]
  exact this k hik le_rfl

/-- A `from` which is no `to` has one pair only after the filter. -/
lemma kept_unique {s : List Pair} (hs : s.Pairwise pairLe) {c t t' : ℤ} (hc : ∀ f, (f, c) ∉ s) (h : Kept s (c, t)) (h' : Kept s (c, t')) :
    t = t' := by
  have one : ∀ t, Kept s (c, t) → (c, t) ∈ s ∧ ∀ u, (c, u) ∈ s → t ≤ u := by
    intro t h
    obtain ⟨i, hi, hf, h | ⟨k, h1, h2, h3, h4, h5⟩⟩ := h
    · refine ⟨by rw [h]; exact pairAt_mem hi, fun u hu => ?_⟩
      have e1 : c = (pairAt s i).1 := congrArg Prod.fst h
      have e2 : t = (pairAt s i).2 := congrArg Prod.snd h
      rw [e2]
      rw [e1] at hu
      exact first_min hs hi hf hu
    · exfalso
      have e1 : c = (pairAt s k).2 := congrArg Prod.fst h5
      apply hc (pairAt s k).1
      rw [e1]
      exact pairAt_mem h2
  exact le_antisymm ((one t h).2 _ (one t' h').1) ((one t' h').2 _ (one t h).1)

/-- Everything about one call of `sortAndFilterMergePairs`. -/
lemma sortAndFilter_spec {order : List ℕ} {l : List Pair} (ho : order.Perm (List.range l.length)) :
    ∃ out, sortAndFilter order l = some out ∧ out.Pairwise pairLe ∧
      (∀ a b, Relation.EqvGen (Rel out) a b ↔ Relation.EqvGen (Rel l) a b) ∧
      ((∀ p ∈ l, p.2 < p.1) → ∀ p ∈ out, p.2 < p.1) ∧
      ∀ c t t', (∀ f, (f, c) ∉ l) → (c, t) ∈ out → (c, t') ∈ out → t = t' := by
  obtain ⟨out, h1, h2, h3⟩ := sortAndFilter_some ho
  have hs := sortPairs_sorted l
  refine ⟨out, h1, h2, fun a b => ⟨fun h => ?_, fun h => ?_⟩, fun hd p hp => ?_, fun c t t' hc ht ht' => ?_⟩
  · have hr : ∀ x y, Rel (sortPairs l) x y → Rel l x y := fun x y => mem_sortPairs.mp
    suffices h' : Relation.EqvGen (Rel (sortPairs l)) a b from Relation.EqvGen.mono hr _ _ h'
    induction h with
    | rel x y h => exact kept_sound ((h3 _).mp h)
    | refl x => exact .refl _
    | symm x y _ ih => exact .symm _ _ ih
    | trans x y z _ _ ih1 ih2 => exact .trans _ _ _ ih1 ih2
  · induction h with
    | rel x y h => exact kept_complete (fun p hp => (h3 p).mpr hp) (mem_sortPairs.mpr h)
    | refl x => exact .refl _
    | symm x y _ ih => exact .symm _ _ ih
    | trans x y z _ _ ih1 ih2 => exact .trans _ _ _ ih1 ih2
  · exact kept_decreasing hs (fun p hp => hd p (mem_sortPairs.mp hp)) ((h3 p).mp hp)
  · exact kept_unique hs (fun f hf => hc f (mem_sortPairs.mp hf)) ((h3 _).mp ht) ((h3 _).mp ht')

/-! ## The relabelling -/

lemma intLt_strictWeak : Heap.StrictWeak (fun x y : ℤ => decide (x < y)) where
  asymm x y h := by simp only [decide_eq_true_eq, decide_eq_false_iff_not] at *; omega
  negtrans x y z h1 h2 := by simp only [decide_eq_false_iff_not] at *; omega

lemma lookup_spec {l : List Pair} (hs : l.Pairwise pairLe) (a : ℤ) :
    ∃ r, StdAlg.lowerBound (fun x y : ℤ => decide (x < y)) (l.map (·.1)) 0 l.length a = some r ∧
      ((∀ t, (a, t) ∉ l) ∧ (r = l.length ∨ (pairAt l r).1 ≠ a) ∨
        ∃ t, r < l.length ∧ pairAt l r = (a, t) ∧ (a, t) ∈ l ∧ ∀ t', (a, t') ∈ l → t ≤ t') := by
  have hat : ∀ i x, (l.map (·.1))[i]? = some x ↔ i < l.length ∧ (pairAt l i).1 = x := by
    intro i x
    rw [List.getElem?_map]
    by_cases hi : i < l.length
    · simp [hi, pairAt_eq hi]
    · simp [hi]
  obtain ⟨r, h1, -, h2, h3, h4⟩ := StdAlg.lower_bound_correct intLt_strictWeak (l.map (·.1)) a (Nat.zero_le l.length)
    (by simp) (by
      intro i j x y _ hij hj hx hy
      obtain ⟨-, rfl⟩ := (hat i x).mp hx
      obtain ⟨-, rfl⟩ := (hat j y).mp hy
      have := sorted_le hs hij hj
      unfold pairLe at this
      simp only [decide_eq_false_iff_not]
      omega)
  have hlt : ∀ i < r, (pairAt l i).1 < a := fun i hi => by
    simpa using h3 i _ (Nat.zero_le _) hi ((hat i _).mpr ⟨by omega, rfl⟩)
  have hge : ∀ i, r ≤ i → i < l.length → a ≤ (pairAt l i).1 := fun i hi hil => by
    have := h4 i _ hi hil ((hat i _).mpr ⟨hil, rfl⟩)
    simpa using this
  refine ⟨r, h1, ?_⟩
  by_cases hfound : r < l.length ∧ (pairAt l r).1 = a
  · right
    refine ⟨(pairAt l r).2, hfound.1, ?_, ?_, fun t' ht' => ?_⟩
    · rw [← hfound.2]
    · rw [← hfound.2]; exact pairAt_mem hfound.1
    · obtain ⟨k, hk, he⟩ := exists_pairAt ht'
      have hrk : r ≤ k := by
        by_contra hc
        have := hlt k (by omega)
        rw [he] at this
        simp at this
      have := sorted_le hs hrk hk
      rw [he] at this
      unfold pairLe at this
      simp only at this
      omega
  · left
    constructor
    · intro t ht
      obtain ⟨k, hk, he⟩ := exists_pairAt ht
      have hrk : r ≤ k := by
        by_contra hc
        have := hlt k (by omega)
        rw [he] at this
        simp at this
      have h5 := sorted_le hs hrk hk
      have h6 := hge r le_rfl (by omega)
      rw [he] at h5
      unfold pairLe at h5
      simp only at h5
      exact hfound ⟨by omega, by omega⟩
    · by_cases hr : r = l.length
      · exact Or.inl hr
      · exact Or.inr (fun h => hfound ⟨by omega, h⟩)

/-- Unfolding the loop once. -/
lemma relabel_succ {l : List Pair} (hs : l.Pairwise pairLe) (fuel : ℕ) (a : ℤ) :
    (∀ t, (a, t) ∉ l) ∧ relabelLoop l (fuel + 1) a = some a ∨
    ∃ t, (a, t) ∈ l ∧ (∀ t', (a, t') ∈ l → t ≤ t') ∧ relabelLoop l (fuel + 1) a = relabelLoop l fuel t := by
  obtain ⟨r, h1, ⟨h2, h3⟩ | ⟨t, h2, h3, h4, h5⟩⟩ := lookup_spec hs a
  · left
    refine ⟨h2, ?_⟩
    rw [relabelLoop, h1, Option.bind_some, if_pos h3]
  · right
    refine ⟨t, h4, h5, ?_⟩
    rw [relabelLoop, h1, Option.bind_some, if_neg (by
      rintro (h | h)
      · omega
      · rw [h3] at h; exact h rfl), h3]

lemma relabel_done {l : List Pair} (hs : l.Pairwise pairLe) (hd : ∀ p ∈ l, p.2 < p.1) (fuel : ℕ) (a : ℤ)
    (hf : l.countP (fun p => decide (p.1 ≤ a)) < fuel) : ∃ x, ∀ f' ≥ fuel, relabelLoop l f' a = some x := by
  induction fuel generalizing a with
  | zero => omega
  | succ fuel ih =>
    by_cases hc : ∃ t, (a, t) ∈ l ∧ ∀ t', (a, t') ∈ l → t ≤ t'
    · obtain ⟨t, ht, hmin⟩ := hc
      have hlt : t < a := hd _ ht
      have hcount : l.countP (fun p => decide (p.1 ≤ t)) < l.countP (fun p => decide (p.1 ≤ a)) := by
        have e : l.countP (fun p => decide (p.1 ≤ a)) =
            l.countP (fun p => decide (p.1 ≤ t)) + l.countP (fun p => decide (t < p.1 ∧ p.1 ≤ a)) := by
          clear ih hf hs hd hmin ht
          induction l with
          | nil => rfl
          | cons p l ih =>
            simp only [List.countP_cons, ih]
            by_cases h1 : p.1 ≤ t
            · have h2 : p.1 ≤ a := by omega
              have h3 : ¬ t < p.1 := by omega
              simp [h1, h2, h3]; omega
            · by_cases h2 : p.1 ≤ a
              · have h3 : t < p.1 := by omega
                simp [h1, h2, h3]; omega
              · simp [h1, h2]
        have : 0 < l.countP (fun p => decide (t < p.1 ∧ p.1 ≤ a)) :=
          List.countP_pos_iff.mpr ⟨(a, t), ht, by simpa using hlt⟩
        omega
      obtain ⟨x, hx⟩ := ih t (by omega)
      refine ⟨x, fun f' hf' => ?_⟩
      obtain ⟨g, rfl⟩ : ∃ g, f' = g + 1 := ⟨f' - 1, by omega⟩
      rcases relabel_succ hs g a with ⟨h1, -⟩ | ⟨u, h1, h2, h3⟩
      · exact absurd ht (h1 t)
      · have : u = t := le_antisymm (h2 _ ht) (hmin _ h1)
        rw [h3, this]
        exact hx g (by omega)
    · refine ⟨a, fun f' hf' => ?_⟩
      obtain ⟨g, rfl⟩ : ∃ g, f' = g + 1 := ⟨f' - 1, by omega⟩
      rcases relabel_succ hs g a with ⟨-, h1⟩ | ⟨u, h1, h2, -⟩
      · exact h1
      · exact absurd ⟨u, h1, h2⟩ hc

/-- The relabelling as a function: it follows the smallest `to` until there is none. -/
lemma relabel_spec {l : List Pair} (hs : l.Pairwise pairLe) (hd : ∀ p ∈ l, p.2 < p.1) :
    ∃ ρ : ℤ → ℤ, (∀ fuel > l.length, ∀ a, relabelLoop l fuel a = some (ρ a)) ∧
      (∀ a, (∀ t, (a, t) ∉ l) → ρ a = a) ∧
      (∀ a t, (a, t) ∈ l → (∀ t', (a, t') ∈ l → t ≤ t') → ρ a = ρ t) := by
  have h : ∀ a, ∃ x, ∀ f' ≥ l.length + 1, relabelLoop l f' a = some x := fun a =>
    relabel_done hs hd (l.length + 1) a (Nat.lt_succ_of_le List.countP_le_length)
  choose ρ hρ using h
  refine ⟨ρ, fun fuel hf a => hρ a fuel hf, fun a ha => ?_, fun a t ht hmin => ?_⟩
  · have h1 := hρ a (l.length + 1) le_rfl
    rcases relabel_succ hs l.length a with ⟨-, h2⟩ | ⟨u, h2, -⟩
    · rw [h2] at h1; exact (Option.some.inj h1).symm
    · exact absurd h2 (ha u)
  · have h1 := hρ a (l.length + 2) (by omega)
    rcases relabel_succ hs (l.length + 1) a with ⟨h2, -⟩ | ⟨u, h2, h3, h4⟩
    · exact absurd ht (h2 t)
    · have : u = t := le_antisymm (h3 _ ht) (hmin _ h2)
      rw [h4, this, hρ t (l.length + 1) le_rfl] at h1
      exact (Option.some.inj h1).symm

lemma min_to {l : List Pair} (hs : l.Pairwise pairLe) {a t : ℤ} (ht : (a, t) ∈ l) :
    ∃ u, (a, u) ∈ l ∧ ∀ t', (a, t') ∈ l → u ≤ t' := by
  obtain ⟨r, -, ⟨h2, -⟩ | ⟨u, -, -, h3, h4⟩⟩ := lookup_spec hs a
  · exact absurd ht (h2 t)
  · exact ⟨u, h3, h4⟩

/-- Induction along the relabelling. -/
lemma relabel_induction {l : List Pair} (M : ℤ → Prop)
    (h0 : ∀ a, (∀ t, (a, t) ∉ l) → M a) (h1 : ∀ a t, (a, t) ∈ l → (∀ b, b < a → M b) → M a) (a : ℤ) : M a := by
  have key : ∀ n : ℕ, ∀ a : ℤ, l.countP (fun p => decide (p.1 ≤ a)) ≤ n → M a := by
    intro n
    induction n with
    | zero =>
      intro a ha
      apply h0
      intro t ht
      have : 0 < l.countP (fun p => decide (p.1 ≤ a)) := List.countP_pos_iff.mpr ⟨(a, t), ht, by simp⟩
      omega
    | succ n ih =>
      intro a ha
      by_cases hc : ∃ t, (a, t) ∈ l
      · obtain ⟨t, ht⟩ := hc
        apply h1 a t ht
        intro b hb
        apply ih
        have e : l.countP (fun p => decide (p.1 ≤ b)) + l.countP (fun p => decide (b < p.1 ∧ p.1 ≤ a)) =
            l.countP (fun p => decide (p.1 ≤ a)) := by
          clear ih ha h0 h1 ht
          induction l with
          | nil => rfl
          | cons p l ih =>
            simp only [List.countP_cons, ← ih]
            by_cases h1 : p.1 ≤ b
            · have h2 : p.1 ≤ a := by omega
              have h3 : ¬ b < p.1 := by omega
              simp [h1, h2, h3]; omega
            · by_cases h2 : p.1 ≤ a
              · have h3 : b < p.1 := by omega
                simp [h1, h2, h3]; omega
              · simp [h1, h2]
        have : 0 < l.countP (fun p => decide (b < p.1 ∧ p.1 ≤ a)) :=
          List.countP_pos_iff.mpr ⟨(a, t), ht, by simpa using hb⟩
        omega
      · exact h0 a (fun t ht => hc ⟨t, ht⟩)
  exact key _ a le_rfl

end ArborX.DistDbscan
