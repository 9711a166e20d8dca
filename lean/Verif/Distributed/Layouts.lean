import Verif.Distributed.Exchange
import Mathlib.Tactic.Linarith
import Mathlib.Data.List.GetD

/-!
# The `Distributor`: both ways to make a layout are correct (C27)
-/

namespace ArborX.Distributed

/-! ## Reductions -/

lemma maxReduce_le {l : List ℤ} {b : ℤ} (hb : -2 ^ 31 ≤ b) (h : ∀ x ∈ l, x ≤ b) : maxReduce l ≤ b := by
  induction l with
  | nil => exact hb
  | cons a l ih =>
    have := ih (fun x hx => h x (by simp [hx]))
    exact max_le (h a (by simp)) this

lemma le_maxReduce {l : List ℤ} {x : ℤ} (h : x ∈ l) : x ≤ maxReduce l := by
  induction l with
  | nil => simp at h
  | cons a l ih =>
    rcases List.mem_cons.mp h with rfl | h
    · exact le_max_left _ _
    · exact le_trans (ih h) (le_max_right _ _)

lemma maxReduce_mem {l : List ℤ} (hne : l ≠ []) (h : ∀ x ∈ l, -2 ^ 31 ≤ x) : maxReduce l ∈ l := by
  induction l with
  | nil => exact absurd rfl hne
  | cons a l ih =>
    show max a (maxReduce l) ∈ _
    by_cases hl : l = []
    · subst hl
      have := h a (by simp)
      rw [max_eq_left (by exact this)]; simp
    · have := ih hl (fun x hx => h x (by simp [hx]))
      rcases max_choice a (maxReduce l) with e | e
      · rw [e]; simp
      · rw [e]; simp [this]

lemma minReduce_le {l : List ℤ} {x : ℤ} (h : x ∈ l) : minReduce l ≤ x := by
  induction l with
  | nil => simp at h
  | cons a l ih =>
    rcases List.mem_cons.mp h with rfl | h
    · exact min_le_left _ _
    · exact le_trans (min_le_right _ _) (ih h)

/-! ## One pass -/

lemma scanItems_spec (m : ℤ) (off u : ℕ) (dup : List ℤ) (perm : List ℕ) (h : perm.length = dup.length) :
    (scanItems m off u dup perm).1 = dup.map (fun r => if r = m then -1 else r) ∧
    (scanItems m off u dup perm).2.1.length = dup.length ∧
    (scanItems m off u dup perm).2.2 = u + dup.count m ∧
    ∀ i < dup.length, (scanItems m off u dup perm).2.1.getD i 0 =
      if dup[i]? = some m then u + off + (dup.take i).count m else perm.getD i 0 := by
  induction dup generalizing u perm with
  | nil => cases perm <;> simp [scanItems] at h ⊢
  | cons a dup ih =>
    cases perm with
    | nil => simp at h
    | cons p perm =>
      rw [scanItems]
      by_cases ha : a = m
      · rw [if_pos ha]
        obtain ⟨h1, h2, h3, h4⟩ := ih (u + 1) perm (by simpa using h)
        refine ⟨by simp [h1, ha], by simp [h2], by simp [h3, ha]; omega, ?_⟩
        intro i hi
        cases i with
        | zero => simp [ha]
        | succ i =>
          have := h4 i (by simpa using hi)
          simp only [List.getD_cons_succ, List.getElem?_cons_succ, List.take_succ_cons, List.count_cons, ha, this, beq_self_eq_true, if_true]
          split_ifs
          · omega
          · rfl
      · rw [if_neg ha]
        obtain ⟨h1, h2, h3, h4⟩ := ih u perm (by simpa using h)
        refine ⟨by simp [h1, ha], by simp [h2], by simp [h3, ha], ?_⟩
        intro i hi
        cases i with
        | zero => simp [ha]
        | succ i =>
          have := h4 i (by simpa using hi)
          simp only [List.getD_cons_succ, List.getElem?_cons_succ, List.take_succ_cons, this]
          rw [List.count_cons_of_ne (by simpa using ha)]

/-! ## The loop -/

/-- The destinations that are still to be handled. -/
def mask (U : List ℤ) (dest : List ℤ) : List ℤ := dest.map (fun r => if r ∈ U then -1 else r)

lemma mask_count (U dest : List ℤ) {m : ℤ} (hm : m ≠ -1) (hU : m ∉ U) : (mask U dest).count m = dest.count m := by
  induction dest with
  | nil => rfl
  | cons a dest ih =>
    unfold mask at ih ⊢
    rw [List.map_cons, List.count_cons, List.count_cons, ih]
    congr 1
    by_cases ha : a ∈ U
    · have : a ≠ m := fun e => hU (e ▸ ha)
      simp [ha, this, hm.symm]
    · simp [ha]

structure LoopInv (dest : List ℤ) (perm : List ℕ) (o : ℕ) (U : List ℤ) (offs : List ℕ) : Prop where
  permLen : perm.length = dest.length
  offset : o = dest.countP (fun r => decide (r ∈ U))
  nodup : U.Nodup
  sub : ∀ d ∈ U, d ∈ dest
  len : offs.length = U.length + 1
  zero : offs.getD 0 0 = 0
  step : ∀ j d, U[j]? = some d → offs.getD (j + 1) 0 = offs.getD j 0 + dest.count d
  last : offs.getLast? = some o
  pos : ∀ (i j : ℕ) (d : ℤ), U[j]? = some d → dest[i]? = some d → perm.getD i 0 = offs.getD j 0 + (dest.take i).count d

lemma countP_insert (dest : List ℤ) (U : List ℤ) (m : ℤ) (hm : m ∉ U) :
    dest.countP (fun r => decide (r ∈ U ++ [m])) = dest.countP (fun r => decide (r ∈ U)) + dest.count m := by
  induction dest with
  | nil => rfl
  | cons a dest ih =>
    rw [List.countP_cons, List.countP_cons, List.count_cons, ih]
    by_cases ha : a = m
    · subst ha; simp [hm]; omega
    · simp [ha]; omega

lemma sortLoop_good (dest : List ℤ) (hne : dest ≠ []) (hr : ∀ d ∈ dest, 0 ≤ d) (fuel : ℕ) (perm : List ℕ)
    (offset : ℕ) (U : List ℤ) (offs : List ℕ) (inv : LoopInv dest perm offset U offs)
    (hf : dest.length < fuel + dest.countP (fun r => decide (r ∈ U))) :
    ∃ L, sortLoop fuel (mask U dest) perm offset U offs = some L ∧ Good dest L := by
  induction fuel generalizing perm offset U offs with
  | zero =>
    have := List.countP_le_length (p := fun r => decide (r ∈ U)) (l := dest)
    omega
  | succ fuel ih =>
    have hml : (mask U dest).length = dest.length := by simp [mask]
    have hge : ∀ x ∈ mask U dest, -1 ≤ x := by
      intro x hx
      obtain ⟨r, hr', rfl⟩ := List.mem_map.mp hx
      have := hr r hr'
      split_ifs <;> omega
    have hmne : mask U dest ≠ [] := by simpa [mask] using hne
    have hmem : maxReduce (mask U dest) ∈ mask U dest := maxReduce_mem hmne (fun x hx => by have := hge x hx; linarith)
    set m := maxReduce (mask U dest) with hm
    rw [sortLoop]
    simp only [← hm]
    by_cases h1 : m = -1
    · -- all destinations are handled
      have hall : ∀ r ∈ dest, r ∈ U := by
        intro r hr'
        by_contra hc
        have : r ∈ mask U dest := List.mem_map.mpr ⟨r, hr', by simp [hc]⟩
        have h2 := le_maxReduce this
        have := hr r hr'
        omega
      have hoff : offset = dest.length := by
        rw [inv.offset, List.countP_eq_length]
        intro a ha
        simpa using hall a ha
      rw [if_pos h1, if_pos (by rw [inv.last, hoff, hml])]
      refine ⟨_, rfl, inv.nodup, inv.len, inv.zero, inv.step, by rw [inv.last, hoff], ?_, Or.inr inv.permLen, ?_⟩
      · exact fun d => ⟨inv.sub d, hall d⟩
      · intro i j d hj hi
        have hpne : perm ≠ [] := by
          intro e
          have := inv.permLen
          rw [e] at this
          exact hne (List.length_eq_zero_iff.mp this.symm)
        simp only [Layout.pos, if_neg hpne]
        exact inv.pos i j d hj hi
    · rw [if_neg h1]
      -- m is a destination that is not handled
      obtain ⟨r, hr1, hr2⟩ := List.mem_map.mp hmem
      have hU : m ∉ U ∧ m ∈ dest := by
        by_cases hc : r ∈ U
        · rw [if_pos hc] at hr2; exact absurd hr2.symm h1
        · rw [if_neg hc] at hr2; rw [← hr2]; exact ⟨hc, hr1⟩
      obtain ⟨s1, s2, s3, s4⟩ := scanItems_spec m offset 0 (mask U dest) perm (by rw [inv.permLen, hml])
      set t := scanItems m offset 0 (mask U dest) perm with ht
      rw [mask_count U dest h1 hU.1, Nat.zero_add] at s3
      have hmask : t.1 = mask (U ++ [m]) dest := by
        rw [s1]
        unfold mask
        rw [List.map_map]
        apply List.map_congr_left
        intro a _
        simp only [Function.comp]
        by_cases ha : a ∈ U
        · simp [ha]
        · by_cases hb : a = m
          · subst hb; simp [ha]
          · simp [ha, hb]
      have hcnt : 0 < dest.count m := List.count_pos_iff.mpr hU.2
      have hcp := countP_insert dest U m hU.1
      rw [hmask, s3]
      apply ih
      · refine ⟨by rw [s2, hml], by rw [hcp, inv.offset], ?_, ?_, by simp [inv.len], ?_, ?_, by simp, ?_⟩
        · rw [List.nodup_append]
          refine ⟨inv.nodup, by simp, ?_⟩
          intro a ha b hb
          rw [List.mem_singleton] at hb
          rintro rfl
          exact hU.1 (hb ▸ ha)
        · intro d hd
          rcases List.mem_append.mp hd with h | h
          · exact inv.sub d h
          · rw [List.mem_singleton.mp h]; exact hU.2
        · have := inv.len
          rw [List.getD_append _ _ _ _ (by omega)]; exact inv.zero
        · intro j d hj
          rcases Nat.lt_or_ge j U.length with hjl | hjl
          · rw [List.getElem?_append_left hjl] at hj
            have := inv.len
            rw [List.getD_append _ _ _ _ (by omega), List.getD_append _ _ _ _ (by omega)]
            exact inv.step j d hj
          · rw [List.getElem?_append_right hjl] at hj
            have hl := inv.len
            have hj0 : j = U.length := by
              have := (List.getElem?_eq_some_iff.mp hj).1
              simp at this; omega
            subst hj0
            simp only [Nat.sub_self, List.getElem?_cons_zero, Option.some.injEq] at hj
            subst hj
            rw [List.getD_append_right _ _ _ _ (by omega), List.getD_append _ _ _ _ (by omega)]
            have := inv.last
            rw [List.getLast?_eq_getElem?, hl, Nat.add_sub_cancel] at this
            rw [List.getD_eq_getElem?_getD (l := offs), this, hl]
            simp
        · intro i j d hj hi
          have hil : i < dest.length := (List.getElem?_eq_some_iff.mp hi).1
          have hl := inv.len
          have hmi : (mask U dest)[i]? = some (if d ∈ U then -1 else d) := by
            unfold mask; rw [List.getElem?_map, hi]; rfl
          rw [s4 i (by omega), hmi]
          rcases Nat.lt_or_ge j U.length with hjl | hjl
          · rw [List.getElem?_append_left hjl] at hj
            have hd : d ∈ U := List.mem_of_getElem? hj
            rw [List.getD_append _ _ _ _ (by omega), if_neg (by simp [hd]; exact fun e => h1 e.symm)]
            exact inv.pos i j d hj hi
          · rw [List.getElem?_append_right hjl] at hj
            have hj0 : j = U.length := by
              have := (List.getElem?_eq_some_iff.mp hj).1
              simp at this; omega
            subst hj0
            simp only [Nat.sub_self, List.getElem?_cons_zero, Option.some.injEq] at hj
            subst hj
            rw [if_pos (by simp [hU.1]), List.getD_append _ _ _ _ (by omega)]
            have := inv.last
            rw [List.getLast?_eq_getElem?, hl, Nat.add_sub_cancel] at this
            rw [List.getD_eq_getElem?_getD (l := offs), this]
            have e : (mask U dest).take i = mask U (dest.take i) := by simp [mask, List.map_take]
            rw [e, mask_count U _ h1 hU.1]
            simp
      · rw [hcp]; omega

lemma good_nil : Good [] ⟨[], [], [0]⟩ := by
  refine ⟨by simp, by simp, by simp, by simp, by simp, by simp, by simp, by simp⟩

lemma layoutFromRanks_good (E : Env) (hE : E.Valid) (dest : List ℤ) (hr : ∀ d ∈ dest, 0 ≤ d) :
    ∃ L, layoutFromRanks E dest = some L ∧ Good dest L := by
  unfold layoutFromRanks
  simp only
  by_cases h0 : dest.length = 0
  · rw [if_pos h0]
    rw [List.length_eq_zero_iff.mp h0]
    exact ⟨_, rfl, good_nil⟩
  rw [if_neg h0]
  have hne : dest ≠ [] := fun e => h0 (by simp [e])
  by_cases h1 : minReduce dest = maxReduce dest
  · rw [if_pos h1]
    set m := minReduce dest with hm
    have hall : ∀ d ∈ dest, d = m := fun d hd => by
      have h2 := le_maxReduce hd
      have h3 := minReduce_le hd
      omega
    have hcount : dest.count m = dest.length := by
      rw [List.count_eq_length]
      exact fun b hb => (hall b hb).symm
    have htake : ∀ i ≤ dest.length, (dest.take i).count m = i := by
      intro i hi
      have : (dest.take i).count m = (dest.take i).length := by
        rw [List.count_eq_length]
        exact fun b hb => (hall b (List.mem_of_mem_take hb)).symm
      rw [this, List.length_take]; omega
    refine ⟨_, rfl, by simp, by simp, by simp, ?_, by simp, ?_, Or.inl rfl, ?_⟩
    · intro j d hj
      have hj0 : j = 0 := by
        have := (List.getElem?_eq_some_iff.mp hj).1
        simpa using this
      subst hj0
      simp only [List.getElem?_cons_zero, Option.some.injEq] at hj
      subst hj
      simp [hcount]
    · intro d
      simp only [List.mem_singleton]
      constructor
      · rintro rfl
        obtain ⟨a, ha⟩ := List.exists_mem_of_ne_nil _ hne
        rw [← hall a ha]; exact ha
      · exact hall d
    · intro i j d hj hi
      have hj0 : j = 0 := by
        have := (List.getElem?_eq_some_iff.mp hj).1
        simpa using this
      subst hj0
      simp only [List.getElem?_cons_zero, Option.some.injEq] at hj
      subst hj
      simp [Layout.pos, htake i (by have := (List.getElem?_eq_some_iff.mp hi).1; omega)]
  · rw [if_neg h1]
    have hmask : mask [] dest = dest := by simp [mask]
    have := sortLoop_good dest hne hr (dest.length + 1) (E.garbage dest.length) 0 [] [0]
      ⟨hE.garbage _, by simp, by simp, by simp, by simp, by simp, by simp, by simp, by simp⟩ (by simp)
    rwa [hmask] at this

/-! ## Batches -/

/-- The destinations of the items of batches. -/
def expandRuns (runs : List (ℤ × ℕ)) : List ℤ := runs.flatMap (fun e => List.replicate e.2 e.1)

lemma expandRuns_count (runs : List (ℤ × ℕ)) (h : (runs.map (·.1)).Nodup) {d : ℤ} {w : ℕ} (hd : (d, w) ∈ runs) :
    (expandRuns runs).count d = w := by
  induction runs with
  | nil => simp at hd
  | cons a runs ih =>
    rw [List.map_cons, List.nodup_cons] at h
    unfold expandRuns at ih ⊢
    rw [List.flatMap_cons, List.count_append, List.count_replicate]
    rcases List.mem_cons.mp hd with rfl | hd
    · simp only [beq_self_eq_true, if_true, Nat.add_eq_left]
      rw [List.count_eq_zero]
      intro hc
      obtain ⟨e, he1, he2⟩ := List.mem_flatMap.mp hc
      rw [List.mem_replicate] at he2
      exact h.1 (List.mem_map.mpr ⟨e, he1, he2.2.symm⟩)
    · rw [ih h.2 hd]
      have : a.1 ≠ d := by
        rintro rfl
        exact h.1 (List.mem_map.mpr ⟨_, hd, rfl⟩)
      simp [this]

lemma expandRuns_length (runs : List (ℤ × ℕ)) : (expandRuns runs).length = (runs.map (·.2)).sum := by
  induction runs with
  | nil => rfl
  | cons a runs ih =>
    unfold expandRuns at ih ⊢
    rw [List.flatMap_cons, List.length_append, ih]; simp

lemma offsetsFrom_last (ws : List ℕ) (o : ℕ) : (offsetsFrom o ws).getLast? = some (o + ws.sum) := by
  induction ws generalizing o with
  | nil => simp [offsetsFrom]
  | cons w ws ih =>
    rw [offsetsFrom, List.getLast?_cons, ih]
    simp [Nat.add_assoc]

lemma offsetsFrom_step (ws : List ℕ) (o : ℕ) {j w : ℕ} (h : ws[j]? = some w) :
    (offsetsFrom o ws).getD (j + 1) 0 = (offsetsFrom o ws).getD j 0 + w := by
  have hj := (List.getElem?_eq_some_iff.mp h).1
  rw [offsetsFrom_getD _ _ _ (by omega), offsetsFrom_getD _ _ _ (by omega), Crs.scan, List.getD_eq_getElem?_getD, h]
  simp [Nat.add_assoc]

lemma expandRuns_pos (runs : List (ℤ × ℕ)) (h : (runs.map (·.1)).Nodup) (o : ℕ) {i j : ℕ} {d : ℤ}
    (hj : (runs.map (·.1))[j]? = some d) (hi : (expandRuns runs)[i]? = some d) :
    o + i = (offsetsFrom o (runs.map (·.2))).getD j 0 + ((expandRuns runs).take i).count d := by
  induction runs generalizing o i j with
  | nil => simp at hj
  | cons a runs ih =>
    have h' := h
    rw [List.map_cons, List.nodup_cons] at h
    have ex : expandRuns (a :: runs) = List.replicate a.2 a.1 ++ expandRuns runs := by
      unfold expandRuns; rw [List.flatMap_cons]
    have hnot : a.1 ∉ expandRuns runs := by
      intro hc
      obtain ⟨e, he1, he2⟩ := List.mem_flatMap.mp hc
      rw [List.mem_replicate] at he2
      exact h.1 (List.mem_map.mpr ⟨e, he1, he2.2.symm⟩)
    rw [ex] at hi ⊢
    cases j with
    | zero =>
      simp only [List.map_cons, List.getElem?_cons_zero, Option.some.injEq] at hj
      subst hj
      have hlt : i < a.2 := by
        by_contra hc
        rw [List.getElem?_append_right (by simpa using hc)] at hi
        exact hnot (List.mem_of_getElem? hi)
      rw [List.take_append_of_le_length (by simp; omega), List.take_replicate, List.count_replicate_self,
        Nat.min_eq_left (by omega)]
      simp [offsetsFrom]
    | succ j =>
      rw [List.map_cons, List.getElem?_cons_succ] at hj
      have hne : d ≠ a.1 := by
        rintro rfl
        exact h.1 (List.mem_of_getElem? hj)
      have hge : a.2 ≤ i := by
        by_contra hc
        rw [List.getElem?_append_left (by simpa using hc)] at hi
        have := List.mem_of_getElem? hi
        rw [List.mem_replicate] at this
        exact hne this.2
      rw [List.getElem?_append_right (by simpa using hge), List.length_replicate] at hi
      have := ih h.2 (o + a.2) hj hi
      rw [List.take_append, List.count_append, List.length_replicate, List.take_of_length_le (by simpa using hge),
        List.count_replicate, if_neg (by simpa using hne.symm), List.map_cons, offsetsFrom, List.getD_cons_succ]
      omega

lemma runs_good (runs : List (ℤ × ℕ)) (h : (runs.map (·.1)).Nodup) (hp : ∀ e ∈ runs, 0 < e.2) :
    Good (expandRuns runs) ⟨[], runs.map (·.1), offsetsFrom 0 (runs.map (·.2))⟩ := by
  refine ⟨h, by simp [offsetsFrom_length], ?_, ?_, ?_, ?_, Or.inl rfl, ?_⟩
  · cases runs <;> simp [offsetsFrom]
  · intro j d hj
    simp only at hj ⊢
    rw [List.getElem?_map] at hj
    obtain ⟨e, he, rfl⟩ := Option.map_eq_some_iff.mp hj
    rw [expandRuns_count runs h (w := e.2) (List.mem_of_getElem? he)]
    apply offsetsFrom_step
    rw [List.getElem?_map, he]; rfl
  · simp only [offsetsFrom_last, expandRuns_length, Nat.zero_add]
  · intro d
    simp only [List.mem_map, expandRuns, List.mem_flatMap, List.mem_replicate]
    constructor
    · rintro ⟨e, he, rfl⟩
      exact ⟨e, he, by have := hp e he; omega, rfl⟩
    · rintro ⟨e, he, -, rfl⟩
      exact ⟨e, he, rfl⟩
  · intro i j d hj hi
    have := expandRuns_pos runs h 0 hj hi
    simp only [Layout.pos, if_true]
    omega

/-- Batches to the same rank are consecutive. -/
def Consecutive (ranks : List ℤ) : Prop :=
  ∀ i j k : ℕ, i < j → j < k → k < ranks.length → ranks[i]? = ranks[k]? → ranks[j]? = ranks[i]?

lemma Consecutive.tail {r : ℤ} {ranks : List ℤ} (h : Consecutive (r :: ranks)) : Consecutive ranks := by
  intro i j k h1 h2 h3 h4
  have := h (i + 1) (j + 1) (k + 1) (by omega) (by omega) (by simpa using h3) (by simpa using h4)
  simpa using this

lemma Consecutive.not_mem {r r' : ℤ} {ranks : List ℤ} (h : Consecutive (r :: r' :: ranks)) (hne : r' ≠ r) :
    r ∉ r' :: ranks := by
  intro hm
  rcases List.mem_cons.mp hm with e | hm
  · exact hne e.symm
  · obtain ⟨k, hk, e⟩ := List.getElem_of_mem hm
    have := h 0 1 (k + 2) (by omega) (by omega) (by simp; omega) (by simp [hk, e])
    simp at this
    exact hne this

lemma consecutive_of_sorted {ranks : List ℤ} (h : ranks.Pairwise (· ≤ ·)) : Consecutive ranks := by
  intro i j k h1 h2 h3 h4
  rw [List.getElem?_eq_getElem (by omega), List.getElem?_eq_getElem (by omega), Option.some.injEq] at h4 ⊢
  rw [List.pairwise_iff_getElem] at h
  have a := h i j (by omega) (by omega) h1
  have b := h j k (by omega) (by omega) h2
  omega

/-- `compact` merges batches with the same rank. -/
lemma compact_spec (ranks : List ℤ) (ws : List ℕ) (o : ℕ) (hl : ranks.length = ws.length) (hc : Consecutive ranks) :
    ∃ runs : List (ℤ × ℕ), compact ranks (offsetsFrom o ws).tail =
      (runs.map (·.1)).zip (offsetsFrom o (runs.map (·.2))).tail ∧
      expandRuns runs = expandRuns (ranks.zip ws) ∧ (runs.map (·.1)).Nodup ∧ ∀ d, d ∈ runs.map (·.1) ↔ d ∈ ranks := by
  induction ranks generalizing ws o with
  | nil =>
    refine ⟨[], ?_, by simp, by simp, by simp⟩
    simp [compact]
  | cons r ranks ih =>
    cases ws with
    | nil => simp at hl
    | cons w ws =>
      have ho : (offsetsFrom o (w :: ws)).tail = (o + w) :: (offsetsFrom (o + w) ws).tail := by
        cases ws <;> simp [offsetsFrom]
      cases ranks with
      | nil =>
        have : ws = [] := by simpa using hl.symm
        subst this
        refine ⟨[(r, w)], ?_, by simp [expandRuns], by simp, by simp⟩
        simp [compact, offsetsFrom]
      | cons r' ranks =>
        cases ws with
        | nil => simp at hl
        | cons w' ws =>
          rw [ho, compact]
          by_cases hr : r' = r
          · subst hr
            obtain ⟨runs, h1, h2, h3, h4⟩ := ih ((w + w') :: ws) o (by simpa using hl) hc.tail
            rw [if_neg (by simp)]
            refine ⟨runs, ?_, ?_, h3, ?_⟩
            · rw [← h1]
              congr 1
              simp [offsetsFrom, Nat.add_assoc]
            · rw [h2]
              simp only [expandRuns, List.zip_cons_cons, List.flatMap_cons]
              rw [← List.append_assoc, List.replicate_append_replicate]
            · intro d; rw [h4]; simp
          · obtain ⟨runs, h1, h2, h3, h4⟩ := ih (w' :: ws) (o + w) (by simpa using hl) hc.tail
            rw [if_pos hr]
            refine ⟨(r, w) :: runs, ?_, ?_, ?_, ?_⟩
            · rw [h1, List.map_cons, List.map_cons]
              have : (offsetsFrom o (w :: runs.map (·.2))).tail = (o + w) :: (offsetsFrom (o + w) (runs.map (·.2))).tail := by
                cases runs <;> simp [offsetsFrom]
              rw [this, List.zip_cons_cons]
            · unfold expandRuns at h2 ⊢
              rw [List.flatMap_cons, h2]; rfl
            · rw [List.map_cons, List.nodup_cons]
              exact ⟨fun hm => hc.not_mem hr ((h4 r).mp hm), h3⟩
            · intro d
              rw [List.map_cons, List.mem_cons, List.mem_cons, h4]

/-- `dropEmpty` removes empty batches. -/
lemma dropEmpty_spec (runs : List (ℤ × ℕ)) (o : ℕ) :
    dropEmpty o ((runs.map (·.1)).zip (offsetsFrom o (runs.map (·.2))).tail) =
      ((runs.filter (fun e => decide (0 < e.2))).map (·.1)).zip
        (offsetsFrom o ((runs.filter (fun e => decide (0 < e.2))).map (·.2))).tail := by
  induction runs generalizing o with
  | nil => simp [dropEmpty]
  | cons a runs ih =>
    have ht : ∀ (l : List (ℤ × ℕ)), (offsetsFrom o (a.2 :: l.map (·.2))).tail = (o + a.2) :: (offsetsFrom (o + a.2) (l.map (·.2))).tail := by
      intro l; cases l <;> simp [offsetsFrom]
    rw [List.map_cons, List.map_cons, ht, List.zip_cons_cons, dropEmpty, ih, List.filter_cons]
    by_cases hw : 0 < a.2
    · rw [if_pos (by omega), if_pos (by simpa using hw), List.map_cons, List.map_cons, ht, List.zip_cons_cons]
    · have : a.2 = 0 := by omega
      rw [if_neg (by omega), if_neg (by simpa using hw), this, Nat.add_zero]

lemma expandRuns_filter (runs : List (ℤ × ℕ)) : expandRuns (runs.filter (fun e => decide (0 < e.2))) = expandRuns runs := by
  induction runs with
  | nil => rfl
  | cons a runs ih =>
    rw [List.filter_cons]
    unfold expandRuns at ih ⊢
    by_cases hw : 0 < a.2
    · rw [if_pos (by simpa using hw), List.flatMap_cons, List.flatMap_cons, ih]
    · have : a.2 = 0 := by omega
      rw [if_neg (by simpa using hw), List.flatMap_cons, ih, this]; simp

lemma layoutFromBatches_good (ranks : List ℤ) (ws : List ℕ) (hl : ranks.length = ws.length) (hc : Consecutive ranks) :
    ∃ L, layoutFromBatches ranks (offsetsFrom 0 ws) = some L ∧ Good (expandRuns (ranks.zip ws)) L := by
  unfold layoutFromBatches
  rw [if_neg (by rw [offsetsFrom_length, hl]; simp)]
  have hlen : (expandRuns (ranks.zip ws)).length = ws.sum := by
    rw [expandRuns_length, List.map_snd_zip (by omega)]
  by_cases h0 : ranks.length = 0 ∨ (offsetsFrom 0 ws).getLast? = some 0
  · rw [if_pos h0]
    have : ws.sum = 0 := by
      rcases h0 with h0 | h0
      · have : ws = [] := List.length_eq_zero_iff.mp (by omega)
        rw [this]; rfl
      · rw [offsetsFrom_last] at h0
        simpa using h0
    rw [this] at hlen
    rw [List.length_eq_zero_iff.mp hlen]
    exact ⟨_, rfl, good_nil⟩
  · rw [if_neg h0]
    obtain ⟨runs, h1, h2, h3, -⟩ := compact_spec ranks ws 0 hl hc
    simp only [h1, dropEmpty_spec]
    set f := runs.filter (fun e => decide (0 < e.2)) with hf
    have hlf : (offsetsFrom 0 (f.map (·.2))).tail.length = f.length := by simp [offsetsFrom_length]
    have e1 : ((f.map (·.1)).zip (offsetsFrom 0 (f.map (·.2))).tail).map (·.1) = f.map (·.1) :=
      List.map_fst_zip (by simp [hlf])
    have e2 : ((f.map (·.1)).zip (offsetsFrom 0 (f.map (·.2))).tail).map (·.2) = (offsetsFrom 0 (f.map (·.2))).tail :=
      List.map_snd_zip (by simp [hlf])
    have e3 : 0 :: (offsetsFrom 0 (f.map (·.2))).tail = offsetsFrom 0 (f.map (·.2)) := by
      cases f <;> simp [offsetsFrom]
    rw [e1, e2, e3, ← h2, ← expandRuns_filter runs]
    refine ⟨_, rfl, runs_good f ?_ ?_⟩
    · exact h3.sublist (List.filter_sublist.map _)
    · intro e he
      have := (List.mem_filter.mp he).2
      simpa using this

end ArborX.Distributed
