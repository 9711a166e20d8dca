import Verif.DistDbscan.Ghosts

/-!
# Lemmas: the labels that come back, and the merge pairs (C48)
-/

namespace ArborX.DistDbscan

open Distributed BVH Traversal

variable {X V : Type} {w : ℕ}

/-! ## Communication -/

lemma select_map {α β : Type} (l : List α) (f : α → β) (g : α → ℤ) (t : ℤ) :
    select (l.map f) (l.map g) t = (l.filter (fun a => decide (g a = t))).map f := by
  unfold select
  induction l with
  | nil => rfl
  | cons a l ih =>
    rw [List.map_cons, List.map_cons, List.zip_cons_cons, List.filter_cons, List.filter_cons]
    by_cases h : g a = t
    · simp only [h, decide_true, if_true, List.map_cons]; rw [ih]
    · simp only [h, decide_false]; simpa using ih

/-- What comes back to process `r`: pairs of an id and a label. -/
def received (P : ℕ) (entries : ℕ → List (ℤ × ℕ × ℤ)) (r : ℕ) : List (ℕ × ℤ) :=
  (List.range P).flatMap (fun s => ((entries s).filter (fun e => decide (e.1 = (r : ℤ)))).map (·.2))

lemma communicateBack_spec (E : XEnv X w) (hE : ∀ i, (E.back i).Valid) (P : ℕ) (entries : ℕ → List (ℤ × ℕ × ℤ))
    (hr : ∀ s < P, ∀ e ∈ entries s, 0 ≤ e.1 ∧ e.1 < P) :
    ∃ ids labels, communicateBack E P entries = some (ids, labels) ∧ ∀ r < P,
      ids r = (received P entries r).map (·.1) ∧ labels r = (received P entries r).map (·.2) := by
  obtain ⟨plan, hp1, hp2⟩ := communicate_ranks (hE 0) (P := P) (dest := fun r => (entries r).map (·.1)) (by
    intro s hs d hd
    obtain ⟨e, he, rfl⟩ := List.mem_map.mp hd
    exact hr s hs e he)
  obtain ⟨ids, h1, h2⟩ := hp2 (E.back 1) (hE 1) ℕ (fun r => (entries r).map (·.2.1)) (fun s _ => by simp)
  obtain ⟨labels, h3, h4⟩ := hp2 (E.back 2) (hE 2) ℤ (fun r => (entries r).map (·.2.2)) (fun s _ => by simp)
  refine ⟨ids, labels, ?_, fun r hrP => ⟨?_, ?_⟩⟩
  · unfold communicateBack
    rw [hp1, Option.bind_some, h1, Option.bind_some, h3, Option.bind_some]
  · rw [h2 r hrP]
    unfold deliver received
    rw [List.map_flatMap]
    apply List.flatMap_congr
    intro s _
    rw [select_map, List.map_map]
    rfl
  · rw [h4 r hrP]
    unfold deliver received
    rw [List.map_flatMap]
    apply List.flatMap_congr
    intro s _
    rw [select_map, List.map_map]
    rfl

/-! ## Sorting -/

lemma sortByKey_both {T : Type} {n : ℕ} {key : ℕ → ℕ} {σ : ℕ → ℕ} (hσ : Perm.IsSort n key σ) (val : ℕ → T) :
    ∃ τ, Perm.IsSort n key τ ∧ (Perm.sortByKey n key val σ).1 = (fun i => key (τ i)) ∧ (Perm.sortByKey n key val σ).2 = fun i => val (τ i) := by
  unfold Perm.sortByKey
  by_cases h0 : n = 0
  · exact ⟨fun i => i, ⟨by simp, fun i hi => by omega⟩, by rw [if_pos h0], by rw [if_pos h0]⟩
  · rw [if_neg h0]
    by_cases h1 : (List.range n).all (fun i => decide (key i = key 0)) = true
    · refine ⟨fun i => i, ⟨by simp, ?_⟩, by rw [if_pos h1], by rw [if_pos h1]⟩
      intro i hi
      rw [List.all_eq_true] at h1
      have a := h1 i (List.mem_range.mpr (by omega))
      have b := h1 (i + 1) (List.mem_range.mpr (by omega))
      simp only [decide_eq_true_eq] at a b
      rw [a, b]
    · exact ⟨σ, hσ, by rw [if_neg h1], by rw [if_neg h1]⟩

lemma sortGhosts_spec (E : XEnv X w) (r : ℕ) (z : List (ℕ × ℤ))
    (hσ : Perm.IsSort z.length (fun i => (z.map (·.1)).getD i 0) (E.sort r (z.map (·.1)))) :
    ∃ z' : List (ℕ × ℤ), z'.Perm z ∧ z'.Pairwise (fun a b => a.1 ≤ b.1) ∧ sortGhosts E r (z.map (·.1)) (z.map (·.2)) = some (z'.map (·.1), z'.map (·.2)) := by
  obtain ⟨τ, ⟨hτ1, hτ2⟩, hτ3, hτ4⟩ := sortByKey_both hσ (fun i => (z.map (·.2))[i]?)
  have hτlt : ∀ i < z.length, τ i < z.length := by
    intro i h
    have := hτ1.mem_iff.mp (List.mem_map_of_mem (List.mem_range.mpr h))
    exact List.mem_range.mp this
  set z' := (List.range z.length).map (fun i => z.getD (τ i) (0, 0)) with hz'
  have hget : ∀ i < z.length, z[i]? = some (z.getD i (0, 0)) := by
    intro i hi
    simp [List.getD_eq_getElem?_getD, hi]
  have hperm : z'.Perm z := by
    have h1 := hτ1.map (fun i => z.getD i (0, 0))
    rw [List.map_map] at h1
    have h2 : (List.range z.length).map (fun i => z.getD i (0, 0)) = z := by
      apply List.ext_getElem
      · simp
      · intro i h1 h2; simp [List.getD_eq_getElem?_getD, h2]
    rw [h2] at h1
    exact h1
  have hk : ∀ i < z.length, (z.map (·.1)).getD i 0 = (z.getD i (0, 0)).1 := by
    intro i hi
    simp [List.getD_eq_getElem?_getD, hi]
  have hmono : ∀ i j, i < j → j < z.length → (z.map (·.1)).getD (τ i) 0 ≤ (z.map (·.1)).getD (τ j) 0 := by
    intro i j hij hj
    induction j with
    | zero => omega
    | succ j ih =>
      rcases Nat.lt_succ_iff_lt_or_eq.mp hij with h | h
      · exact (ih h (by omega)).trans (hτ2 j hj)
      · subst h; exact hτ2 i hj
  refine ⟨z', hperm, ?_, ?_⟩
  · rw [hz', List.pairwise_map]
    refine (List.pairwise_lt_range.imp_of_mem ?_)
    intro i j hi hj hij
    have hj := List.mem_range.mp hj
    have := hmono i j hij hj
    rwa [hk _ (hτlt i (by omega)), hk _ (hτlt j hj)] at this
  · unfold sortGhosts
    simp only [List.length_map]
    rw [hτ3, hτ4]
    have e1 : (List.range z.length).map (fun i => (z.map (·.2))[τ i]?) = (z'.map (·.2)).map some := by
      rw [hz', List.map_map, List.map_map]
      apply List.map_congr_left
      intro i hi
      have hi := hτlt i (List.mem_range.mp hi)
      simp [hi]
    have e2 : (List.range z.length).map (fun i => (z.map (·.1)).getD (τ i) 0) = z'.map (·.1) := by
      rw [hz', List.map_map]
      apply List.map_congr_left
      intro i hi
      exact hk _ (hτlt i (List.mem_range.mp hi))
    rw [e1, e2, initialised_map_some]
    rfl

/-! ## Groups -/

lemma filter_slice {α : Type} (l : List α) (p : α → Bool) (a b : ℕ) (hb : b ≤ l.length) (hp : ∀ i (h : i < l.length), p l[i] = true ↔ a ≤ i ∧ i < b) :
    l.filter p = slice l a b := by
  unfold slice
  by_cases hab : a ≤ b
  · have h1 : l = l.take a ++ ((l.drop a).take (b - a) ++ l.drop b) := by
      have : l.drop b = (l.drop a).drop (b - a) := by rw [List.drop_drop]; congr 1; omega
      rw [this, List.take_append_drop, List.take_append_drop]
    conv_lhs => rw [h1]
    rw [List.filter_append, List.filter_append]
    have f1 : (l.take a).filter p = [] := by
      rw [List.filter_eq_nil_iff]
      intro x hx
      obtain ⟨i, hi, rfl⟩ := List.mem_iff_getElem.mp hx
      rw [List.length_take] at hi
      rw [List.getElem_take, hp i (by omega)]
      omega
    have f2 : ((l.drop a).take (b - a)).filter p = (l.drop a).take (b - a) := by
      rw [List.filter_eq_self]
      intro x hx
      obtain ⟨i, hi, rfl⟩ := List.mem_iff_getElem.mp hx
      rw [List.length_take, List.length_drop] at hi
      rw [List.getElem_take, List.getElem_drop, hp (a + i) (by omega)]
      omega
    have f3 : (l.drop b).filter p = [] := by
      rw [List.filter_eq_nil_iff]
      intro x hx
      obtain ⟨i, hi, rfl⟩ := List.mem_iff_getElem.mp hx
      rw [List.length_drop] at hi
      rw [List.getElem_drop, hp (b + i) (by omega)]
      omega
    rw [f1, f2, f3]
    simp
  · have : b - a = 0 := by omega
    rw [this, List.take_zero, List.filter_eq_nil_iff]
    intro x hx
    obtain ⟨i, hi, rfl⟩ := List.mem_iff_getElem.mp hx
    rw [hp i hi]
    omega

/-- The labels received for a point. -/
def labelsOf (z : List (ℕ × ℤ)) (id : ℕ) : List ℤ := (z.filter (fun e => decide (e.1 = id))).map (·.2)

lemma mem_labelsOf {z : List (ℕ × ℤ)} {id : ℕ} {x : ℤ} : x ∈ labelsOf z id ↔ (id, x) ∈ z := by
  unfold labelsOf
  rw [List.mem_map]
  constructor
  · rintro ⟨⟨i, y⟩, he, rfl⟩
    rw [List.mem_filter, decide_eq_true_eq] at he
    obtain ⟨h1, h2⟩ := he
    simp only at h2
    subst h2
    exact h1
  · intro h
    exact ⟨(id, x), by rw [List.mem_filter]; exact ⟨h, by simp⟩, rfl⟩

lemma pairsOf_nil (core : Bool) (own : ℤ) : pairsOf core own [] = [] := by
  unfold pairsOf
  rw [if_pos]
  split_ifs <;> simp

lemma ownLabel_nil (core : Bool) (own : ℤ) : ownLabel core own [] = own := by
  unfold ownLabel
  rw [if_pos]
  split_ifs <;> simp

lemma foldl_min (l : List ℤ) (a : ℤ) :
    l.foldl (fun m x => min x m) a ≤ a ∧ (∀ x ∈ l, l.foldl (fun m x => min x m) a ≤ x) ∧
      (l.foldl (fun m x => min x m) a = a ∨ l.foldl (fun m x => min x m) a ∈ l) := by
  induction l generalizing a with
  | nil => simp
  | cons b l ih =>
    rw [List.foldl_cons]
    obtain ⟨h1, h2, h3⟩ := ih (min b a)
    refine ⟨h1.trans (min_le_right _ _), fun x hx => ?_, ?_⟩
    · rcases List.mem_cons.mp hx with rfl | hx
      · exact h1.trans (min_le_left _ _)
      · exact h2 x hx
    · rcases h3 with h3 | h3
      · rcases min_choice b a with h | h
        · rw [h] at h3 ⊢; right; rw [h3]; simp
        · rw [h] at h3 ⊢; left; exact h3
      · right; exact List.mem_cons_of_mem _ h3

lemma pairsOf_length (core : Bool) (own : ℤ) (ghost : List ℤ) : (pairsOf core own ghost).length ≤ ghost.length := by
  unfold pairsOf
  by_cases h1 : ghost.length + (if own ≠ -1 then 1 else 0) < 2
  · rw [if_pos h1]; simp
  rw [if_neg h1]
  by_cases h2 : (!core) = true
  · rw [if_pos h2]; simp
  rw [if_neg h2]
  simp only [List.length_append, List.length_map]
  by_cases ho : own ≠ -1
  · rw [if_pos ho]
    obtain ⟨k1, k2, k3⟩ := foldl_min ghost own
    by_cases he : own = ghost.foldl (fun m l => min l m) own
    · rw [if_neg (fun h => h.2 he)]
      have := List.length_filter_le (fun l => decide (l ≠ ghost.foldl (fun m l => min l m) own)) ghost
      rw [List.length_nil, Nat.zero_add]
      exact this
    · rw [if_pos ⟨ho, he⟩]
      have hm := k3.resolve_left (fun h => he h.symm)
      have : (ghost.filter (fun l => decide (l ≠ ghost.foldl (fun m l => min l m) own))).length < ghost.length :=
        List.length_filter_lt_length_iff_exists.mpr ⟨_, hm, by simp⟩
      rw [List.length_singleton]
      omega
  · rw [if_neg (show ¬ (own ≠ -1 ∧ _) from fun h => ho h.1), List.length_nil, Nat.zero_add]
    exact List.length_filter_le _ ghost

lemma foldl_set (f : ℕ → ℕ) (v : ℕ → ℤ) (order : List ℕ) (hn : order.Pairwise (fun i j => f i ≠ f j)) (l : List ℤ) :
    (order.foldl (fun l i => l.set (f i) (v i)) l).length = l.length ∧
    (∀ i ∈ order, f i < l.length → (order.foldl (fun l i => l.set (f i) (v i)) l)[f i]? = some (v i)) ∧
    ∀ k, (∀ i ∈ order, f i ≠ k) → (order.foldl (fun l i => l.set (f i) (v i)) l)[k]? = l[k]? := by
  induction order generalizing l with
  | nil => simp
  | cons a order ih =>
    rw [List.foldl_cons]
    obtain ⟨hn1, hn2⟩ := List.pairwise_cons.mp hn
    obtain ⟨h1, h2, h3⟩ := ih hn2 (l.set (f a) (v a))
    rw [List.length_set] at h1 h2
    refine ⟨h1, fun i hi hlt => ?_, fun k hk => ?_⟩
    · rcases List.mem_cons.mp hi with rfl | hi
      · rw [h3 (f i) (fun j hj e => hn1 j hj e.symm), List.getElem?_set_self hlt]
      · exact h2 i hi hlt
    · rw [h3 k (fun i hi => hk i (List.mem_cons_of_mem _ hi)), List.getElem?_set_ne (hk a (by simp))]

/-- `computeMergePairs` on sorted data. -/
lemma mergePairs_spec (E : XEnv X w) (r : ℕ) (hm : ∀ n, (E.mergeOrder r n).Perm (List.range n)) (core : ℕ → Bool) (own : List ℤ) (z : List (ℕ × ℤ))
    (hs : z.Pairwise (fun a b => a.1 ≤ b.1)) (hid : ∀ e ∈ z, e.1 < own.length) (offsets : List ℕ)
    (ho : Perm.IsOffsets z.length (fun i => (z.map (·.1)).getD i 0) offsets) :
    ∃ pairs labels, mergePairs E r core own offsets (z.map (·.1)) (z.map (·.2)) = some (pairs, labels) ∧
      (∀ p, p ∈ pairs ↔ ∃ id < own.length, p ∈ pairsOf (core id) (own.getD id 0) (labelsOf z id)) ∧
      labels = (List.range own.length).map (fun id => ownLabel (core id) (own.getD id 0) (labelsOf z id)) := by
  set view : ℕ → ℕ := fun i => (z.map (·.1)).getD i 0 with hview
  have hv : ∀ i (h : i < z.length), view i = z[i].1 := fun i h => by simp [hview, List.getD_eq_getElem?_getD, h]
  have hord : ∀ i j, i ≤ j → j < z.length → view i ≤ view j := by
    intro i j hij hj
    rcases Nat.lt_or_eq_of_le hij with h | h
    · rw [hv i (by omega), hv j hj]
      exact List.pairwise_iff_getElem.mp hs i j (by omega) hj h
    · rw [h]
  have hne : offsets ≠ [] := by
    intro h
    have := ho.head
    rw [h] at this
    simp at this
  have hpos : 0 < offsets.length := List.length_pos_iff.mpr hne
  set n := offsets.length - 1 with hn
  have hget : ∀ i ≤ n, offsets[i]? = some (offsets.getD i 0) := by
    intro i hi
    have : i < offsets.length := by omega
    simp [List.getD_eq_getElem?_getD, this]
  have h0 : offsets.getD 0 0 = 0 := by
    have := ho.head
    rw [List.head?_eq_getElem?] at this
    rw [List.getD_eq_getElem?_getD, this]
    rfl
  have hlast : offsets.getD n 0 = z.length := by
    have := ho.last
    rw [List.getLast?_eq_getElem?] at this
    rw [List.getD_eq_getElem?_getD, this]
    rfl
  have hlt : ∀ i j, i < j → j ≤ n → offsets.getD i 0 < offsets.getD j 0 := by
    intro i j hij hj
    have := List.pairwise_iff_getElem.mp ho.sorted i j (by omega) (by omega) hij
    simpa [List.getD_eq_getElem?_getD, show i < offsets.length by omega, show j < offsets.length by omega] using this
  have hbound : ∀ i ≤ n, offsets.getD i 0 ≤ z.length := by
    intro i hi
    rcases Nat.lt_or_eq_of_le hi with h | h
    · have := hlt i n h le_rfl; omega
    · rw [h, hlast]
  have hgroup : ∀ k < n, ∀ i < z.length, (view i = view (offsets.getD k 0) ↔ offsets.getD k 0 ≤ i ∧ i < offsets.getD (k + 1) 0) := by
    intro k hk i hi
    exact Perm.offsets_groups z.length view offsets ho hord k _ _ (hget k hk.le) (hget (k + 1) (by omega)) i hi
  have hgid : ∀ k, groupId offsets (z.map (·.1)) k = view (offsets.getD k 0) := fun k => rfl
  have hglab : ∀ k < n, groupLabels offsets (z.map (·.2)) k = labelsOf z (groupId offsets (z.map (·.1)) k) := by
    intro k hk
    unfold groupLabels labelsOf
    rw [filter_slice z _ (offsets.getD k 0) (offsets.getD (k + 1) 0) (hbound _ (by omega)) (by
      intro i hi
      rw [decide_eq_true_eq, hgid, ← hgroup k hk i hi, hv i hi])]
    unfold slice
    rw [List.map_take, List.map_drop]
  have hinj : ∀ i < n, ∀ j < n, i ≠ j → groupId offsets (z.map (·.1)) i ≠ groupId offsets (z.map (·.1)) j := by
    have : ∀ i j, i < j → j < n → groupId offsets (z.map (·.1)) i ≠ groupId offsets (z.map (·.1)) j := by
      intro i j hij hj he
      have h1 : offsets.getD j 0 < z.length := by have := hlt j n hj le_rfl; omega
      have := (hgroup i (by omega) (offsets.getD j 0) h1).mp (by rw [← hgid, ← hgid]; exact he.symm)
      rcases Nat.lt_or_eq_of_le (show i + 1 ≤ j by omega) with h | h
      · have := hlt (i + 1) j h hj.le; omega
      · rw [h] at this; omega
    intro i hi j hj hij
    rcases Nat.lt_or_gt_of_ne hij with h | h
    · exact this i j h hj
    · exact (this j i h hi).symm
  have hall : ∀ e ∈ z, ∃ k < n, groupId offsets (z.map (·.1)) k = e.1 := by
    intro e he
    obtain ⟨i, hi, rfl⟩ := List.mem_iff_getElem.mp he
    obtain ⟨k, hk, h1, h2⟩ := exists_thread (cut := fun k => offsets.getD k 0) h0 hlast hi
    refine ⟨k, hk, ?_⟩
    rw [hgid, ← (hgroup k hk i hi).mpr ⟨h1, h2⟩, hv i hi]
  have hgm : ∀ k < n, groupId offsets (z.map (·.1)) k < own.length := by
    intro k hk
    have h1 : offsets.getD k 0 < z.length := by have := hlt k n hk le_rfl; omega
    rw [hgid, hv _ h1]
    exact hid _ (List.getElem_mem h1)
  unfold mergePairs
  simp only
  rw [if_pos (by
    rw [List.all_eq_true]
    intro i hi
    obtain ⟨e, he, rfl⟩ := List.mem_map.mp hi
    simpa using hid e he), ← hn]
  have hcap : Crs.scan (fun i => (pairsOf (core (groupId offsets (z.map (·.1)) i)) (own.getD (groupId offsets (z.map (·.1)) i) 0)
      (groupLabels offsets (z.map (·.2)) i)).length) n ≤ (z.map (·.2)).length := by
    have : ∀ k ≤ n, Crs.scan (fun i => (pairsOf (core (groupId offsets (z.map (·.1)) i)) (own.getD (groupId offsets (z.map (·.1)) i) 0)
        (groupLabels offsets (z.map (·.2)) i)).length) k ≤ offsets.getD k 0 := by
      intro k
      induction k with
      | zero => intro _; simp [Crs.scan]
      | succ k ih =>
        intro hk
        have h1 := ih (by omega)
        simp only [Crs.scan]
        have h2 := pairsOf_length (core (groupId offsets (z.map (·.1)) k)) (own.getD (groupId offsets (z.map (·.1)) k) 0)
          (groupLabels offsets (z.map (·.2)) k)
        have h3 : (groupLabels offsets (z.map (·.2)) k).length ≤ offsets.getD (k + 1) 0 - offsets.getD k 0 := by
          unfold groupLabels slice
          rw [List.length_take]
          exact min_le_left _ _
        have := hlt k (k + 1) (by omega) hk
        omega
    have := this n le_rfl
    rw [List.length_map]
    omega
  rw [scanWrites_spec (hm n) hcap]
  refine ⟨_, _, rfl, fun p => ?_, ?_⟩
  · rw [List.mem_flatMap]
    constructor
    · rintro ⟨k, hk, hp⟩
      have hk := List.mem_range.mp hk
      rw [hglab k hk] at hp
      exact ⟨_, hgm k hk, hp⟩
    · rintro ⟨id, hidl, hp⟩
      cases hl : labelsOf z id with
      | nil => rw [hl, pairsOf_nil] at hp; simp at hp
      | cons x l =>
        have : (id, x) ∈ z := mem_labelsOf.mp (by rw [hl]; simp)
        obtain ⟨k, hk, he⟩ := hall _ this
        simp only at he
        refine ⟨k, List.mem_range.mpr hk, ?_⟩
        rw [hglab k hk, he]
        exact hp
  · have hpw : (E.mergeOrder r n).Pairwise (fun i j => groupId offsets (z.map (·.1)) i ≠ groupId offsets (z.map (·.1)) j) := by
      have hnd : (E.mergeOrder r n).Nodup := (hm n).nodup_iff.mpr List.nodup_range
      refine hnd.imp_of_mem ?_
      intro i j hi hj hij
      exact hinj i (List.mem_range.mp ((hm n).mem_iff.mp hi)) j (List.mem_range.mp ((hm n).mem_iff.mp hj)) hij
    obtain ⟨k1, k2, k3⟩ := foldl_set (fun i => groupId offsets (z.map (·.1)) i) (fun i => ownLabel (core (groupId offsets (z.map (·.1)) i))
      (own.getD (groupId offsets (z.map (·.1)) i) 0) (groupLabels offsets (z.map (·.2)) i)) (E.mergeOrder r n) hpw own
    apply List.ext_getElem?
    intro id
    by_cases hidl : id < own.length
    · rw [List.getElem?_map, List.getElem?_range hidl, Option.map_some]
      by_cases hex : ∃ k < n, groupId offsets (z.map (·.1)) k = id
      · obtain ⟨k, hk, rfl⟩ := hex
        rw [k2 k ((hm n).mem_iff.mpr (List.mem_range.mpr hk)) hidl, hglab k hk]
      · have hnil : labelsOf z id = [] := by
          rw [List.eq_nil_iff_forall_not_mem]
          intro x hx
          exact hex (hall _ (mem_labelsOf.mp hx))
        rw [hnil, ownLabel_nil, k3 id (fun i hi e => hex ⟨i, List.mem_range.mp ((hm n).mem_iff.mp hi), e⟩)]
        simp [List.getD_eq_getElem?_getD, hidl]
    · rw [List.getElem?_eq_none (by rw [k1]; omega), List.getElem?_eq_none (by simpa using hidl)]

variable [SemilatticeSup V] [OrderBot V]

/-- Steps 4 and 5 on one process, which has received `z`. -/
lemma resolve_spec (D : In X V) (E : XEnv X w) (hE : E.Valid D) (r : ℕ) (ghosts : List X) (own : List ℤ) (z : List (ℕ × ℤ))
    (hid : ∀ e ∈ z, e.1 < own.length) :
    ∃ L : ℕ → List ℤ, (∀ id, (L id).Perm (labelsOf z id)) ∧ ∃ pairs labels,
      D.resolve E r ghosts own (z.map (·.1)) (z.map (·.2)) = some (pairs, labels) ∧
      (∀ p, p ∈ pairs ↔ ∃ id < own.length, p ∈ pairsOf (D.isCore r ghosts id) (own.getD id 0) (L id)) ∧
      labels = (List.range own.length).map (fun id => ownLabel (D.isCore r ghosts id) (own.getD id 0) (L id)) := by
  obtain ⟨z', hp, hs, he⟩ := sortGhosts_spec E r z (by have := hE.sort r (z.map (·.1)); rwa [List.length_map] at this)
  refine ⟨labelsOf z', fun id => (hp.filter _).map _, ?_⟩
  unfold In.resolve
  rw [he, Option.bind_some]
  simp only [List.length_map]
  have ho := Perm.computeOffsets_correct z'.length (fun i => (z'.map (·.1)).getD i 0) (E.garbage r) (E.offsetOrder r (z'.length + 1))
    (hE.offsetOrder r _)
  split_ifs with h
  · exact mergePairs_spec E r (hE.mergeOrder r) (D.isCore r ghosts) own z' hs (fun e he => hid e (hp.mem_iff.mp he)) _ ho
  · -- nothing was received
    have hz : z' = [] := by
      by_contra hne
      have hpos := List.length_pos_iff.mpr hne
      have h1 := ho.head
      have h2 := ho.last
      rw [List.head?_eq_getElem?] at h1
      rw [List.getLast?_eq_getElem?] at h2
      have : (Perm.computeOffsets z'.length (fun i => (z'.map (·.1)).getD i 0) (E.garbage r) (E.offsetOrder r (z'.length + 1))).length - 1 = 0 := by omega
      rw [this, h1] at h2
      simp only [Option.some.injEq] at h2
      omega
    refine ⟨[], own, rfl, fun p => ?_, ?_⟩
    · rw [hz]
      simp [labelsOf, pairsOf_nil]
    · rw [hz]
      apply List.ext_getElem
      · simp
      · intro i h1 h2
        simp [labelsOf, ownLabel_nil, List.getD_eq_getElem?_getD, h1]

end ArborX.DistDbscan
