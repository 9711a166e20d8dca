import Verif.Verify.Lemmas
import Mathlib.Algebra.BigOperators.Group.Finset.Basic
import Mathlib.Data.Finset.Preimage

/-!
# Lemmas on `verifyClustersAreUnique`
-/

namespace ArborX.Verify

open Dbscan

variable {n minPts : ℕ} {near : ℕ → ℕ → Bool} {rows : ℕ → List ℕ} {lab : ℕ → ℤ} {R : ℕ → Row ℕ}

/-- What is known when the last check starts. -/
structure Ready (n minPts : ℕ) (near : ℕ → ℕ → Bool) (lab : ℕ → ℤ) (R : ℕ → Row ℕ) : Prop where
  symm : ∀ i j, near i j = near j i
  refl : ∀ i < n, near i i = true
  self : ∀ i < n, (R i).1 = ⟨i, lab i, decide (Core n near minPts i)⟩
  mem : ∀ i < n, ∀ e, e ∈ (R i).2 ↔ ∃ j < n, near i j = true ∧ j ≠ i ∧ e = ⟨j, lab j, decide (Core n near minPts j)⟩
  len : ∀ i < n, (R i).2.length + 1 ≤ n
  core : ∀ i < n, Core n near minPts i → 0 ≤ lab i
  share : ∀ i < n, ∀ j < n, Core n near minPts i → Core n near minPts j → near i j = true → lab i = lab j
  noise : ∀ i < n, ¬Core n near minPts i → (¬∃ j < n, near i j = true ∧ Core n near minPts j) → lab i = -1

lemma Linked.symm (hs : ∀ i j, near i j = near j i) {i j : ℕ} (h : Linked n near minPts i j) : Linked n near minPts j i :=
  ⟨h.2.1, h.1, h.2.2.2.1, h.2.2.1, by rw [hs]; exact h.2.2.2.2⟩

lemma Chained.symm (hs : ∀ i j, near i j = near j i) {i j : ℕ} (h : Chained n near minPts i j) : Chained n near minPts j i := by
  induction h with
  | refl => exact .refl
  | tail _ h ih => exact .head (Linked.symm hs h) ih

lemma Chained.core {i j : ℕ} (h : Chained n near minPts i j) (hi : i < n ∧ Core n near minPts i) : j < n ∧ Core n near minPts j := by
  induction h with
  | refl => exact hi
  | tail _ h _ => exact ⟨h.2.1, h.2.2.2.1⟩

lemma Ready.keep (H : Ready n minPts near lab R) (i : ℕ) (hi : i < n) : keepCores R i = if Core n near minPts i then lab i else -1 := by
  rw [keepCores, H.self i hi]
  by_cases hc : Core n near minPts i
  · simp [hc]
  · rw [if_neg hc]
    by_cases hb : ∃ j < n, near i j = true ∧ Core n near minPts j
    · rw [if_pos]
      obtain ⟨j, hj, h1, h2⟩ := hb
      have hji : j ≠ i := by rintro rfl; exact hc h2
      simp only [hc, decide_false, Bool.not_false, Bool.true_and, List.any_cons, Bool.false_or, List.any_eq_true]
      exact ⟨_, (H.mem i hi _).2 ⟨j, hj, h1, hji, rfl⟩, by simpa using h2⟩
    · have := H.noise i hi hc hb
      split_ifs
      · rfl
      · exact this

lemma Ready.chain_label (H : Ready n minPts near lab R) {i j : ℕ} (h : Chained n near minPts i j) : lab i = lab j := by
  induction h with
  | refl => rfl
  | tail _ h ih => rw [ih]; exact H.share _ h.1 _ h.2.1 h.2.2.1 h.2.2.2.1 h.2.2.2.2

/-- The labels of the points that are not yet visited. -/
def Left (n : ℕ) (lab : ℕ → ℤ) (U : ℕ → Prop) (s : ℕ → ℤ) : Prop := ∀ k < n, (U k ∧ s k = lab k) ∨ (¬U k ∧ s k = -1)

lemma mem_pushed (H : Ready n minPts near lab R) (id : ℤ) (k : ℕ) (hk : k < n) :
    (∀ j ∈ pushed R id k, j < n ∧ near k j = true) ∧ (∀ j < n, near k j = true → Core n near minPts j → j ∈ pushed R id k) ∧ (pushed R id k).length ≤ n := by
  refine ⟨fun j hj => ?_, fun j hj h1 h2 => ?_, ?_⟩
  · obtain ⟨e, he, rfl⟩ := List.mem_map.1 hj
    rcases List.mem_cons.1 (List.mem_filter.1 he).1 with rfl | h
    · rw [H.self k hk]; exact ⟨hk, H.refl k hk⟩
    · obtain ⟨j, hj', h1, _, rfl⟩ := (H.mem k hk e).1 h
      exact ⟨hj', h1⟩
  · by_cases hjk : j = k
    · refine List.mem_map.2 ⟨_, List.mem_filter.2 ⟨List.mem_cons_self, ?_⟩, ?_⟩
      · rw [H.self k hk]; simp [← hjk, h2]
      · rw [H.self k hk, hjk]
    · exact List.mem_map.2 ⟨⟨j, lab j, decide (Core n near minPts j)⟩, List.mem_filter.2 ⟨List.mem_cons_of_mem _ ((H.mem k hk _).2 ⟨j, hj, h1, hjk, rfl⟩), by simp [h2]⟩, rfl⟩
  · rw [pushed, List.length_map]
    exact (List.length_filter_le _ _).trans (H.len k hk)

open Classical in
/-- The number of points left. -/
noncomputable def left (n : ℕ) (U : ℕ → Prop) : ℕ := ((Finset.range n).filter U).card

lemma left_update (U : ℕ → Prop) (k : ℕ) (hk : k < n) (h : U k) : left n (fun j => U j ∧ j ≠ k) + 1 = left n U := by
  classical
  have : ((Finset.range n).filter fun j => U j ∧ j ≠ k) = ((Finset.range n).filter U).erase k := by
    ext j
    simp only [Finset.mem_filter, Finset.mem_erase, Finset.mem_range]
    tauto
  have hm : k ∈ (Finset.range n).filter U := by simp [hk, h]
  unfold left
  convert Finset.card_erase_add_one hm using 2
  convert congrArg Finset.card this

/-- The search from `i` marks the points of its cluster. -/
lemma dfs_spec (H : Ready n minPts near lab R) (i : ℕ) (U0 : ℕ → Prop) (hU0 : ∀ k, U0 k → Core n near minPts k)
    (hclosed : ∀ k j, U0 k → Linked n near minPts k j → U0 j) (id : ℤ) :
    ∀ (fuel : ℕ) (st : List ℕ) (s : ℕ → ℤ) (U : ℕ → Prop), Left n lab U s → (∀ k, U k → U0 k) → (∀ k, U0 k → ¬U k → Chained n near minPts i k) →
      (∀ k ∈ st, k < n ∧ (Core n near minPts k → Chained n near minPts i k)) → (∀ k j, U0 k → ¬U k → Linked n near minPts k j → ¬U j ∨ j ∈ st) →
      (¬U i ∨ i ∈ st) → st.length + n * left n U < fuel →
      ∃ s', dfs n R id fuel st s = some s' ∧ Left n lab (fun k => U0 k ∧ ¬Chained n near minPts i k) s' := by
  intro fuel
  induction fuel with
  | zero => intro st s U _ _ _ _ _ _ h; exact absurd h (Nat.not_lt_zero _)
  | succ fuel ih =>
    intro st s U hL hsub hvis hst hnb hroot hfuel
    cases st with
    | nil =>
      refine ⟨s, rfl, ?_⟩
      have hni : ¬U i := hroot.resolve_right List.not_mem_nil
      have hall : ∀ k, U0 i → Chained n near minPts i k → U0 k ∧ ¬U k := by
        intro k h0 hch
        induction hch with
        | refl => exact ⟨h0, hni⟩
        | tail _ h ih' => exact ⟨hclosed _ _ ih'.1 h, (hnb _ _ ih'.1 ih'.2 h).resolve_right List.not_mem_nil⟩
      have hUiff : ∀ k, U k ↔ U0 k ∧ ¬Chained n near minPts i k := by
        intro k
        constructor
        · intro hk
          refine ⟨hsub k hk, fun hch => ?_⟩
          have : U0 i := by
            have hs := Chained.symm H.symm hch
            clear hch
            have : ∀ m, Chained n near minPts k m → U0 m := by
              intro m hm
              induction hm with
              | refl => exact hsub k hk
              | tail _ h ih' => exact hclosed _ _ ih' h
            exact this i hs
          exact (hall k this hch).2 hk
        · rintro ⟨h0, hch⟩
          by_contra hk
          exact hch (hvis k h0 hk)
      intro k hk
      exact (hL k hk).imp (fun h => ⟨(hUiff k).1 h.1, h.2⟩) fun h => ⟨fun h' => h.1 ((hUiff k).2 h'), h.2⟩
    | cons k st =>
      obtain ⟨hk, hchk⟩ := hst k List.mem_cons_self
      rw [dfs, if_neg (by omega)]
      obtain ⟨p1, p2, p3⟩ := mem_pushed H id k hk
      by_cases hs : 0 ≤ s k
      · rw [if_pos hs]
        have hUk : U k := by
          rcases hL k hk with h | h
          · exact h.1
          · rw [h.2] at hs; exact absurd hs (by norm_num)
        have hck := hU0 k (hsub k hUk)
        have hch := hchk hck
        have hleft := left_update U k hk hUk
        refine ih _ _ (fun j => U j ∧ j ≠ k) ?_ (fun j hj => hsub j hj.1) ?_ ?_ ?_ ?_ ?_
        · intro j hj
          by_cases hjk : j = k
          · right; subst hjk; simp
          · rw [Function.update_of_ne hjk]
            rcases hL j hj with h | h
            · exact .inl ⟨⟨h.1, hjk⟩, h.2⟩
            · exact .inr ⟨fun h' => h.1 h'.1, h.2⟩
        · intro j hj hnj
          by_cases hjk : j = k
          · rw [hjk]; exact hch
          · exact hvis j hj fun h => hnj ⟨h, hjk⟩
        · intro j hj
          rcases List.mem_append.1 hj with h | h
          · obtain ⟨q1, q2⟩ := p1 j (List.mem_reverse.1 h)
            exact ⟨q1, fun hcj => hch.tail ⟨hk, q1, hck, hcj, q2⟩⟩
          · exact hst j (List.mem_cons_of_mem _ h)
        · intro a b ha hna hab
          by_cases hak : a = k
          · right
            subst hak
            exact List.mem_append_left _ (List.mem_reverse.2 (p2 b hab.2.1 hab.2.2.2.2 hab.2.2.2.1))
          · rcases hnb a b ha (fun h => hna ⟨h, hak⟩) hab with h | h
            · exact .inl fun h' => h h'.1
            · rcases List.mem_cons.1 h with rfl | h
              · exact .inl fun h' => h'.2 rfl
              · exact .inr (List.mem_append_right _ h)
        · rcases hroot with h | h
          · exact .inl fun h' => h h'.1
          · rcases List.mem_cons.1 h with rfl | h
            · exact .inl fun h' => h'.2 rfl
            · exact .inr (List.mem_append_right _ h)
        · rw [List.length_append, List.length_reverse]
          rw [List.length_cons, ← hleft] at hfuel
          have : n * (left n (fun j => U j ∧ j ≠ k) + 1) = n * left n (fun j => U j ∧ j ≠ k) + n := Nat.mul_succ _ _
          omega
      · rw [if_neg hs]
        have hUk : ¬U k := by
          rcases hL k hk with h | h
          · intro hu
            rw [h.2] at hs
            exact hs (H.core k hk (hU0 k (hsub k hu)))
          · exact h.1
        refine ih st s U hL hsub hvis (fun j hj => hst j (List.mem_cons_of_mem _ hj)) ?_ ?_ (by rw [List.length_cons] at hfuel; omega)
        · intro a b ha hna hab
          rcases hnb a b ha hna hab with h | h
          · exact .inl h
          · rcases List.mem_cons.1 h with rfl | h
            · exact .inl hUk
            · exact .inr h
        · rcases hroot with h | h
          · exact .inl h
          · rcases List.mem_cons.1 h with rfl | h
            · exact .inl hUk
            · exact .inr h

lemma left_le (U : ℕ → Prop) : left n U ≤ n := by
  classical
  unfold left
  exact (Finset.card_filter_le _ _).trans (by simp)

/-- The loop over the points finds one representative of each cluster. -/
lemma loop_spec (H : Ready n minPts near lab R) (fuel : ℕ) (hfuel : n * n + 1 < fuel) (m : ℕ) (hm : m ≤ n) :
    ∃ (s : ℕ → ℤ) (reps : List ℕ), (List.range m).foldlM (countStep n R fuel) (keepCores R, ∅, 0) = some (s, (reps.map lab).toFinset, reps.length) ∧
      Left n lab (fun k => (k < n ∧ Core n near minPts k) ∧ ∀ r ∈ reps, ¬Chained n near minPts r k) s ∧
      (∀ r ∈ reps, r < n ∧ Core n near minPts r) ∧ reps.Pairwise (fun a b => ¬Chained n near minPts a b) ∧
      ∀ k < m, Core n near minPts k → ∃ r ∈ reps, Chained n near minPts r k := by
  induction m with
  | zero =>
    refine ⟨keepCores R, [], rfl, fun k hk => ?_, by simp, List.Pairwise.nil, by simp⟩
    rw [H.keep k hk]
    by_cases hc : Core n near minPts k
    · exact .inl ⟨⟨⟨hk, hc⟩, by simp⟩, if_pos hc⟩
    · exact .inr ⟨fun h => hc h.1.2, if_neg hc⟩
  | succ m ih =>
    obtain ⟨s, reps, hrun, hL, hreps, hpw, hcov⟩ := ih (by omega)
    rw [List.range_succ, List.foldlM_append, hrun]
    simp only [List.foldlM_cons, List.foldlM_nil, Option.bind_eq_bind, Option.bind_some, Option.pure_def, Option.bind_fun_some]
    rw [countStep]
    dsimp only
    rcases hL m (by omega) with ⟨⟨⟨hmn, hcm⟩, hnot⟩, hs⟩ | ⟨hnot, hs⟩
    · rw [if_pos (by rw [hs]; exact H.core m hmn hcm), hs]
      obtain ⟨s', hd, hL'⟩ := dfs_spec H m (fun k => (k < n ∧ Core n near minPts k) ∧ ∀ r ∈ reps, ¬Chained n near minPts r k) (fun k h => h.1.2)
        (fun k j h hkj => ⟨⟨hkj.2.1, hkj.2.2.2.1⟩, fun r hr hch => h.2 r hr (hch.tail (Linked.symm H.symm hkj))⟩) (lab m) fuel [m] s _ hL (fun k h => h)
        (fun k h h' => absurd h h') (fun k hk => by rw [List.mem_singleton.1 hk]; exact ⟨hmn, fun _ => .refl⟩) (fun k j h h' => absurd h h') (.inr List.mem_cons_self)
        (by
          have := Nat.mul_le_mul_left n (left_le (n := n) fun k => (k < n ∧ Core n near minPts k) ∧ ∀ r ∈ reps, ¬Chained n near minPts r k)
          rw [List.length_singleton]
          omega)
      refine ⟨s', m :: reps, ?_, ?_, ?_, ?_, ?_⟩
      · rw [hd]
        simp
      · intro k hk
        refine (hL' k hk).imp (fun h => ⟨⟨h.1.1.1, fun r hr => ?_⟩, h.2⟩) (fun h => ⟨fun h' => h.1 ⟨⟨h'.1, fun r hr => h'.2 r (List.mem_cons_of_mem _ hr)⟩, h'.2 m List.mem_cons_self⟩, h.2⟩)
        rcases List.mem_cons.1 hr with rfl | hr
        · exact h.1.2
        · exact h.1.1.2 r hr
      · intro r hr
        rcases List.mem_cons.1 hr with rfl | hr
        · exact ⟨hmn, hcm⟩
        · exact hreps r hr
      · exact List.pairwise_cons.2 ⟨fun r hr hch => hnot r hr (Chained.symm H.symm hch), hpw⟩
      · intro k hk hck
        rcases Nat.lt_succ_iff_lt_or_eq.1 hk with h | rfl
        · obtain ⟨r, hr, hch⟩ := hcov k h hck
          exact ⟨r, List.mem_cons_of_mem _ hr, hch⟩
        · exact ⟨k, List.mem_cons_self, .refl⟩
    · rw [if_neg (by rw [hs]; norm_num)]
      refine ⟨s, reps, rfl, hL, hreps, hpw, ?_⟩
      intro k hk hck
      rcases Nat.lt_succ_iff_lt_or_eq.1 hk with h | rfl
      · exact hcov k h hck
      · by_contra hno
        exact hnot ⟨⟨by omega, hck⟩, fun r hr hch => hno ⟨r, hr, hch⟩⟩

/-- The last check holds exactly if core points of different clusters have different labels. -/
lemma clustersUnique_spec (H : Ready n minPts near lab R) (fuel : ℕ) (hfuel : n * n + 1 < fuel) :
    ∃ b, clustersUnique n R fuel = some b ∧
      (b = true ↔ ∀ i < n, ∀ j < n, Core n near minPts i → Core n near minPts j → lab i = lab j → Chained n near minPts i j) := by
  obtain ⟨s, reps, hrun, _, hreps, hpw, hcov⟩ := loop_spec H fuel hfuel n le_rfl
  have huniq : (((List.range n).map (keepCores R)).filter fun l => decide (l ≠ -1)).toFinset = (reps.map lab).toFinset := by
    ext l
    simp only [List.mem_toFinset, List.mem_filter, List.mem_map, List.mem_range, decide_eq_true_eq]
    constructor
    · rintro ⟨⟨i, hi, rfl⟩, hl⟩
      rw [H.keep i hi] at hl ⊢
      by_cases hc : Core n near minPts i
      · rw [if_pos hc]
        obtain ⟨r, hr, hch⟩ := hcov i hi hc
        exact ⟨r, hr, H.chain_label hch⟩
      · rw [if_neg hc] at hl
        exact absurd rfl hl
    · rintro ⟨r, hr, rfl⟩
      obtain ⟨h1, h2⟩ := hreps r hr
      refine ⟨⟨r, h1, by rw [H.keep r h1, if_pos h2]⟩, ?_⟩
      have := H.core r h1 h2
      omega
  rw [clustersUnique, hrun, Option.map_some]
  refine ⟨_, rfl, ?_⟩
  dsimp only
  rw [numUnique, huniq, decide_eq_true (rfl : (reps.map lab).toFinset.card = _), Bool.true_and, decide_eq_true_eq]
  have hnd : reps.length = (reps.map lab).toFinset.card ↔ (reps.map lab).Nodup := by
    rw [← List.length_map (f := lab), eq_comm, List.card_toFinset, ← List.dedup_eq_self]
    constructor
    · intro h
      exact (List.dedup_sublist _).eq_of_length h
    · intro h
      rw [h]
  rw [hnd]
  constructor
  · intro h i hi j hj hci hcj hij
    obtain ⟨a, ha, hai⟩ := hcov i hi hci
    obtain ⟨b, hb, hbj⟩ := hcov j hj hcj
    have : a = b := List.inj_on_of_nodup_map h ha hb (by rw [H.chain_label hai, H.chain_label hbj, hij])
    subst this
    exact (Chained.symm H.symm hai).trans hbj
  · intro h
    rw [List.Nodup, List.pairwise_map]
    refine hpw.imp_of_mem fun {a b} ha hb hab heq => hab (h a (hreps a ha).1 b (hreps b hb).1 (hreps a ha).2 (hreps b hb).2 heq)

end ArborX.Verify
