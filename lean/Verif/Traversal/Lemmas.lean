import Verif.Traversal.Model
import Mathlib.Tactic.SplitIfs
import Mathlib.Tactic.Linarith

set_option linter.unusedSectionVars false

namespace ArborX.Traversal

variable {α V : Type} [SemilatticeSup V]

/-- Specification of a callback loop over a list: call the callback on each
element until it asks to stop. Returns the calls made and whether it stopped. -/
def scan (stop : List α → Bool) : List α → List α → List α × Bool
  | acc, [] => (acc, false)
  | acc, x :: xs => if stop (acc ++ [x]) then (acc ++ [x], true) else scan stop (acc ++ [x]) xs

lemma scan_append (stop : List α → Bool) (acc xs ys : List α) :
    scan stop acc (xs ++ ys) =
      if (scan stop acc xs).2 then scan stop acc xs else scan stop (scan stop acc xs).1 ys := by
  induction xs generalizing acc with
  | nil => simp [scan]
  | cons x xs ih =>
    simp only [List.cons_append, scan]
    split_ifs with h1 h2 h2
    · simp
    · simp at h2
    · rw [ih, if_pos h2]
    · rw [ih, if_neg h2]

lemma BTree.le_vol (f : ℕ → V) (T : BTree) (i : ℕ) (h : i ∈ T.leaves) : f i ≤ T.vol f := by
  induction T with
  | leaf j => simp [BTree.leaves] at h; subst h; exact le_rfl
  | node a b iha ihb =>
    simp only [BTree.leaves, List.mem_append] at h
    rcases h with h | h
    · exact (iha h).trans le_sup_left
    · exact (ihb h).trans le_sup_right

variable {mem : Mem α V} {value : ℕ → α} {vol : α → V} {pl : α → Bool} {pv : V → Bool}
  {stop : List α → Bool}

/-- matching values of a list of leaves -/
def hits (value : ℕ → α) (pl : α → Bool) (l : List ℕ) : List α := (l.map value).filter pl

lemma hits_append (l l' : List ℕ) : hits value pl (l ++ l') = hits value pl l ++ hits value pl l' := by
  simp [hits]

/-- continuation after scanning -/
def cont (mem : Mem α V) (pl : α → Bool) (pv : V → Bool) (stop : List α → Bool) (fuel : ℕ)
    (rope : Option ℕ) (p : List α × Bool) : Res (List α) :=
  if p.2 then .done p.1 else spatialLoop mem pl pv stop fuel rope p.1

lemma loop_tree (mono : ∀ a v, vol a ≤ v → pl a = true → pv v = true) (T : BTree) :
    ∀ id rope acc, Layout mem value vol T id rope →
    ∃ c ≤ T.size, ∀ fuel, spatialLoop mem pl pv stop (fuel + c) (some id) acc =
      cont mem pl pv stop fuel rope (scan stop acc (hits value pl T.leaves)) := by
  induction T with
  | leaf i =>
    rintro id rope acc ⟨rfl, hlt, hl⟩
    refine ⟨1, le_rfl, fun fuel => ?_⟩
    rw [spatialLoop, if_pos hlt, hl]
    dsimp only
    by_cases hp : pl (value id) = true
    · rw [if_pos hp]
      simp only [BTree.leaves, hits, List.map_cons, List.map_nil, List.filter_cons, hp, if_true,
        List.filter_nil, scan]
      by_cases hs : stop (acc ++ [value id]) = true
      · simp [hs, cont]
      · simp [hs, cont]
    · rw [if_neg hp]
      simp [BTree.leaves, hits, hp, scan, cont]
  | node a b iha ihb =>
    rintro id rope acc ⟨ia, ib, hsz, hn, ha, hb⟩
    by_cases hp : pv ((BTree.node a b).vol (fun i => vol (value i))) = true
    · obtain ⟨ca, hca, hfa⟩ := iha ia (some ib) acc ha
      set s1 := scan stop acc (hits value pl a.leaves) with hs1
      obtain ⟨cb, hcb, hfb⟩ := ihb ib rope s1.1 hb
      refine ⟨cb + ca + 1, by simp [BTree.size]; omega, fun fuel => ?_⟩
      rw [← Nat.add_assoc fuel, spatialLoop, if_neg (by omega), hn]
      dsimp only
      rw [if_pos hp, ← Nat.add_assoc, hfa]
      rw [BTree.leaves, hits_append, scan_append, ← hs1]
      by_cases h2 : s1.2 = true
      · simp [cont, h2]
      · rw [if_neg h2]
        simp only [cont, h2, Bool.false_eq_true, if_false]
        rw [hfb]; rfl
    · refine ⟨1, by simp [BTree.size], fun fuel => ?_⟩
      rw [spatialLoop, if_neg (by omega), hn]
      dsimp only
      rw [if_neg hp]
      have : hits value pl (BTree.node a b).leaves = [] := by
        unfold hits
        rw [List.filter_eq_nil_iff]
        intro x hx hpx
        obtain ⟨i, hi, rfl⟩ := List.mem_map.mp hx
        exact hp (mono _ _ (BTree.le_vol (fun i => vol (value i)) _ i hi) hpx)
      rw [this]
      simp [scan, cont]

/-- from the rope of leaf `i` the traversal scans the leaves after `i` -/
lemma loop_after (mono : ∀ a v, vol a ≤ v → pl a = true → pv v = true) (T : BTree) :
    ∀ id rope acc i pre post, Layout mem value vol T id rope → T.leaves = pre ++ i :: post →
    T.leaves.Nodup →
    ∃ lf, mem.leaf i = some lf ∧ lf.value = value i ∧
    ∃ c ≤ T.size, ∀ fuel, spatialLoop mem pl pv stop (fuel + c) lf.rope acc =
      cont mem pl pv stop fuel rope (scan stop acc (hits value pl post)) := by
  induction T with
  | leaf j =>
    rintro id rope acc i pre post ⟨rfl, hlt, hl⟩ he _
    have : pre = [] ∧ i = id ∧ post = [] := by
      cases pre with
      | nil => simp [BTree.leaves] at he; exact ⟨rfl, he.1.symm, he.2.symm ▸ rfl⟩
      | cons x xs => simp [BTree.leaves] at he
    obtain ⟨rfl, rfl, rfl⟩ := this
    exact ⟨_, hl, rfl, 0, by simp, fun fuel => by simp [hits, scan, cont]⟩
  | node a b iha ihb =>
    rintro id rope acc i pre post ⟨ia, ib, hsz, hn, ha, hb⟩ he hnd
    simp only [BTree.leaves] at he hnd
    rw [List.nodup_append] at hnd
    rcases List.append_eq_append_iff.mp he with ⟨as, h1, h2⟩ | ⟨bs, h1, h2⟩
    · -- i in b
      obtain ⟨lf, hl, hv, c, hc, hf⟩ := ihb ib rope acc i as post hb h2 hnd.2.1
      exact ⟨lf, hl, hv, c, by simp [BTree.size]; omega, hf⟩
    · cases bs with
      | nil =>
        simp at h1 h2
        obtain ⟨lf, hl, hv, c, hc, hf⟩ := ihb ib rope acc i [] post hb (by simpa using h2.symm) hnd.2.1
        exact ⟨lf, hl, hv, c, by simp [BTree.size]; omega, hf⟩
      | cons x xs =>
        simp only [List.cons_append, List.cons.injEq] at h2
        obtain ⟨rfl, h2⟩ := h2
        obtain ⟨lf, hl, hv, c, hc, hf⟩ := iha ia (some ib) acc i pre xs ha h1 hnd.1
        set s1 := scan stop acc (hits value pl xs) with hs1
        obtain ⟨cb, hcb, hfb⟩ := loop_tree (stop := stop) mono b ib rope s1.1 hb
        refine ⟨lf, hl, hv, cb + c, by simp [BTree.size]; omega, fun fuel => ?_⟩
        rw [← Nat.add_assoc, hf, h2, hits_append, scan_append, ← hs1]
        by_cases h2 : s1.2 = true
        · simp [cont, h2]
        · rw [if_neg h2]
          simp only [cont, h2, Bool.false_eq_true, if_false]
          rw [hfb]; rfl

lemma scan_false (acc l : List α) : scan (fun _ => false) acc l = (acc ++ l, false) := by
  induction l generalizing acc with
  | nil => simp [scan]
  | cons x xs ih => simp [scan, ih]

lemma size_eq (T : BTree) : T.size + 1 = 2 * T.leaves.length := by
  induction T with
  | leaf i => simp [BTree.size, BTree.leaves]
  | node a b iha ihb => simp [BTree.size, BTree.leaves]; omega

lemma scan_prefix (stop : List α → Bool) (acc l : List α) :
    ∃ p, p <+: l ∧ (scan stop acc l).1 = acc ++ p := by
  induction l generalizing acc with
  | nil => exact ⟨[], by simp, by simp [scan]⟩
  | cons x xs ih =>
    simp only [scan]
    split_ifs
    · exact ⟨[x], by simp, rfl⟩
    · obtain ⟨p, h1, h2⟩ := ih (acc ++ [x])
      exact ⟨x :: p, by simpa using h1, by simp [h2]⟩

lemma scan_spec (stop : List α → Bool) (acc l : List α) :
    ∃ p, p <+: l ∧ (scan stop acc l).1 = acc ++ p ∧
      (∀ q, q <+: p → q ≠ [] → q ≠ p → stop (acc ++ q) = false) ∧
      (p = l ∨ stop (acc ++ p) = true) := by
  induction l generalizing acc with
  | nil => exact ⟨[], by simp, by simp [scan], by simp, .inl rfl⟩
  | cons x xs ih =>
    simp only [scan]
    split_ifs with h
    · refine ⟨[x], by simp, rfl, ?_, .inr h⟩
      intro q hq h1 h2
      rcases hq with ⟨r, hr⟩
      cases q with
      | nil => exact absurd rfl h1
      | cons y ys => simp at hr; simp [hr.1, hr.2.1] at h2
    · obtain ⟨p, h1, h2, h3, h4⟩ := ih (acc ++ [x])
      refine ⟨x :: p, by simpa using h1, by simp [h2], ?_, ?_⟩
      · intro q hq hq1 hq2
        cases q with
        | nil => exact absurd rfl hq1
        | cons y ys =>
          rw [List.cons_prefix_cons] at hq
          obtain ⟨rfl, hq⟩ := hq
          by_cases e : ys = []
          · subst e; simpa using h
          · have := h3 ys hq e (by rintro rfl; exact hq2 rfl)
            simpa using this
      · rcases h4 with rfl | h4
        · exact .inl rfl
        · right; simpa using h4

/-- ordered pairs of a list, earlier element first -/
def pairs : List α → List (α × α)
  | [] => []
  | x :: xs => xs.map (fun y => (x, y)) ++ pairs xs

end ArborX.Traversal
