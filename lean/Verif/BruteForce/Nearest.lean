import Verif.BruteForce.Model
import Verif.Heap.Theorems
import Mathlib.Algebra.Order.Group.Multiset
import Mathlib.Tactic.Abel

/-!
# Property theorems: brute-force nearest query (C12)
-/

set_option linter.unusedSectionVars false

namespace ArborX.BruteForce

open ArborX.Heap (StrictWeak IsHeap)

variable {D : Type} [LinearOrder D]

/-- Specification: `calls` are `min k |stored|` of the positions `stored`, in non-decreasing
distance, and no omitted position is closer than a returned one. -/
def IsNearest (d : ℕ → D) (k : ℕ) (stored calls : List ℕ) : Prop :=
  ∃ omitted : List ℕ, (calls ++ omitted).Perm stored ∧ calls.length = min k stored.length ∧
    calls.Pairwise (fun a b => d a ≤ d b) ∧ ∀ a ∈ calls, ∀ b ∈ omitted, d a ≤ d b

lemma cmp_sw : StrictWeak (cmp (D := D)) :=
  ⟨fun x y h => by simp [cmp] at *; exact h.le,
   fun x y z h1 h2 => by simp [cmp] at *; exact h2.trans h1⟩

lemma fill_spec (d : ℕ → D) (k : ℕ) (js : List ℕ) :
    ∀ (done : List ℕ) (heap : List (ℕ × D)), IsHeap cmp heap heap.length →
    heap.Perm (done.map (fun j => (j, d j))) → done.length + js.length ≤ k →
    ∃ heap', fill d k js heap = some heap' ∧ IsHeap cmp heap' heap'.length ∧
      heap'.Perm ((done ++ js).map (fun j => (j, d j))) := by
  induction js with
  | nil => intro done heap h1 h2 _; exact ⟨heap, rfl, h1, by simpa using h2⟩
  | cons j js ih =>
    intro done heap h1 h2 h3
    have hl : heap.length = done.length := by simpa using h2.length_eq
    simp only [List.length_cons] at h3
    obtain ⟨r, r1, r2, r3⟩ := Heap.push_correct cmp_sw (cap := k) (j, d j) h1 (by omega)
    rw [fill, r1]
    obtain ⟨h', a1, a2, a3⟩ := ih (done ++ [j]) r r2 (by
      rw [List.map_append]
      refine r3.trans ?_
      refine (List.Perm.cons _ h2).trans ?_
      exact (List.perm_append_singleton _ _).symm) (by simp; omega)
    exact ⟨h', a1, a2, by simpa using a3⟩

/-- Pairs of positions and distances. -/
def tag (d : ℕ → D) (l : List ℕ) : List (ℕ × D) := l.map (fun j => (j, d j))

/-- State of the second loop: `lost` is the value replaced without comparison. -/
structure Inv (d : ℕ → D) (inf : D) (first : List ℕ) (seen : List ℕ) (heap : List (ℕ × D))
    (radius : D) (lost rej : List ℕ) (kept : List ℕ) : Prop where
  isHeap : IsHeap cmp heap heap.length
  perm : heap.Perm (tag d kept)
  all : (lost ++ kept ++ rej).Perm seen
  len : kept.length = first.length
  worse : ∀ a ∈ kept, ∀ b ∈ rej, d a ≤ d b
  one : lost.length ≤ 1
  far : ∀ x ∈ lost, x ∈ first ∧ ∀ y ∈ first, d y ≤ d x
  zero : lost = [] → radius = inf ∧ kept.Perm first ∧ ∀ b ∈ rej, inf ≤ d b
  pos : lost ≠ [] → (∃ a ∈ kept, d a = radius) ∧ ∀ a ∈ kept, d a ≤ radius

lemma improve_spec (d : ℕ → D) (inf : D) (hinf : ∀ j, d j ≤ inf) (first : List ℕ) (hf : first ≠ [])
    (js : List ℕ) : ∀ seen heap radius lost rej kept, Inv d inf first seen heap radius lost rej kept →
    ∃ heap' radius' lost' rej' kept', improve d js heap radius = some heap' ∧
      Inv d inf first (seen ++ js) heap' radius' lost' rej' kept' := by
  induction js with
  | nil =>
    intro seen heap radius lost rej kept h
    exact ⟨heap, radius, lost, rej, kept, rfl, by simpa using h⟩
  | cons j js ih =>
    intro seen heap radius lost rej kept h
    rw [improve]
    split_ifs with hj
    · have hne : heap ≠ [] := by
        rintro rfl
        have := h.perm.length_eq
        simp only [tag, List.length_nil, List.length_map, h.len] at this
        exact hf (List.length_eq_zero_iff.mp this.symm)
      obtain ⟨t, r, t1, t2, t3, t4, t5⟩ := Heap.popPush_correct cmp_sw (j, d j) h.isHeap hne
      rw [t3]
      dsimp only
      have htm : t ∈ tag d kept := h.perm.mem_iff.mp (List.mem_of_getElem? (show heap[0]? = some t from t1))
      obtain ⟨x, hx, rfl⟩ := List.mem_map.mp htm
      obtain ⟨l1, l2, hl⟩ := List.append_of_mem hx
      have hk : kept.Perm (x :: (l1 ++ l2)) := by rw [hl]; exact List.perm_middle
      have hmax : ∀ y ∈ kept, d y ≤ d x := by
        intro y hy
        have := t2 (y, d y) (h.perm.mem_iff.mpr (List.mem_map_of_mem hy))
        simpa [cmp] using this
      have hr : r.Perm (tag d (j :: (l1 ++ l2))) := by
        have e : ((x, d x) :: r).Perm ((x, d x) :: tag d (j :: (l1 ++ l2))) := by
          refine t5.trans ((h.perm.cons _).trans ?_)
          refine ((hk.map (fun j => (j, d j))).cons _).trans ?_
          simp only [tag, List.map_cons]
          exact List.Perm.swap _ _ _
        exact (List.perm_cons _).mp e
      have hrne : r ≠ [] := by
        rintro rfl
        have := hr.length_eq
        simp [tag] at this
      obtain ⟨t', ht'⟩ : ∃ t', Heap.top r = some t' := by
        obtain ⟨y, r', rfl⟩ := List.exists_cons_of_ne_nil hrne
        exact ⟨y, rfl⟩
      rw [ht']
      dsimp only
      obtain ⟨z, hz, rfl⟩ := List.mem_map.mp
        (hr.mem_iff.mp (List.mem_of_getElem? (show r[0]? = some t' from ht')))
      have hzmax : ∀ y ∈ j :: (l1 ++ l2), d y ≤ d z := by
        intro y hy
        have hmem : (y, d y) ∈ r := hr.mem_iff.mpr (List.mem_map_of_mem hy)
        obtain ⟨i, hi, he⟩ := List.getElem_of_mem hmem
        have := t4.max cmp_sw (Nat.le_refl _) i hi _ _ ht' (List.getElem?_eq_getElem hi)
        rw [he] at this
        simpa [cmp] using this
      have hsub : ∀ y ∈ l1 ++ l2, y ∈ kept := fun y hy => hk.mem_iff.mpr (by simp only [List.mem_cons]; exact .inr hy)
      have hlen : (j :: (l1 ++ l2)).length = first.length := by
        have := hk.length_eq; rw [← h.len, this]; simp
      have hall := h.all
      rw [show seen ++ j :: js = (seen ++ [j]) ++ js by simp]
      by_cases hlost : lost = []
      · obtain ⟨z1, z2, z3⟩ := h.zero hlost
        subst hlost
        refine ih (seen ++ [j]) r (d z) [x] rej (j :: (l1 ++ l2)) ⟨t4, hr, ?_, hlen, ?_, by simp, ?_, by simp, ?_⟩
        · rw [← Multiset.coe_eq_coe] at hall hk ⊢
          simp only [← Multiset.coe_add, ← Multiset.cons_coe, ← Multiset.singleton_add,
            Multiset.coe_singleton, Multiset.coe_nil] at hall hk ⊢
          rw [← hall, hk]; abel
        · intro a _ b hb
          exact (hinf a).trans (z3 b hb)
        · intro y hy
          simp only [List.mem_singleton] at hy
          subst hy
          exact ⟨z2.mem_iff.mp hx, fun y' hy' => hmax y' (z2.mem_iff.mpr hy')⟩
        · intro _; exact ⟨⟨z, hz, rfl⟩, hzmax⟩
      · obtain ⟨⟨m, hm1, hm2⟩, z2⟩ := h.pos hlost
        have hxr : d x = radius := le_antisymm (z2 x hx) (hm2 ▸ hmax m hm1)
        refine ih (seen ++ [j]) r (d z) lost (x :: rej) (j :: (l1 ++ l2)) ⟨t4, hr, ?_, hlen, ?_, h.one,
          h.far, fun e => absurd e hlost, fun _ => ⟨⟨z, hz, rfl⟩, hzmax⟩⟩
        · rw [← Multiset.coe_eq_coe] at hall hk ⊢
          simp only [← Multiset.coe_add, ← Multiset.cons_coe, ← Multiset.singleton_add,
            Multiset.coe_singleton, Multiset.coe_nil] at hall hk ⊢
          rw [← hall, hk]; abel
        · intro a ha b hb
          have hax : d a ≤ d x := by
            rcases List.mem_cons.mp ha with rfl | ha
            · rw [hxr]; exact hj.le
            · exact hmax a (hsub a ha)
          rcases List.mem_cons.mp hb with rfl | hb
          · exact hax
          · exact hax.trans (h.worse x hx b hb)
    · have hall := h.all
      rw [show seen ++ j :: js = (seen ++ [j]) ++ js by simp]
      refine ih (seen ++ [j]) heap radius lost (j :: rej) kept ⟨h.isHeap, h.perm, ?_, h.len, ?_, h.one,
        h.far, ?_, h.pos⟩
      · rw [← Multiset.coe_eq_coe] at hall ⊢
        simp only [← Multiset.coe_add, ← Multiset.cons_coe, ← Multiset.singleton_add,
            Multiset.coe_singleton, Multiset.coe_nil] at hall ⊢
        rw [← hall]; abel
      · intro a ha b hb
        rcases List.mem_cons.mp hb with rfl | hb
        · by_cases hlost : lost = []
          · rw [(h.zero hlost).1] at hj
            exact (hinf a).trans (not_lt.mp hj)
          · exact ((h.pos hlost).2 a ha).trans (not_lt.mp hj)
        · exact h.worse a ha b hb
      · intro hl
        obtain ⟨z1, z2, z3⟩ := h.zero hl
        refine ⟨z1, z2, fun b hb => ?_⟩
        rcases List.mem_cons.mp hb with rfl | hb
        · exact z1 ▸ not_lt.mp hj
        · exact z3 b hb

/-- **C12 (partial).** The full statement is `IsNearest d k (List.range n) calls`; it is
false of the code, see `brute_force_nearest_wrong`. Proved here, for every number of values, every
`k` and every assignment of distances: the query terminates without fault, and its result
is a correct answer for the values without at most one of them, which is a farthest of the
first `k` values; nothing is lost if there are at most `k` values. -/
theorem brute_force_nearest_partial (d : ℕ → D) (inf : D) (hinf : ∀ j, d j ≤ inf) (n k : ℕ) :
    ∃ calls lost rest, nearest d inf n k = some calls ∧
      (lost ++ rest).Perm (List.range n) ∧ IsNearest d k rest calls ∧
      lost.length ≤ 1 ∧ (n ≤ k → lost = []) ∧
      (∀ x ∈ lost, x < k ∧ ∀ y < k, d y ≤ d x) := by
  unfold nearest
  split_ifs with hk
  · exact ⟨[], [], List.range n, rfl, by simp, ⟨List.range n, by simp, by simp; omega, by simp, by simp⟩,
      by simp, by simp, by simp⟩
  · obtain ⟨heap, a1, a2, a3⟩ := fill_spec d k (List.range (min n k)) [] []
      (by intro p c x y _ _ hp; simp at hp) (by simp) (by simp)
    rw [a1]
    dsimp only
    have hsplit : List.range (min n k) ++ List.range' k (n - k) = List.range n := by
      rcases Nat.le_total n k with h | h
      · rw [Nat.min_eq_left h, Nat.sub_eq_zero_of_le h]; simp
      · rw [Nat.min_eq_right h, List.range_eq_range', List.range_eq_range']
        have := List.range'_append (s := 0) (m := k) (n := n - k) (step := 1)
        simp only [Nat.one_mul, Nat.zero_add] at this
        rw [this]; congr 1; omega
    have fin : ∀ heap' radius' lost rej kept,
        Inv d inf (List.range (min n k)) (List.range n) heap' radius' lost rej kept →
        (n ≤ k → lost = []) →
        ∃ calls lost rest, (match Heap.sortHeap cmp heap' heap'.length with
          | none => none
          | some sorted => some (sorted.map (·.1))) = some calls ∧
          (lost ++ rest).Perm (List.range n) ∧ IsNearest d k rest calls ∧
          lost.length ≤ 1 ∧ (n ≤ k → lost = []) ∧
          (∀ x ∈ lost, x < k ∧ ∀ y < k, d y ≤ d x) := by
      intro heap' radius' lost rej kept h hl
      obtain ⟨srt, s1, s2, s3⟩ := Heap.sortHeap_correct cmp_sw heap' h.isHeap
      rw [s1]
      have hs : srt.Perm (tag d kept) := s2.trans h.perm
      have hsm : ∀ x ∈ srt, x.2 = d x.1 := by
        intro x hx
        obtain ⟨j, -, rfl⟩ := List.mem_map.mp (hs.mem_iff.mp hx)
        rfl
      have hcall : (srt.map (·.1)).Perm kept := by
        have := hs.map (·.1)
        simpa [tag, List.map_map, Function.comp_def] using this
      refine ⟨srt.map (·.1), lost, kept ++ rej, rfl, ?_, ⟨rej, hcall.append_right _, ?_, ?_, ?_⟩,
        h.one, hl, ?_⟩
      · rw [← List.append_assoc]; exact h.all
      · have e1 := h.all.length_eq
        have e2 := h.len
        have e3 := hcall.length_eq
        have e4 := h.one
        simp only [List.length_append, List.length_range] at e1 e2 ⊢
        rcases Nat.lt_or_ge k n with h' | h'
        · omega
        · have := hl h'
          rw [this] at e1
          simp only [List.length_nil] at e1
          omega
      · rw [List.pairwise_map]
        refine List.Pairwise.imp_of_mem ?_ s3
        intro x y hx hy hxy
        simp only [cmp, decide_eq_false_iff_not, not_lt] at hxy
        rw [← hsm x hx, ← hsm y hy]; exact hxy
      · intro a ha b hb
        exact h.worse a (hcall.mem_iff.mp ha) b hb
      · intro x hx
        obtain ⟨f1, f2⟩ := h.far x hx
        have hkn : k < n := by
          by_contra hc
          rw [hl (by omega)] at hx; simp at hx
        rw [Nat.min_eq_right (by omega)] at f1 f2
        exact ⟨List.mem_range.mp f1, fun y hy => f2 y (List.mem_range.mpr hy)⟩
    have hinit : Inv d inf (List.range (min n k)) (List.range (min n k)) heap inf [] []
        (List.range (min n k)) :=
      ⟨a2, by simpa [tag] using a3, by simp, rfl, by simp, by simp, by simp, fun _ => ⟨rfl, .refl _, by simp⟩,
        by simp⟩
    rcases Nat.le_total n k with h | h
    · rw [Nat.sub_eq_zero_of_le h]
      rw [Nat.sub_eq_zero_of_le h, List.range'_zero, List.append_nil] at hsplit
      simp only [List.range'_zero, improve]
      exact fin heap inf [] [] _ (by rw [← hsplit]; simpa [hsplit] using hinit) (by simp)
    · rcases Nat.eq_zero_or_pos n with h0 | h0
      · omega
      obtain ⟨heap', radius', lost, rej, kept, b1, b2⟩ := improve_spec d inf hinf
        (List.range (min n k)) (by simp [List.range_eq_nil]; omega) (List.range' k (n - k)) _ _ _ _ _ _ hinit
      rw [b1]
      dsimp only
      rw [hsplit] at b2
      refine fin heap' radius' lost rej kept b2 ?_
      intro hnk
      have : n = k := by omega
      subst this
      by_contra hne
      have e1 := b2.all.length_eq
      have e2 := b2.len
      simp only [List.length_append, List.length_range] at e1 e2
      have : lost.length ≠ 0 := by simpa using hne
      omega

/-- **C12.** The result is correct if there are at most `k` values, or if the value at
position `k` is not farther than all the `k` values before it. -/
theorem brute_force_nearest_ok (d : ℕ → D) (inf : D) (hinf : ∀ j, d j ≤ inf) (n k : ℕ)
    (hord : k < n → 1 ≤ k → ∃ i < k, d k ≤ d i) :
    ∃ calls, nearest d inf n k = some calls ∧ IsNearest d k (List.range n) calls := by
  obtain ⟨calls, lost, rest, h1, h2, ⟨om, o1, o2, o3, o4⟩, h4, h5, h6⟩ :=
    brute_force_nearest_partial d inf hinf n k
  refine ⟨calls, h1, ?_⟩
  rcases lost with _ | ⟨x, _ | ⟨y, l⟩⟩
  · refine ⟨om, o1.trans (by simpa using h2), ?_, o3, o4⟩
    rw [o2, ← h2.length_eq]; simp
  · obtain ⟨hxk, hxm⟩ := h6 x (by simp)
    have hkn : k < n := by
      by_contra hc
      exact absurd (h5 (by omega)) (by simp)
    have hlen := h2.length_eq
    simp only [List.length_append, List.length_singleton, List.length_range] at hlen
    refine ⟨x :: om, ?_, ?_, o3, ?_⟩
    · refine List.Perm.trans ?_ h2
      exact List.perm_middle.trans (o1.cons x)
    · rw [o2]; simp; omega
    · intro a ha b hb
      rcases List.mem_cons.mp hb with rfl | hb
      · by_contra hlt
        rw [not_le] at hlt
        obtain ⟨i, hi, hki⟩ := hord hkn (by omega)
        -- the values not farther than `x`, other than `x`, are at least `k`
        have hc1 : k ≤ rest.countP (fun j => decide (d j ≤ d b)) := by
          have e1 : (List.range n).countP (fun j => decide (d j ≤ d b)) =
              1 + rest.countP (fun j => decide (d j ≤ d b)) := by
            rw [← h2.countP_eq]; simp; omega
          have e2 : k + 1 ≤ (List.range n).countP (fun j => decide (d j ≤ d b)) := by
            have hs : (List.range (k + 1)).Sublist (List.range n) := by
              rw [List.range_sublist]; omega
            refine le_trans ?_ (hs.countP_le)
            rw [List.countP_eq_length.mpr]
            · simp
            · intro j hj
              rw [List.mem_range] at hj
              simp only [decide_eq_true_eq]
              rcases Nat.lt_or_ge j k with h | h
              · exact hxm j h
              · have : j = k := by omega
                subst this
                exact hki.trans (hxm i hi)
          omega
        have hc2 : rest.countP (fun j => decide (d j ≤ d b)) =
            calls.countP (fun j => decide (d j ≤ d b)) + om.countP (fun j => decide (d j ≤ d b)) := by
          rw [← o1.countP_eq, List.countP_append]
        have hc3 : om.countP (fun j => decide (d j ≤ d b)) = 0 := by
          rw [List.countP_eq_zero]
          intro j hj
          simp only [decide_eq_true_eq, not_le]
          exact lt_of_lt_of_le hlt (o4 a ha j hj)
        have hc4 : calls.countP (fun j => decide (d j ≤ d b)) < calls.length := by
          have := List.countP_le_length (p := fun j => decide (d j ≤ d b)) (l := calls)
          rcases Nat.lt_or_eq_of_le this with h | h
          · exact h
          · rw [List.countP_eq_length] at h
            have := h a ha
            simp only [decide_eq_true_eq] at this
            exact absurd this (not_le.mpr hlt)
        omega
      · exact o4 a ha b hb
  · simp at h4

/-- **C12 (defect).** Two values, the first one closer, one neighbour wanted: the query
returns the second. -/
theorem brute_force_nearest_wrong (d : ℕ → D) (inf : D) (h01 : d 0 < d 1) (h1 : d 1 < inf) :
    nearest d inf 2 1 = some [1] ∧ ¬ IsNearest d 1 (List.range 2) [1] := by
  constructor
  · simp [nearest, fill, improve, Heap.push, Heap.popPush, Heap.top, List.range', h1, Heap.pushHeap,
      Heap.bubbleUp, Heap.bubbleDown, Heap.sortHeap, Heap.popHeap, Heap.write, Heap.pickChild]
  · rintro ⟨om, p1, -, -, p4⟩
    have : 0 ∈ [1] ++ om := p1.mem_iff.mpr (by simp)
    simp only [List.cons_append, List.nil_append, List.mem_cons, OfNat.zero_ne_ofNat, false_or] at this
    have := p4 1 (by simp) 0 (by simpa using this)
    exact absurd h01 (not_lt.mpr this)

/-! ## Non-vacuity -/

/-- Distances 5, 2, 4, 1 with `k = 2`: the hypothesis of `brute_force_nearest_ok` holds. -/
example : (∀ j, ([5, 2, 4, 1].getD j 0 : ℕ) ≤ 100) ∧ ∃ i < 2, ([5, 2, 4, 1].getD 2 0 : ℕ) ≤ [5, 2, 4, 1].getD i 0 := by
  refine ⟨fun j => ?_, 0, by decide, by decide⟩
  rcases j with _ | _ | _ | _ | j <;> simp

end ArborX.BruteForce
