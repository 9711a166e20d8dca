import Verif.Geometry.Kdop

/-!
# The half-spaces of k-DOPs (C34)

The families of `ArborX_KDOP.hpp` (29-150) are described without their tables of directions: the normals of the facets have entries -1, 0 and 1, and the family says how many of them may differ
from zero.
-/

namespace ArborX.Geometry

variable {K : Type} [Field K] [LinearOrder K] [IsStrictOrderedRing K] {f : Family}

/-! ## Specification -/

/-- How many coordinates of a normal of a facet may differ from zero. One: the facets of a box. Two: its edges are cut off. Three: its corners are cut off. In two dimensions, two: corners. -/
def Family.Allows : Family → ℕ → Prop
  | .d2k4, c => c = 1
  | .d2k8, c => c = 1 ∨ c = 2
  | .d3k6, c => c = 1
  | .d3k14, c => c = 1 ∨ c = 3
  | .d3k18, c => c = 1 ∨ c = 2
  | .d3k26, c => c = 1 ∨ c = 2 ∨ c = 3

/-- The outer normals of the facets. -/
def Family.Normal (f : Family) (v : Pt K f.dim) : Prop :=
  (∀ d, v d = -1 ∨ v d = 0 ∨ v d = 1) ∧ f.Allows (Finset.univ.filter (fun d => v d ≠ 0)).card

/-! ## Lemmas -/

instance (f : Family) : DecidablePred f.Allows := fun c => by cases f <;> unfold Family.Allows <;> infer_instance

/-- The directions as integers. -/
def Family.ints : (f : Family) → Fin f.n → Fin f.dim → ℤ
  | .d2k4 => ![![1, 0], ![0, 1]]
  | .d2k8 => ![![1, 0], ![0, 1], ![1, 1], ![1, -1]]
  | .d3k6 => ![![1, 0, 0], ![0, 1, 0], ![0, 0, 1]]
  | .d3k14 => ![![1, 0, 0], ![0, 1, 0], ![0, 0, 1], ![1, 1, 1], ![1, -1, 1], ![1, 1, -1], ![1, -1, -1]]
  | .d3k18 => ![![1, 0, 0], ![0, 1, 0], ![0, 0, 1], ![1, 1, 0], ![1, 0, 1], ![0, 1, 1], ![1, -1, 0], ![1, 0, -1], ![0, 1, -1]]
  | .d3k26 => ![![1, 0, 0], ![0, 1, 0], ![0, 0, 1], ![1, 1, 0], ![1, 0, 1], ![0, 1, 1], ![1, -1, 0], ![1, 0, -1], ![0, 1, -1],
      ![1, 1, 1], ![1, -1, 1], ![1, 1, -1], ![1, -1, -1]]

omit [LinearOrder K] [IsStrictOrderedRing K] in
lemma directions_ints (i : Fin f.n) (d : Fin f.dim) : f.directions (K := K) i d = (f.ints i d : K) := by
  cases f <;> fin_cases i <;> fin_cases d <;> first | exact Int.cast_one.symm | exact Int.cast_zero.symm | exact (by rw [Int.cast_neg, Int.cast_one] : (-1 : K) = ((-1 : ℤ) : K))

/-- A sign. -/
def sgn (z : Fin 3) : ℤ := (z : ℤ) - 1

/-- The directions and their opposites, over the integers. -/
lemma ints_normal (f : Family) (z : Fin f.dim → Fin 3) :
    f.Allows (Finset.univ.filter (fun d => sgn (z d) ≠ 0)).card ↔ ∃ i, (∀ d, sgn (z d) = f.ints i d) ∨ ∀ d, sgn (z d) = -f.ints i d := by
  cases f with
  | d2k4 => revert z; decide
  | d2k8 => revert z; decide
  | d3k6 => revert z; decide +kernel
  | d3k14 => revert z; decide +kernel
  | d3k18 => revert z; decide +kernel
  | d3k26 => revert z; decide +kernel

lemma card_signs (v : Pt K f.dim) (z : Fin f.dim → Fin 3) (h : ∀ d, v d = (sgn (z d) : K)) :
    (Finset.univ.filter (fun d => v d ≠ 0)).card = (Finset.univ.filter (fun d => sgn (z d) ≠ 0)).card := by
  congr 1
  refine Finset.filter_congr (fun d _ => ?_)
  rw [h, ne_eq, Int.cast_eq_zero]

omit [LinearOrder K] [IsStrictOrderedRing K] in
lemma signs (v : Pt K f.dim) (h : ∀ d, v d = -1 ∨ v d = 0 ∨ v d = 1) : ∃ z : Fin f.dim → Fin 3, ∀ d, v d = (sgn (z d) : K) := by
  have : ∀ d, ∃ z : Fin 3, v d = (sgn z : K) := by
    intro d
    rcases h d with e | e | e
    · exact ⟨0, by rw [e]; simp [sgn]⟩
    · exact ⟨1, by rw [e]; simp [sgn]⟩
    · exact ⟨2, by rw [e]; simp [sgn]⟩
  exact ⟨fun d => (this d).choose, fun d => (this d).choose_spec⟩

/-- Each normal is a direction of the table or its opposite. -/
lemma Family.Normal.direction {v : Pt K f.dim} (h : f.Normal v) : ∃ i, v = f.directions i ∨ v = -f.directions i := by
  obtain ⟨z, hz⟩ := signs v h.1
  have := h.2
  rw [card_signs v z hz, ints_normal] at this
  obtain ⟨i, h | h⟩ := this
  · exact ⟨i, .inl (funext fun d => by rw [hz, h, directions_ints])⟩
  · exact ⟨i, .inr (funext fun d => by rw [hz, h, Pi.neg_apply, directions_ints, Int.cast_neg])⟩

lemma Family.Normal.neg {v : Pt K f.dim} (h : f.Normal v) : f.Normal (-v) := by
  refine ⟨fun d => ?_, ?_⟩
  · rcases h.1 d with e | e | e <;> simp [e]
  · have : (Finset.univ.filter (fun d => (-v) d ≠ 0)) = Finset.univ.filter (fun d => v d ≠ 0) := Finset.filter_congr (fun d _ => by simp)
    rw [this]
    exact h.2

/-- The directions of the table are normals. -/
lemma normal_direction (i : Fin f.n) : f.Normal (f.directions (K := K) i) := by
  have hs : ∀ d, ∃ z : Fin 3, sgn z = f.ints i d := by cases f <;> revert i <;> decide
  choose z hz using hs
  have hv : ∀ d, f.directions (K := K) i d = (sgn (z d) : K) := fun d => by rw [hz, directions_ints]
  refine ⟨fun d => ?_, ?_⟩
  · rw [hv]
    generalize z d = y
    fin_cases y <;> simp [sgn]
  · rw [card_signs _ z hv, ints_normal]
    exact ⟨i, .inl hz⟩

omit [LinearOrder K] [IsStrictOrderedRing K] in
lemma sum_neg_normal (x v : Pt K f.dim) : ∑ d, x d * (-v) d = -∑ d, x d * v d := by
  rw [← Finset.sum_neg_distrib]
  exact Finset.sum_congr rfl (fun d _ => by simp)

omit [IsStrictOrderedRing K] in
/-- The bounds of points are attained. -/
lemma foldl_attained (l : List (Pt K f.dim)) (k : Kdop K f) (j : Fin f.n) (P : Pt K f.dim → Prop) (M : K)
    (hl : k.lo j = M ∨ ∃ p, P p ∧ k.lo j = proj p j) (hh : k.hi j = -M ∨ ∃ p, P p ∧ k.hi j = proj p j) (hP : ∀ p ∈ l, P p) :
    ((l.foldl Kdop.expandPoint k).lo j = M ∨ ∃ p, P p ∧ (l.foldl Kdop.expandPoint k).lo j = proj p j) ∧
      ((l.foldl Kdop.expandPoint k).hi j = -M ∨ ∃ p, P p ∧ (l.foldl Kdop.expandPoint k).hi j = proj p j) := by
  induction l generalizing k with
  | nil => exact ⟨hl, hh⟩
  | cons q l ih =>
    rw [List.foldl_cons]
    refine ih _ ?_ ?_ (fun p hp => hP p (List.mem_cons_of_mem _ hp))
    · rcases min_choice (k.lo j) (proj q j) with e | e
      · rcases hl with h | ⟨p, hp, h⟩
        · exact .inl (e.trans h)
        · exact .inr ⟨p, hp, e.trans h⟩
      · exact .inr ⟨q, hP q List.mem_cons_self, e⟩
    · rcases max_choice (k.hi j) (proj q j) with e | e
      · rcases hh with h | ⟨p, hp, h⟩
        · exact .inl (e.trans h)
        · exact .inr ⟨p, hp, e.trans h⟩
      · exact .inr ⟨q, hP q List.mem_cons_self, e⟩

omit [IsStrictOrderedRing K] in
lemma evalKdop_attained (M : K) (g : ℕ → KGeom K f) (j : Fin f.n) (r : Reduction) (hg : ∀ i ∈ r.iters, ∀ k, g i ≠ .kdop k) :
    ((r.evalKdop M g).lo j = M ∨ ∃ p, (∃ i ∈ r.iters, p ∈ (g i).set) ∧ (r.evalKdop M g).lo j = proj p j) ∧
      ((r.evalKdop M g).hi j = -M ∨ ∃ p, (∃ i ∈ r.iters, p ∈ (g i).set) ∧ (r.evalKdop M g).hi j = proj p j) := by
  induction r with
  | init => exact ⟨.inl rfl, .inl rfl⟩
  | iter r i ih =>
    obtain ⟨hl, hh⟩ := ih (fun i' hi' => hg i' (List.mem_cons_of_mem _ hi'))
    have hl' : (r.evalKdop M g).lo j = M ∨ ∃ p, (∃ i' ∈ (Reduction.iter r i).iters, p ∈ (g i').set) ∧ (r.evalKdop M g).lo j = proj p j :=
      hl.imp_right (fun ⟨p, ⟨i', hi', hp⟩, e⟩ => ⟨p, ⟨i', List.mem_cons_of_mem _ hi', hp⟩, e⟩)
    have hh' : (r.evalKdop M g).hi j = -M ∨ ∃ p, (∃ i' ∈ (Reduction.iter r i).iters, p ∈ (g i').set) ∧ (r.evalKdop M g).hi j = proj p j :=
      hh.imp_right (fun ⟨p, ⟨i', hi', hp⟩, e⟩ => ⟨p, ⟨i', List.mem_cons_of_mem _ hi', hp⟩, e⟩)
    have hgi := hg i List.mem_cons_self
    simp only [Reduction.evalKdop]
    cases e : g i with
    | point p =>
      refine foldl_attained [p] _ j _ M hl' hh' (fun q hq => ⟨i, List.mem_cons_self, ?_⟩)
      rw [e, List.mem_singleton.mp hq]
      rfl
    | box B =>
      simp only [Kdop.expand, Kdop.expandBox]
      split_ifs with hv
      · exact ⟨hl', hh'⟩
      · push Not at hv
        refine foldl_attained _ _ j _ M hl' hh' (fun q hq => ⟨i, List.mem_cons_self, ?_⟩)
        rw [e]
        exact corners_mem B hv hq
    | kdop k => exact absurd e (hgi k)
  | join r s ihr ihs =>
    obtain ⟨hl, hh⟩ := ihr (fun i hi => hg i (List.mem_append_left _ hi))
    obtain ⟨hl', hh'⟩ := ihs (fun i hi => hg i (List.mem_append_right _ hi))
    simp only [Reduction.evalKdop, Kdop.expandKdop]
    constructor
    · rcases min_choice ((r.evalKdop M g).lo j) ((s.evalKdop M g).lo j) with e | e <;> rw [e]
      · exact hl.imp_right (fun ⟨p, ⟨i, hi, hp⟩, e⟩ => ⟨p, ⟨i, List.mem_append_left _ hi, hp⟩, e⟩)
      · exact hl'.imp_right (fun ⟨p, ⟨i, hi, hp⟩, e⟩ => ⟨p, ⟨i, List.mem_append_right _ hi, hp⟩, e⟩)
    · rcases max_choice ((r.evalKdop M g).hi j) ((s.evalKdop M g).hi j) with e | e <;> rw [e]
      · exact hh.imp_right (fun ⟨p, ⟨i, hi, hp⟩, e⟩ => ⟨p, ⟨i, List.mem_append_left _ hi, hp⟩, e⟩)
      · exact hh'.imp_right (fun ⟨p, ⟨i, hi, hp⟩, e⟩ => ⟨p, ⟨i, List.mem_append_right _ hi, hp⟩, e⟩)

/-! ## Property theorem -/

/-- **C34.** What a k-DOP expanded with points and boxes is, without the tables of directions: a point is in it exactly if, in the direction of each normal of the family, some point of
the geometries is at least as far. The projections of the geometries must be representable numbers (`M` is the largest), and there must be a point. -/
theorem kdop_halfspaces (M : K) (g : ℕ → KGeom K f) (r : Reduction) (hg : ∀ i ∈ r.iters, ∀ k, g i ≠ .kdop k)
    (hne : ∃ i ∈ r.iters, (g i).set.Nonempty) (hb : ∀ i ∈ r.iters, ∀ p ∈ (g i).set, ∀ v, f.Normal v → ∑ d, p d * v d ≤ M) (x : Pt K f.dim) :
    x ∈ (r.evalKdop M g).set ↔ ∀ v, f.Normal v → ∃ i ∈ r.iters, ∃ p ∈ (g i).set, ∑ d, x d * v d ≤ ∑ d, p d * v d := by
  obtain ⟨i₀, hi₀, p₀, hp₀⟩ := hne
  constructor
  · intro hx v hv
    obtain ⟨j, rfl | rfl⟩ := hv.direction
    · rcases (evalKdop_attained M g j r hg).2 with e | ⟨p, ⟨i, hi, hp⟩, e⟩
      · refine ⟨i₀, hi₀, p₀, hp₀, (hx j).2.trans ?_⟩
        have := hb i₀ hi₀ p₀ hp₀ _ hv.neg
        rw [sum_neg_normal] at this
        rw [e]
        linarith
      · exact ⟨i, hi, p, hp, (hx j).2.trans e.le⟩
    · simp only [sum_neg_normal]
      rcases (evalKdop_attained M g j r hg).1 with e | ⟨p, ⟨i, hi, hp⟩, e⟩
      · refine ⟨i₀, hi₀, p₀, hp₀, ?_⟩
        have := hb i₀ hi₀ p₀ hp₀ _ hv.neg
        rw [neg_neg] at this
        linarith [(hx j).1]
      · refine ⟨i, hi, p, hp, ?_⟩
        have := (hx j).1
        rw [e] at this
        exact neg_le_neg this
  · intro h j
    constructor
    · obtain ⟨i, hi, p, hp, hle⟩ := h _ (normal_direction j).neg
      rw [sum_neg_normal, sum_neg_normal] at hle
      exact (kdop_contains M g r i hi hp j).1.trans (by linarith)
    · obtain ⟨i, hi, p, hp, hle⟩ := h _ (normal_direction j)
      exact hle.trans (kdop_contains M g r i hi hp j).2

/-! ## Non-vacuity -/

/-- Two points and their 18-DOP: the hypotheses hold, and a point outside is cut off by the normal `(1, -1, 0)`. -/
def kdopExample : ℕ → KGeom ℚ .d3k18 := fun i => .point (if i = 0 then ![0, 0, 0] else ![2, 2, 0])

lemma kdopExample_bounded (v : Pt ℚ 3) (hv : Family.d3k18.Normal v) (i : ℕ) (p : Pt ℚ 3) (hp : p ∈ (kdopExample i).set) : ∑ d, p d * v d ≤ 100 := by
  have hp' : p = if i = 0 then ![0, 0, 0] else ![2, 2, 0] := hp
  have h : ∀ d, -1 ≤ v d ∧ v d ≤ 1 := fun d => by rcases hv.1 d with e | e | e <;> rw [e] <;> norm_num
  have h0 := h 0
  have h1 := h 1
  rw [Fin.sum_univ_three, hp']
  split_ifs
  · show 0 * v 0 + 0 * v 1 + 0 * v 2 ≤ 100
    linarith
  · show 2 * v 0 + 2 * v 1 + 0 * v 2 ≤ 100
    linarith

example : (![1, 1, 0] : Pt ℚ 3) ∈ (((Reduction.init.iter 0).join (Reduction.init.iter 1)).evalKdop 100 kdopExample).set ∧
    (![2, 1, 0] : Pt ℚ 3) ∉ (((Reduction.init.iter 0).join (Reduction.init.iter 1)).evalKdop 100 kdopExample).set := by
  have key := kdop_halfspaces 100 kdopExample ((Reduction.init.iter 0).join (Reduction.init.iter 1)) (fun i _ k => by simp [kdopExample])
    ⟨0, by simp [Reduction.iters], ![0, 0, 0], rfl⟩ (fun i _ p hp v hv => kdopExample_bounded v hv i p hp)
  constructor
  · rw [key]
    intro v hv
    by_cases h : v 0 + v 1 ≤ 0
    · refine ⟨0, by simp [Reduction.iters], ![0, 0, 0], rfl, ?_⟩
      rw [Fin.sum_univ_three, Fin.sum_univ_three]
      simp
      linarith
    · refine ⟨1, by simp [Reduction.iters], ![2, 2, 0], rfl, ?_⟩
      rw [Fin.sum_univ_three, Fin.sum_univ_three]
      simp
      linarith
  · rw [key]
    intro h
    obtain ⟨i, hi, p, hp, hle⟩ := h ![1, -1, 0] ⟨fun d => by fin_cases d <;> simp, by rw [Finset.card_filter, Fin.sum_univ_three]; simp [Family.Allows]⟩
    have hp' : p = if i = 0 then ![0, 0, 0] else ![2, 2, 0] := hp
    rw [Fin.sum_univ_three, Fin.sum_univ_three, hp'] at hle
    split_ifs at hle
    · have : (2 : ℚ) * 1 + 1 * -1 + 0 * 0 ≤ 0 * 1 + 0 * -1 + 0 * 0 := hle
      norm_num at this
    · have : (2 : ℚ) * 1 + 1 * -1 + 0 * 0 ≤ 2 * 1 + 2 * -1 + 0 * 0 := hle
      norm_num at this

end ArborX.Geometry
