import Verif.Geometry.Expand
import Verif.Geometry.ClosestPoint

/-!
# k-DOPs (C34)

Exact arithmetic in any ordered field. `M` is the largest finite number of the coordinate type.
-/

namespace ArborX.Geometry

variable {K : Type} [Field K] [LinearOrder K] [IsStrictOrderedRing K] {D : ℕ}

/-! ## Model -/

/-- The specialisations of `KDOP_Directions<DIM, k>` (`ArborX_KDOP.hpp` 30-145). -/
inductive Family where
  | d2k4 | d2k8 | d3k6 | d3k14 | d3k18 | d3k26
  deriving DecidableEq

/-- `DIM`. -/
abbrev Family.dim : Family → ℕ
  | .d2k4 => 2
  | .d2k8 => 2
  | .d3k6 => 3
  | .d3k14 => 3
  | .d3k18 => 3
  | .d3k26 => 3

/-- `n_directions` (35, 49, 65, 80, 100, 122). -/
abbrev Family.n : Family → ℕ
  | .d2k4 => 2
  | .d2k8 => 4
  | .d3k6 => 3
  | .d3k14 => 7
  | .d3k18 => 9
  | .d3k26 => 13

/-- `directions()` (36-145). -/
def Family.directions : (f : Family) → Fin f.n → Pt K f.dim
  | .d2k4 => ![![1, 0], ![0, 1]]
  | .d2k8 => ![![1, 0], ![0, 1], ![1, 1], ![1, -1]]
  | .d3k6 => ![![1, 0, 0], ![0, 1, 0], ![0, 0, 1]]
  | .d3k14 => ![![1, 0, 0], ![0, 1, 0], ![0, 0, 1], ![1, 1, 1], ![1, -1, 1], ![1, 1, -1], ![1, -1, -1]]
  | .d3k18 => ![![1, 0, 0], ![0, 1, 0], ![0, 0, 1], ![1, 1, 0], ![1, 0, 1], ![0, 1, 1], ![1, -1, 0], ![1, 0, -1], ![0, 1, -1]]
  | .d3k26 => ![![1, 0, 0], ![0, 1, 0], ![0, 0, 1], ![1, 1, 0], ![1, 0, 1], ![0, 1, 1], ![1, -1, 0], ![1, 0, -1], ![0, 1, -1],
      ![1, 1, 1], ![1, -1, 1], ![1, 1, -1], ![1, -1, -1]]

/-- `KDOP` (151-180): `_min_values` and `_max_values`. -/
@[ext]
structure Kdop (K : Type) (f : Family) where
  lo : Fin f.n → K
  hi : Fin f.n → K

variable {f : Family}

/-- Default constructor (159-168). -/
def Kdop.empty (M : K) : Kdop K f := ⟨fun _ => M, fun _ => -M⟩

/-- `proj_i`: the loops at `ArborX_Expand.hpp` 138-141 and `ArborX_Intersects.hpp` 341-344. -/
def proj (p : Pt K f.dim) (i : Fin f.n) : K := ∑ d, p d * f.directions i d

/-- `expand(KDOP, Point)` (`ArborX_Expand.hpp` 127-147). The loop writes each slot once. -/
def Kdop.expandPoint (k : Kdop K f) (p : Pt K f.dim) : Kdop K f :=
  ⟨fun i => min (k.lo i) (proj p i), fun i => max (k.hi i) (proj p i)⟩

/-- `expand(KDOP, KDOP)` (110-125). -/
def Kdop.expandKdop (k l : Kdop K f) : Kdop K f :=
  ⟨fun i => min (k.lo i) (l.lo i), fun i => max (k.hi i) (l.hi i)⟩

/-- The list of points at 193-198. -/
def corners2 (B : Box K 2) : List (Pt K 2) :=
  [![B.lo 0, B.lo 1], ![B.lo 0, B.hi 1], ![B.hi 0, B.lo 1], ![B.hi 0, B.hi 1]]

/-- The list of points at 175-184. -/
def corners3 (B : Box K 3) : List (Pt K 3) :=
  [![B.lo 0, B.lo 1, B.lo 2], ![B.lo 0, B.hi 1, B.lo 2], ![B.lo 0, B.lo 1, B.hi 2], ![B.lo 0, B.hi 1, B.hi 2],
   ![B.hi 0, B.lo 1, B.lo 2], ![B.hi 0, B.hi 1, B.lo 2], ![B.hi 0, B.lo 1, B.hi 2], ![B.hi 0, B.hi 1, B.hi 2]]

/-- `if constexpr (DIM == 3) … else …` (167-205). -/
def Family.corners : (f : Family) → Box K f.dim → List (Pt K f.dim)
  | .d2k4 => corners2
  | .d2k8 => corners2
  | .d3k6 => corners3
  | .d3k14 => corners3
  | .d3k18 => corners3
  | .d3k26 => corners3

/-- `expand(KDOP, Box)` (149-206). -/
def Kdop.expandBox (k : Kdop K f) (B : Box K f.dim) : Kdop K f :=
  if ∃ d, B.lo d > B.hi d then k else (f.corners B).foldl Kdop.expandPoint k

/-- The first `DIM` directions: `d < DIM` used as an index of directions. -/
def Family.axis : (f : Family) → Fin f.dim → Fin f.n
  | .d2k4 => Fin.castLE (by decide)
  | .d2k8 => Fin.castLE (by decide)
  | .d3k6 => Fin.castLE (by decide)
  | .d3k14 => Fin.castLE (by decide)
  | .d3k18 => Fin.castLE (by decide)
  | .d3k26 => Fin.castLE (by decide)

/-- `expand(Box, KDOP)` (208-224). -/
def Box.expandKdop (B : Box K f.dim) (k : Kdop K f) : Box K f.dim :=
  B.expandBox ⟨fun d => k.lo (f.axis d), fun d => k.hi (f.axis d)⟩

/-- `KDOP::operator Box` (170-175). -/
def Kdop.toBox (M : K) (k : Kdop K f) : Box K f.dim := (Box.empty M).expandKdop k

/-- `intersects(Point, KDOP)` (`ArborX_Intersects.hpp` 331-349). -/
def intersectsPointKdop (p : Pt K f.dim) (k : Kdop K f) : Bool :=
  !decide (∃ i, proj p i < k.lo i ∨ proj p i > k.hi i)

/-- `intersects(KDOP, KDOP)` (350-367). -/
def intersectsKdopKdop (k l : Kdop K f) : Bool :=
  !decide (∃ i, l.hi i < k.lo i ∨ l.lo i > k.hi i)

/-- `intersects(KDOP, Box)` (320-329). -/
def intersectsKdopBox (M : K) (k : Kdop K f) (B : Box K f.dim) : Bool :=
  intersectsKdopKdop k ((Kdop.empty M).expandBox B)

/-- What a k-DOP can be expanded with. -/
inductive KGeom (K : Type) (f : Family) where
  | point (p : Pt K f.dim)
  | box (B : Box K f.dim)
  | kdop (k : Kdop K f)

/-- Dispatch of `expand(KDOP &, Geometry const &)` (26-36). -/
def Kdop.expand (k : Kdop K f) : KGeom K f → Kdop K f
  | .point p => k.expandPoint p
  | .box B => k.expandBox B
  | .kdop l => k.expandKdop l

/-- A reduction (or any sequence) of expansions, as in `Verif.Geometry.Expand`. -/
def Reduction.evalKdop (M : K) (g : ℕ → KGeom K f) : Reduction → Kdop K f
  | .init => Kdop.empty M
  | .iter r i => (r.evalKdop M g).expand (g i)
  | .join r s => (r.evalKdop M g).expandKdop (s.evalKdop M g)

/-! ## Specification -/

/-- The points of a k-DOP: those whose projection on every direction is between the two values. -/
def Kdop.set (k : Kdop K f) : Set (Pt K f.dim) :=
  {x | ∀ i, k.lo i ≤ ∑ d, x d * f.directions i d ∧ ∑ d, x d * f.directions i d ≤ k.hi i}

/-- The points of a geometry. -/
def KGeom.set : KGeom K f → Set (Pt K f.dim)
  | .point p => {p}
  | .box B => B.set
  | .kdop k => k.set

/-! ## Lemmas -/

omit [Field K] [LinearOrder K] [IsStrictOrderedRing K] in
lemma mem_corners (B : Box K f.dim) (s : Fin f.dim → Bool) :
    (fun d => if s d then B.hi d else B.lo d) ∈ f.corners B := by
  have h2 : ∀ (B : Box K 2) (s : Fin 2 → Bool), (fun d => if s d then B.hi d else B.lo d) ∈ corners2 B := by
    intro B s
    have e : (fun d => if s d then B.hi d else B.lo d) = ![if s 0 then B.hi 0 else B.lo 0, if s 1 then B.hi 1 else B.lo 1] := by
      funext d; fin_cases d <;> rfl
    rw [e]
    unfold corners2
    cases s 0 <;> cases s 1 <;> simp
  have h3 : ∀ (B : Box K 3) (s : Fin 3 → Bool), (fun d => if s d then B.hi d else B.lo d) ∈ corners3 B := by
    intro B s
    have e : (fun d => if s d then B.hi d else B.lo d) =
        ![if s 0 then B.hi 0 else B.lo 0, if s 1 then B.hi 1 else B.lo 1, if s 2 then B.hi 2 else B.lo 2] := by
      funext d; fin_cases d <;> rfl
    rw [e]
    unfold corners3
    cases s 0 <;> cases s 1 <;> cases s 2 <;> simp
  cases f
  exacts [h2 B s, h2 B s, h3 B s, h3 B s, h3 B s, h3 B s]

omit [Field K] [IsStrictOrderedRing K] in
lemma corners_mem (B : Box K f.dim) (hB : B.Valid) {c : Pt K f.dim} (hc : c ∈ f.corners B) : c ∈ B.set := by
  have h2 : ∀ (B : Box K 2), B.Valid → ∀ c ∈ corners2 B, c ∈ B.set := by
    intro B hB c hc d
    have h0 := hB 0
    have h1 := hB 1
    simp only [corners2, List.mem_cons, List.not_mem_nil, or_false] at hc
    rcases hc with rfl | rfl | rfl | rfl <;> fin_cases d <;> simp [h0, h1]
  have h3 : ∀ (B : Box K 3), B.Valid → ∀ c ∈ corners3 B, c ∈ B.set := by
    intro B hB c hc d
    have h0 := hB 0
    have h1 := hB 1
    have h2 := hB 2
    simp only [corners3, List.mem_cons, List.not_mem_nil, or_false] at hc
    rcases hc with rfl | rfl | rfl | rfl | rfl | rfl | rfl | rfl <;> fin_cases d <;> simp [h0, h1, h2]
  cases f
  exacts [h2 B hB c hc, h2 B hB c hc, h3 B hB c hc, h3 B hB c hc, h3 B hB c hc, h3 B hB c hc]

lemma foldl_expandPoint (l : List (Pt K f.dim)) (k : Kdop K f) (i : Fin f.n) :
    ((l.foldl Kdop.expandPoint k).lo i ≤ k.lo i ∧ k.hi i ≤ (l.foldl Kdop.expandPoint k).hi i) ∧
    ∀ p ∈ l, (l.foldl Kdop.expandPoint k).lo i ≤ proj p i ∧ proj p i ≤ (l.foldl Kdop.expandPoint k).hi i := by
  induction l generalizing k with
  | nil => exact ⟨⟨le_rfl, le_rfl⟩, fun p hp => absurd hp (by simp)⟩
  | cons q l ih =>
    obtain ⟨⟨h1, h2⟩, h3⟩ := ih (k.expandPoint q)
    rw [List.foldl_cons]
    refine ⟨⟨h1.trans (min_le_left _ _), (le_max_left _ _).trans h2⟩, fun p hp => ?_⟩
    rcases List.mem_cons.mp hp with rfl | hp
    · exact ⟨h1.trans (min_le_right _ _), (le_max_right _ _).trans h2⟩
    · exact h3 p hp

lemma foldl_bounds (l : List (Pt K f.dim)) (k : Kdop K f) (i : Fin f.n) (a b : K) (hk : a ≤ k.lo i ∧ k.hi i ≤ b)
    (hl : ∀ p ∈ l, a ≤ proj p i ∧ proj p i ≤ b) :
    a ≤ (l.foldl Kdop.expandPoint k).lo i ∧ (l.foldl Kdop.expandPoint k).hi i ≤ b := by
  induction l generalizing k with
  | nil => exact hk
  | cons q l ih =>
    rw [List.foldl_cons]
    apply ih
    · obtain ⟨h1, h2⟩ := hl q (by simp)
      exact ⟨le_min hk.1 h1, max_le hk.2 h2⟩
    · exact fun p hp => hl p (List.mem_cons_of_mem _ hp)

/-- The projection of a point of a box is between the projections of two corners. -/
lemma proj_between (B : Box K f.dim) (x : Pt K f.dim) (hx : x ∈ B.set) (i : Fin f.n) :
    (∃ c ∈ f.corners B, proj c i ≤ proj x i) ∧ ∃ c ∈ f.corners B, proj x i ≤ proj c i := by
  constructor
  · refine ⟨_, mem_corners B (fun d => decide (f.directions (K := K) i d < 0)), ?_⟩
    unfold proj
    apply Finset.sum_le_sum
    intro d _
    simp only [decide_eq_true_iff]
    split_ifs with h
    · exact mul_le_mul_of_nonpos_right (hx d).2 h.le
    · exact mul_le_mul_of_nonneg_right (hx d).1 (not_lt.mp h)
  · refine ⟨_, mem_corners B (fun d => decide (0 < f.directions (K := K) i d)), ?_⟩
    unfold proj
    apply Finset.sum_le_sum
    intro d _
    simp only [decide_eq_true_iff]
    split_ifs with h
    · exact mul_le_mul_of_nonneg_right (hx d).2 h.le
    · exact mul_le_mul_of_nonpos_right (hx d).1 (not_lt.mp h)

omit [Field K] [IsStrictOrderedRing K] in
lemma exists_min_mem {α : Type} (l : List α) (v : α → K) {a : α} (ha : a ∈ l) : ∃ c ∈ l, ∀ c' ∈ l, v c ≤ v c' := by
  induction l generalizing a with
  | nil => simp at ha
  | cons b l ih =>
    rcases l with _ | ⟨b', l⟩
    · exact ⟨b, by simp, by simp⟩
    · obtain ⟨c, hc, h⟩ := ih (a := b') (by simp)
      rcases le_total (v b) (v c) with hle | hle
      · exact ⟨b, by simp, fun c' hc' => by
          rcases List.mem_cons.mp hc' with rfl | hc'
          · exact le_rfl
          · exact hle.trans (h c' hc')⟩
      · exact ⟨c, List.mem_cons_of_mem _ hc, fun c' hc' => by
          rcases List.mem_cons.mp hc' with rfl | hc'
          · exact hle
          · exact h c' hc'⟩

/-- Widening. -/
def Kdop.le (k l : Kdop K f) : Prop := ∀ i, l.lo i ≤ k.lo i ∧ k.hi i ≤ l.hi i

lemma Kdop.le_set {k l : Kdop K f} (h : k.le l) : k.set ⊆ l.set :=
  fun _ hx i => ⟨(h i).1.trans (hx i).1, (hx i).2.trans (h i).2⟩

lemma Kdop.le_expand (k : Kdop K f) (g : KGeom K f) : k.le (k.expand g) := by
  intro i
  cases g with
  | point p => exact ⟨min_le_left _ _, le_max_left _ _⟩
  | box B =>
    simp only [Kdop.expand, Kdop.expandBox]
    split_ifs
    · exact ⟨le_rfl, le_rfl⟩
    · exact (foldl_expandPoint _ _ i).1
  | kdop l => exact ⟨min_le_left _ _, le_max_left _ _⟩

lemma Kdop.set_subset_expand (k : Kdop K f) (g : KGeom K f) : g.set ⊆ (k.expand g).set := by
  intro x hx i
  cases g with
  | point p =>
    rw [KGeom.set, Set.mem_singleton_iff] at hx
    subst hx
    exact ⟨min_le_right _ _, le_max_right _ _⟩
  | box B =>
    simp only [Kdop.expand, Kdop.expandBox]
    rw [if_neg]
    · obtain ⟨⟨c, hc, hle⟩, ⟨c', hc', hle'⟩⟩ := proj_between B x hx i
      exact ⟨((foldl_expandPoint _ k i).2 c hc).1.trans hle, hle'.trans ((foldl_expandPoint _ k i).2 c' hc').2⟩
    · rintro ⟨d, hd⟩
      exact absurd ((hx d).1.trans (hx d).2) (not_le.mpr hd)
  | kdop l => exact ⟨(min_le_right _ _).trans (hx i).1, (hx i).2.trans (le_max_right _ _)⟩

/-- The first directions are the axes. -/
lemma proj_axis (x : Pt K f.dim) (d : Fin f.dim) : ∑ e, x e * f.directions (f.axis d) e = x d := by
  cases f <;> fin_cases d <;> simp [Family.directions, Family.axis, Fin.sum_univ_succ, Fin.castLE] <;> rfl

/-! ## Property theorems -/

/-- **C34.** Every geometry a k-DOP was expanded with, in any order and grouping, is contained in it. -/
theorem kdop_contains (M : K) (g : ℕ → KGeom K f) (r : Reduction) : ∀ i ∈ r.iters, (g i).set ⊆ (r.evalKdop M g).set := by
  induction r with
  | init => intro i hi; simp [Reduction.iters] at hi
  | iter r j ih =>
    intro i hi
    rcases List.mem_cons.mp hi with rfl | hi
    · exact Kdop.set_subset_expand _ _
    · exact (ih i hi).trans (Kdop.le_set (Kdop.le_expand _ _))
  | join r s ihr ihs =>
    intro i hi
    rcases List.mem_append.mp hi with hi | hi
    · exact (ihr i hi).trans (Kdop.le_set (Kdop.le_expand _ (.kdop _)))
    · exact (ihs i hi).trans (Kdop.set_subset_expand _ (.kdop _))

/-- **C34.** A k-DOP expanded with points and boxes is the smallest one: it is contained in every k-DOP
of the family that contains them all. -/
theorem kdop_least (M : K) (hM : 0 < M) (g : ℕ → KGeom K f) (r : Reduction) (hg : ∀ i ∈ r.iters, ∀ k, g i ≠ .kdop k)
    (hb : ∀ i ∈ r.iters, ∀ x ∈ (g i).set, ∀ j : Fin f.n, -M ≤ ∑ d, x d * f.directions j d ∧ ∑ d, x d * f.directions j d ≤ M)
    (C : Kdop K f) (hC : ∀ i ∈ r.iters, (g i).set ⊆ C.set) : (r.evalKdop M g).set ⊆ C.set := by
  -- bounds on the result from bounds on the points
  have key : ∀ (r : Reduction), (∀ i ∈ r.iters, ∀ k, g i ≠ .kdop k) → ∀ (j : Fin f.n) (a b : K), a ≤ M → -M ≤ b →
      (∀ i ∈ r.iters, ∀ x ∈ (g i).set, a ≤ proj x j ∧ proj x j ≤ b) → a ≤ (r.evalKdop M g).lo j ∧ (r.evalKdop M g).hi j ≤ b := by
    intro r
    induction r with
    | init => intro _ j a b ha hb _; exact ⟨ha, hb⟩
    | iter r i ih =>
      intro hg j a b ha hb h
      obtain ⟨h1, h2⟩ := ih (fun i' hi' => hg i' (List.mem_cons_of_mem _ hi')) j a b ha hb (fun i' hi' => h i' (List.mem_cons_of_mem _ hi'))
      have hi := h i (List.mem_cons_self)
      have hgi := hg i (List.mem_cons_self)
      simp only [Reduction.evalKdop]
      cases hgi' : g i with
      | point p =>
        rw [hgi'] at hi
        obtain ⟨h3, h4⟩ := hi p rfl
        exact ⟨le_min h1 h3, max_le h2 h4⟩
      | box B =>
        simp only [Kdop.expand, Kdop.expandBox]
        split_ifs with hv
        · exact ⟨h1, h2⟩
        · push Not at hv
          rw [hgi'] at hi
          exact foldl_bounds _ _ j a b ⟨h1, h2⟩ (fun p hp => hi p (corners_mem B hv hp))
      | kdop k => exact absurd hgi' (hgi k)
    | join r s ihr ihs =>
      intro hg j a b ha hb h
      obtain ⟨h1, h2⟩ := ihr (fun i hi => hg i (List.mem_append_left _ hi)) j a b ha hb (fun i hi => h i (List.mem_append_left _ hi))
      obtain ⟨h3, h4⟩ := ihs (fun i hi => hg i (List.mem_append_right _ hi)) j a b ha hb (fun i hi => h i (List.mem_append_right _ hi))
      exact ⟨le_min h1 h3, max_le h2 h4⟩
  intro x hx
  by_cases hne : ∃ i ∈ r.iters, (g i).set.Nonempty
  · obtain ⟨i, hi, y, hy⟩ := hne
    intro j
    obtain ⟨h1, h2⟩ := hC i hi hy j
    obtain ⟨h3, h4⟩ := hb i hi y hy j
    obtain ⟨h5, h6⟩ := key r hg j (C.lo j) (C.hi j) (h1.trans h4) (h3.trans h2) (fun i' hi' z hz => hC i' hi' hz j)
    exact ⟨h5.trans (hx j).1, (hx j).2.trans h6⟩
  · exfalso
    push Not at hne
    have j : Fin f.n := by cases f <;> exact 0
    obtain ⟨h5, h6⟩ := key r hg j M (-M) le_rfl le_rfl (fun i hi z hz => by rw [hne i hi] at hz; exact absurd hz (Set.notMem_empty _))
    linarith [(hx j).1, (hx j).2]

/-- **C34.** The point test is exact. -/
theorem intersects_point_kdop (p : Pt K f.dim) (k : Kdop K f) : intersectsPointKdop p k = true ↔ p ∈ k.set := by
  unfold intersectsPointKdop
  rw [Bool.not_eq_true', decide_eq_false_iff_not]
  push Not
  exact Iff.rfl

/-- **C34.** Two k-DOPs that share a point are never reported disjoint. -/
theorem intersects_kdop_kdop (k l : Kdop K f) (h : (k.set ∩ l.set).Nonempty) : intersectsKdopKdop k l = true := by
  obtain ⟨x, hk, hl⟩ := h
  unfold intersectsKdopKdop
  rw [Bool.not_eq_true', decide_eq_false_iff_not]
  push Not
  exact fun i => ⟨(hk i).1.trans (hl i).2, (hl i).1.trans (hk i).2⟩

/-- **C34.** A k-DOP and a box that share a point are never reported disjoint. -/
theorem intersects_kdop_box (M : K) (k : Kdop K f) (B : Box K f.dim) (h : (k.set ∩ B.set).Nonempty) :
    intersectsKdopBox M k B = true := by
  obtain ⟨x, hk, hB⟩ := h
  exact intersects_kdop_kdop k _ ⟨x, hk, Kdop.set_subset_expand (Kdop.empty M) (.box B) hB⟩

/-- **C34.** If the test reports a k-DOP and a valid box of representable coordinates as intersecting,
no direction of the family separates them: on each direction there are two points, one of the box and one
in the slab of the k-DOP, with the same projection. -/
theorem intersects_kdop_box_slab (M : K) (k : Kdop K f) (B : Box K f.dim) (hB : B.Valid)
    (hb : ∀ x ∈ B.set, ∀ j : Fin f.n, -M ≤ ∑ d, x d * f.directions j d ∧ ∑ d, x d * f.directions j d ≤ M)
    (h : intersectsKdopBox M k B = true) (j : Fin f.n) :
    (∃ x ∈ B.set, ∑ d, x d * f.directions j d ≤ k.hi j) ∧ ∃ x ∈ B.set, k.lo j ≤ ∑ d, x d * f.directions j d := by
  unfold intersectsKdopBox intersectsKdopKdop at h
  rw [Bool.not_eq_true', decide_eq_false_iff_not] at h
  push Not at h
  have hv : ¬∃ d, B.lo d > B.hi d := by push Not; exact hB
  obtain ⟨h1, h2⟩ := h j
  unfold Kdop.expandBox at h1 h2
  rw [if_neg hv] at h1 h2
  have hne : ∃ c, c ∈ f.corners B := ⟨_, mem_corners B (fun _ => true)⟩
  constructor
  · by_contra hn
    push Not at hn
    have hc : k.hi j < M := by
      obtain ⟨c, hc⟩ := hne
      exact (hn c (corners_mem B hB hc)).trans_le (hb c (corners_mem B hB hc) j).2
    -- the smallest projection of a corner
    obtain ⟨c, hc', hmin⟩ : ∃ c ∈ f.corners B, ∀ c' ∈ f.corners B, proj c j ≤ proj c' j := by
      obtain ⟨c0, hc0⟩ := hne
      obtain ⟨c, hc, h⟩ := exists_min_mem (f.corners B) (fun c => proj c j) hc0
      exact ⟨c, hc, h⟩
    have := foldl_bounds (f.corners B) (Kdop.empty M) j (min M (proj c j)) M ⟨min_le_left _ _, by
      have := hb c (corners_mem B hB hc') j
      show -M ≤ M
      exact this.1.trans this.2⟩
      (fun p hp => ⟨(min_le_right _ _).trans (hmin p hp), (hb p (corners_mem B hB hp) j).2⟩)
    rcases min_choice M (proj c j) with e | e
    · rw [e] at this; exact absurd (this.1.trans h2) (not_le.mpr hc)
    · rw [e] at this; exact absurd (this.1.trans h2) (not_le.mpr (hn c (corners_mem B hB hc')))
  · by_contra hn
    push Not at hn
    have hc : -M < k.lo j := by
      obtain ⟨c, hc⟩ := hne
      exact (hb c (corners_mem B hB hc) j).1.trans_lt (hn c (corners_mem B hB hc))
    obtain ⟨c, hc', hmin⟩ : ∃ c ∈ f.corners B, ∀ c' ∈ f.corners B, -proj c j ≤ -proj c' j := by
      obtain ⟨c0, hc0⟩ := hne
      obtain ⟨c, hc, h⟩ := exists_min_mem (f.corners B) (fun c => -proj c j) hc0
      exact ⟨c, hc, h⟩
    have := foldl_bounds (f.corners B) (Kdop.empty M) j (-M) (max (-M) (proj c j)) ⟨by
      have := hb c (corners_mem B hB hc') j
      show -M ≤ M
      exact this.1.trans this.2, le_max_left _ _⟩
      (fun p hp => ⟨(hb p (corners_mem B hB hp) j).1, (neg_le_neg_iff.mp (hmin p hp)).trans (le_max_right _ _)⟩)
    rcases max_choice (-M) (proj c j) with e | e
    · rw [e] at this; exact absurd (h1.trans this.2) (not_le.mpr hc)
    · rw [e] at this; exact absurd (h1.trans this.2) (not_le.mpr (hn c (corners_mem B hB hc')))

/-- **C34.** Expanding a box with a k-DOP, in particular converting it to a box, encloses the k-DOP. -/
theorem box_expand_kdop (B : Box K f.dim) (k : Kdop K f) : k.set ⊆ (B.expandKdop k).set ∧ B.set ⊆ (B.expandKdop k).set := by
  constructor
  · intro x hx d
    have h := hx (f.axis d)
    rw [proj_axis] at h
    exact ⟨(min_le_right _ _).trans h.1, h.2.trans (le_max_right _ _)⟩
  · intro x hx d
    exact ⟨(min_le_left _ _).trans (hx d).1, (hx d).2.trans (le_max_left _ _)⟩

/-- **C34.** Conversion to a box. -/
theorem kdop_to_box (M : K) (k : Kdop K f) : k.set ⊆ (k.toBox M).set := (box_expand_kdop _ k).1

/-! ## Non-vacuity -/

example : intersectsKdopBox (f := .d2k8) (K := ℚ) 100 ((Kdop.empty 100).expandPoint ![0, 0] |>.expandPoint ![2, 2]) ⟨![0, 1], ![1, 2]⟩ = true := by
  decide +kernel
/-- Rejected thanks to the diagonal direction although the bounding boxes overlap. -/
example : intersectsKdopBox (f := .d2k8) (K := ℚ) 100 ((Kdop.empty 100).expandPoint ![0, 0] |>.expandPoint ![2, 2]) ⟨![0, 3/2], ![1/4, 2]⟩ = false := by
  decide +kernel

end ArborX.Geometry
