import Verif.Geometry.Spec
import Mathlib.Data.List.Basic
import Mathlib.Data.Fintype.Basic
import Mathlib.Tactic.Linarith
import Mathlib.Tactic.Ring
import Mathlib.Tactic.FinCases
import Mathlib.Tactic.NormNum
import Mathlib.Data.Fin.VecNotation
import Mathlib.Data.Rat.Defs
import Mathlib.Algebra.Order.Ring.Rat

/-!
# Boxes grown with `expand`, and their parallel reduction (C31)
-/

namespace ArborX.Geometry

variable {K : Type} [Field K] [LinearOrder K] [IsStrictOrderedRing K] {D : ℕ}

/-! ## Model -/

/-- Default constructor of `Box` (`ArborX_Box.hpp` 34-44); `M` is the largest finite number of the
coordinate type and `-M` the smallest. -/
def Box.empty (M : K) : Box K D := ⟨fun _ => M, fun _ => -M⟩

/-- `expand(Box, Point)` (`ArborX_Expand.hpp` 42-58). The loop over the dimensions writes each
coordinate once. -/
def Box.expandPoint (B : Box K D) (p : Pt K D) : Box K D :=
  ⟨fun d => min (B.lo d) (p d), fun d => max (B.hi d) (p d)⟩

/-- `expand(Box, Box)` (60-76). -/
def Box.expandBox (B C : Box K D) : Box K D :=
  ⟨fun d => min (B.lo d) (C.lo d), fun d => max (B.hi d) (C.hi d)⟩

/-- `expand(Box, Sphere)` (78-96). -/
def Box.expandSphere (B : Box K D) (S : Sphere K D) : Box K D :=
  ⟨fun d => min (B.lo d) (S.center d - S.radius), fun d => max (B.hi d) (S.center d + S.radius)⟩

/-- `expand(Box, Segment)` (226-234). -/
def Box.expandSegment (B : Box K D) (S : Segment K D) : Box K D := (B.expandPoint S.a).expandPoint S.b

/-- `expand(Box, Triangle)` (98-108). -/
def Box.expandTriangle (B : Box K D) (T : Triangle K D) : Box K D :=
  ((B.expandPoint T.a).expandPoint T.b).expandPoint T.c

/-- `expand(Box, Tetrahedron)` (237-247). -/
def Box.expandTetrahedron (B : Box K D) (T : Tetrahedron K D) : Box K D :=
  (((B.expandPoint T.a).expandPoint T.b).expandPoint T.c).expandPoint T.d

/-- The geometries a box can be expanded with (k-DOPs are in `Verif.Geometry.Kdop`). -/
inductive Geom (K : Type) (D : ℕ) where
  | point (p : Pt K D)
  | box (B : Box K D)
  | sphere (S : Sphere K D)
  | segment (S : Segment K D)
  | triangle (T : Triangle K D)
  | tetrahedron (T : Tetrahedron K D)

/-- Dispatch of `expand(Box &, Geometry const &)` (26-36). -/
def Box.expand (B : Box K D) : Geom K D → Box K D
  | .point p => B.expandPoint p
  | .box C => B.expandBox C
  | .sphere S => B.expandSphere S
  | .segment S => B.expandSegment S
  | .triangle T => B.expandTriangle T
  | .tetrahedron T => B.expandTetrahedron T

/-- A way to carry out the `parallel_reduce` with `GeometryReducer` (`ArborX_Reducer.hpp` 22-66,
`ArborX_TreeConstruction.hpp` 26-39): values are initialised with `init`, iteration `i` expands the
value of its thread, and values of threads are combined with `join`, in any arrangement. -/
inductive Reduction where
  | init
  | iter (r : Reduction) (i : ℕ)
  | join (r s : Reduction)

/-- The iterations a reduction carries out. -/
def Reduction.iters : Reduction → List ℕ
  | .init => []
  | .iter r i => i :: r.iters
  | .join r s => r.iters ++ s.iters

/-- The value computed: the body `expand(update, geometry(i))`, `join` = `expand(dest, src)` and
`init` = default box. -/
def Reduction.eval (M : K) (g : ℕ → Geom K D) : Reduction → Box K D
  | .init => Box.empty M
  | .iter r i => (r.eval M g).expand (g i)
  | .join r s => (r.eval M g).expandBox (s.eval M g)

/-! ## Specification -/

/-- The points of a geometry. -/
def Geom.set : Geom K D → Set (Pt K D)
  | .point p => {p}
  | .box B => B.set
  | .sphere S => S.set
  | .segment S => S.set
  | .triangle T => T.set
  | .tetrahedron T => T.set

/-- Boxes have ordered corners and spheres have a radius that is not negative. -/
def Geom.Valid : Geom K D → Prop
  | .box B => B.Valid
  | .sphere S => 0 ≤ S.radius
  | _ => True

/-- `B` is the smallest box that contains all the given geometries. -/
structure IsLeastBox (B : Box K D) (gs : Set (Geom K D)) : Prop where
  contains : ∀ g ∈ gs, g.set ⊆ B.set
  least : ∀ C : Box K D, (∀ g ∈ gs, g.set ⊆ C.set) → B.set ⊆ C.set

/-- All coordinates of the geometry are representable. -/
def Geom.Bounded (M : K) (g : Geom K D) : Prop := ∀ x ∈ g.set, ∀ d, -M ≤ x d ∧ x d ≤ M

/-! ## Lemmas -/

/-- Containment of a box, on corners. -/
def Box.le (B C : Box K D) : Prop := ∀ d, C.lo d ≤ B.lo d ∧ B.hi d ≤ C.hi d

omit [Field K] [IsStrictOrderedRing K] in
lemma Box.le_set {B C : Box K D} (h : B.le C) : B.set ⊆ C.set :=
  fun _ hx d => ⟨(h d).1.trans (hx d).1, (hx d).2.trans (h d).2⟩

/-- `h` of a geometry: the smallest box with its corners. `lo`/`hi` are attained. -/
lemma Box.expand_spec (B : Box K D) (g : Geom K D) (hv : g.Valid) :
    ∃ H : Box K D, B.expand g = B.expandBox H ∧ H.Valid ∧ g.set ⊆ H.set ∧
      (∀ d, (∃ x ∈ g.set, x d = H.lo d) ∧ (∃ x ∈ g.set, x d = H.hi d)) := by
  cases g with
  | point p =>
    exact ⟨⟨p, p⟩, rfl, fun d => le_rfl, fun x hx d => by rw [Set.mem_singleton_iff.mp hx]; exact ⟨le_rfl, le_rfl⟩,
      fun d => ⟨⟨p, rfl, rfl⟩, ⟨p, rfl, rfl⟩⟩⟩
  | box C =>
    exact ⟨C, rfl, hv, fun x hx => hx, fun d => ⟨⟨C.lo, fun e => ⟨le_rfl, hv e⟩, rfl⟩, ⟨C.hi, fun e => ⟨hv e, le_rfl⟩, rfl⟩⟩⟩
  | sphere S =>
    have hr : 0 ≤ S.radius := hv
    have hmove : ∀ (d : Fin D) (t : K), t ^ 2 = S.radius ^ 2 →
        (fun e => if e = d then S.center e + t else S.center e) ∈ S.set := by
      intro d t ht
      refine ⟨hr, le_of_eq ?_⟩
      unfold dist2
      rw [Finset.sum_eq_single d]
      · simp [ht]
      · intro e _ he; simp [he]
      · intro h; exact absurd (Finset.mem_univ d) h
    refine ⟨⟨fun d => S.center d - S.radius, fun d => S.center d + S.radius⟩, rfl, fun d => by dsimp only; linarith, ?_, ?_⟩
    · intro x hx d
      have h1 : (x d - S.center d) ^ 2 ≤ S.radius ^ 2 :=
        (Finset.single_le_sum (f := fun d => (x d - S.center d) ^ 2) (fun _ _ => sq_nonneg _) (Finset.mem_univ d)).trans hx.2
      have := abs_le.mp (abs_le_of_sq_le_sq h1 hr)
      dsimp only
      constructor <;> linarith [this.1, this.2]
    · intro d
      exact ⟨⟨_, hmove d (-S.radius) (by ring), by simp [sub_eq_add_neg]⟩, ⟨_, hmove d S.radius rfl, by simp⟩⟩
  | segment S =>
    have ha : S.a ∈ S.set := ⟨1, 0, zero_le_one, le_rfl, by ring, fun d => by ring⟩
    have hb : S.b ∈ S.set := ⟨0, 1, le_rfl, zero_le_one, by ring, fun d => by ring⟩
    refine ⟨⟨fun d => min (S.a d) (S.b d), fun d => max (S.a d) (S.b d)⟩, ?_, fun d => min_le_max, ?_, ?_⟩
    · simp only [Box.expand, Box.expandSegment, Box.expandPoint, Box.expandBox, min_assoc, max_assoc]
    · rintro x ⟨u, v, hu, hv, h1, hx⟩ d
      rw [hx d]
      have e1 : ∀ m : K, m = u * m + v * m := fun m => by rw [← add_mul, h1, one_mul]
      dsimp only
      constructor
      · rw [e1 (min (S.a d) (S.b d))]
        exact add_le_add (mul_le_mul_of_nonneg_left (min_le_left _ _) hu) (mul_le_mul_of_nonneg_left (min_le_right _ _) hv)
      · rw [e1 (max (S.a d) (S.b d))]
        exact add_le_add (mul_le_mul_of_nonneg_left (le_max_left _ _) hu) (mul_le_mul_of_nonneg_left (le_max_right _ _) hv)
    · intro d
      dsimp only
      constructor
      · rcases min_choice (S.a d) (S.b d) with h | h <;> rw [h]
        exacts [⟨_, ha, rfl⟩, ⟨_, hb, rfl⟩]
      · rcases max_choice (S.a d) (S.b d) with h | h <;> rw [h]
        exacts [⟨_, ha, rfl⟩, ⟨_, hb, rfl⟩]
  | triangle S =>
    have ha : S.a ∈ S.set := ⟨1, 0, 0, zero_le_one, le_rfl, le_rfl, by ring, fun d => by ring⟩
    have hb : S.b ∈ S.set := ⟨0, 1, 0, le_rfl, zero_le_one, le_rfl, by ring, fun d => by ring⟩
    have hc : S.c ∈ S.set := ⟨0, 0, 1, le_rfl, le_rfl, zero_le_one, by ring, fun d => by ring⟩
    refine ⟨⟨fun d => min (S.a d) (min (S.b d) (S.c d)), fun d => max (S.a d) (max (S.b d) (S.c d))⟩, ?_,
      fun d => (min_le_left _ _).trans (le_max_left _ _), ?_, ?_⟩
    · simp only [Box.expand, Box.expandTriangle, Box.expandPoint, Box.expandBox, min_assoc, max_assoc]
    · rintro x ⟨u, v, w, hu, hv, hw, h1, hx⟩ d
      rw [hx d]
      have e1 : ∀ m : K, m = u * m + v * m + w * m := fun m => by rw [← add_mul, ← add_mul, h1, one_mul]
      dsimp only
      constructor
      · rw [e1 (min (S.a d) (min (S.b d) (S.c d)))]
        exact add_le_add (add_le_add (mul_le_mul_of_nonneg_left (min_le_left _ _) hu)
          (mul_le_mul_of_nonneg_left ((min_le_right _ _).trans (min_le_left _ _)) hv))
          (mul_le_mul_of_nonneg_left ((min_le_right _ _).trans (min_le_right _ _)) hw)
      · rw [e1 (max (S.a d) (max (S.b d) (S.c d)))]
        exact add_le_add (add_le_add (mul_le_mul_of_nonneg_left (le_max_left _ _) hu)
          (mul_le_mul_of_nonneg_left ((le_max_left _ _).trans (le_max_right _ _)) hv))
          (mul_le_mul_of_nonneg_left ((le_max_right _ _).trans (le_max_right _ _)) hw)
    · intro d
      dsimp only
      constructor
      · rcases min_choice (S.a d) (min (S.b d) (S.c d)) with h | h <;> rw [h]
        · exact ⟨_, ha, rfl⟩
        · rcases min_choice (S.b d) (S.c d) with h | h <;> rw [h]
          exacts [⟨_, hb, rfl⟩, ⟨_, hc, rfl⟩]
      · rcases max_choice (S.a d) (max (S.b d) (S.c d)) with h | h <;> rw [h]
        · exact ⟨_, ha, rfl⟩
        · rcases max_choice (S.b d) (S.c d) with h | h <;> rw [h]
          exacts [⟨_, hb, rfl⟩, ⟨_, hc, rfl⟩]
  | tetrahedron S =>
    have ha : S.a ∈ S.set := ⟨1, 0, 0, 0, zero_le_one, le_rfl, le_rfl, le_rfl, by ring, fun d => by ring⟩
    have hb : S.b ∈ S.set := ⟨0, 1, 0, 0, le_rfl, zero_le_one, le_rfl, le_rfl, by ring, fun d => by ring⟩
    have hc : S.c ∈ S.set := ⟨0, 0, 1, 0, le_rfl, le_rfl, zero_le_one, le_rfl, by ring, fun d => by ring⟩
    have hd : S.d ∈ S.set := ⟨0, 0, 0, 1, le_rfl, le_rfl, le_rfl, zero_le_one, by ring, fun d => by ring⟩
    refine ⟨⟨fun d => min (S.a d) (min (S.b d) (min (S.c d) (S.d d))), fun d => max (S.a d) (max (S.b d) (max (S.c d) (S.d d)))⟩, ?_,
      fun d => (min_le_left _ _).trans (le_max_left _ _), ?_, ?_⟩
    · simp only [Box.expand, Box.expandTetrahedron, Box.expandPoint, Box.expandBox, min_assoc, max_assoc]
    · rintro x ⟨t, u, v, w, ht, hu, hv, hw, h1, hx⟩ d
      rw [hx d]
      have e1 : ∀ m : K, m = t * m + u * m + v * m + w * m := fun m => by rw [← add_mul, ← add_mul, ← add_mul, h1, one_mul]
      dsimp only
      constructor
      · rw [e1 (min (S.a d) (min (S.b d) (min (S.c d) (S.d d))))]
        have m1 : min (S.a d) (min (S.b d) (min (S.c d) (S.d d))) ≤ S.a d := min_le_left _ _
        have m2 : min (S.a d) (min (S.b d) (min (S.c d) (S.d d))) ≤ S.b d := (min_le_right _ _).trans (min_le_left _ _)
        have m3 : min (S.a d) (min (S.b d) (min (S.c d) (S.d d))) ≤ S.c d :=
          (min_le_right _ _).trans ((min_le_right _ _).trans (min_le_left _ _))
        have m4 : min (S.a d) (min (S.b d) (min (S.c d) (S.d d))) ≤ S.d d :=
          (min_le_right _ _).trans ((min_le_right _ _).trans (min_le_right _ _))
        exact add_le_add (add_le_add (add_le_add (mul_le_mul_of_nonneg_left m1 ht) (mul_le_mul_of_nonneg_left m2 hu))
          (mul_le_mul_of_nonneg_left m3 hv)) (mul_le_mul_of_nonneg_left m4 hw)
      · rw [e1 (max (S.a d) (max (S.b d) (max (S.c d) (S.d d))))]
        have m1 : S.a d ≤ max (S.a d) (max (S.b d) (max (S.c d) (S.d d))) := le_max_left _ _
        have m2 : S.b d ≤ max (S.a d) (max (S.b d) (max (S.c d) (S.d d))) := (le_max_left _ _).trans (le_max_right _ _)
        have m3 : S.c d ≤ max (S.a d) (max (S.b d) (max (S.c d) (S.d d))) :=
          ((le_max_left _ _).trans (le_max_right _ _)).trans (le_max_right _ _)
        have m4 : S.d d ≤ max (S.a d) (max (S.b d) (max (S.c d) (S.d d))) :=
          ((le_max_right _ _).trans (le_max_right _ _)).trans (le_max_right _ _)
        exact add_le_add (add_le_add (add_le_add (mul_le_mul_of_nonneg_left m1 ht) (mul_le_mul_of_nonneg_left m2 hu))
          (mul_le_mul_of_nonneg_left m3 hv)) (mul_le_mul_of_nonneg_left m4 hw)
    · intro d
      dsimp only
      constructor
      · rcases min_choice (S.a d) (min (S.b d) (min (S.c d) (S.d d))) with h | h <;> rw [h]
        · exact ⟨_, ha, rfl⟩
        · rcases min_choice (S.b d) (min (S.c d) (S.d d)) with h | h <;> rw [h]
          · exact ⟨_, hb, rfl⟩
          · rcases min_choice (S.c d) (S.d d) with h | h <;> rw [h]
            exacts [⟨_, hc, rfl⟩, ⟨_, hd, rfl⟩]
      · rcases max_choice (S.a d) (max (S.b d) (max (S.c d) (S.d d))) with h | h <;> rw [h]
        · exact ⟨_, ha, rfl⟩
        · rcases max_choice (S.b d) (max (S.c d) (S.d d)) with h | h <;> rw [h]
          · exact ⟨_, hb, rfl⟩
          · rcases max_choice (S.c d) (S.d d) with h | h <;> rw [h]
            exacts [⟨_, hc, rfl⟩, ⟨_, hd, rfl⟩]

/-- What the corners of the box of a set of geometries are: the initial value, or attained, and
bounds of everything. -/
structure Corners (M : K) (gs : Set (Geom K D)) (B : Box K D) : Prop where
  lo : ∀ d, B.lo d ≤ M ∧ ∀ g ∈ gs, ∀ x ∈ g.set, B.lo d ≤ x d
  hi : ∀ d, -M ≤ B.hi d ∧ ∀ g ∈ gs, ∀ x ∈ g.set, x d ≤ B.hi d
  loAt : ∀ d, B.lo d = M ∨ ∃ g ∈ gs, ∃ x ∈ g.set, B.lo d = x d
  hiAt : ∀ d, B.hi d = -M ∨ ∃ g ∈ gs, ∃ x ∈ g.set, B.hi d = x d

omit [IsStrictOrderedRing K] in
lemma Corners.unique {M : K} {gs : Set (Geom K D)} {B C : Box K D} (hB : Corners M gs B) (hC : Corners M gs C) : B = C := by
  have h1 : ∀ {B C : Box K D}, Corners M gs B → Corners M gs C → ∀ d, B.lo d ≤ C.lo d := by
    intro B C hB hC d
    rcases hC.loAt d with h | ⟨g, hg, x, hx, h⟩ <;> rw [h]
    exacts [(hB.lo d).1, (hB.lo d).2 g hg x hx]
  have h2 : ∀ {B C : Box K D}, Corners M gs B → Corners M gs C → ∀ d, C.hi d ≤ B.hi d := by
    intro B C hB hC d
    rcases hC.hiAt d with h | ⟨g, hg, x, hx, h⟩ <;> rw [h]
    exacts [(hB.hi d).1, (hB.hi d).2 g hg x hx]
  obtain ⟨a, b⟩ := B
  obtain ⟨a', b'⟩ := C
  have e1 : a = a' := funext (fun d => le_antisymm (h1 hB hC d) (h1 hC hB d))
  have e2 : b = b' := funext (fun d => le_antisymm (h2 hC hB d) (h2 hB hC d))
  rw [e1, e2]

omit [IsStrictOrderedRing K] in
lemma Corners.join {M : K} {gs hs : Set (Geom K D)} {B C : Box K D} (hB : Corners M gs B) (hC : Corners M hs C) :
    Corners M (gs ∪ hs) (B.expandBox C) where
  lo d := ⟨(min_le_left _ _).trans (hB.lo d).1, by
    rintro g (hg | hg) x hx
    · exact (min_le_left _ _).trans ((hB.lo d).2 g hg x hx)
    · exact (min_le_right _ _).trans ((hC.lo d).2 g hg x hx)⟩
  hi d := ⟨(hB.hi d).1.trans (le_max_left _ _), by
    rintro g (hg | hg) x hx
    · exact ((hB.hi d).2 g hg x hx).trans (le_max_left _ _)
    · exact ((hC.hi d).2 g hg x hx).trans (le_max_right _ _)⟩
  loAt d := by
    rcases min_choice (B.lo d) (C.lo d) with h | h
    · rcases hB.loAt d with h' | ⟨g, hg, x, hx, h'⟩
      · left; exact h.trans h'
      · right; exact ⟨g, .inl hg, x, hx, h.trans h'⟩
    · rcases hC.loAt d with h' | ⟨g, hg, x, hx, h'⟩
      · left; exact h.trans h'
      · right; exact ⟨g, .inr hg, x, hx, h.trans h'⟩
  hiAt d := by
    rcases max_choice (B.hi d) (C.hi d) with h | h
    · rcases hB.hiAt d with h' | ⟨g, hg, x, hx, h'⟩
      · left; exact h.trans h'
      · right; exact ⟨g, .inl hg, x, hx, h.trans h'⟩
    · rcases hC.hiAt d with h' | ⟨g, hg, x, hx, h'⟩
      · left; exact h.trans h'
      · right; exact ⟨g, .inr hg, x, hx, h.trans h'⟩

omit [IsStrictOrderedRing K] in
lemma Corners.empty (M : K) : Corners M (∅ : Set (Geom K D)) (Box.empty M) where
  lo _ := ⟨le_rfl, fun g hg => absurd hg (Set.notMem_empty g)⟩
  hi _ := ⟨le_rfl, fun g hg => absurd hg (Set.notMem_empty g)⟩
  loAt _ := .inl rfl
  hiAt _ := .inl rfl

lemma Corners.expand {M : K} {gs : Set (Geom K D)} {B : Box K D} (hB : Corners M gs B) (g : Geom K D) (hv : g.Valid)
    (hM : g.Bounded M) : Corners M (insert g gs) (B.expand g) := by
  obtain ⟨H, e, -, hin, hat⟩ := B.expand_spec g hv
  rw [e, Set.insert_eq, Set.union_comm]
  refine hB.join ⟨fun d => ⟨?_, ?_⟩, fun d => ⟨?_, ?_⟩, fun d => ?_, fun d => ?_⟩
  · obtain ⟨x, hx, h⟩ := (hat d).1
    rw [← h]; exact (hM x hx d).2
  · rintro g' hg' x hx
    rw [Set.mem_singleton_iff.mp hg'] at hx
    exact (hin hx d).1
  · obtain ⟨x, hx, h⟩ := (hat d).2
    rw [← h]; exact (hM x hx d).1
  · rintro g' hg' x hx
    rw [Set.mem_singleton_iff.mp hg'] at hx
    exact (hin hx d).2
  · obtain ⟨x, hx, h⟩ := (hat d).1
    exact .inr ⟨g, rfl, x, hx, h.symm⟩
  · obtain ⟨x, hx, h⟩ := (hat d).2
    exact .inr ⟨g, rfl, x, hx, h.symm⟩

lemma Reduction.corners (M : K) (g : ℕ → Geom K D) : ∀ (r : Reduction), (∀ i ∈ r.iters, (g i).Valid ∧ (g i).Bounded M) →
    Corners M (g '' {i | i ∈ r.iters}) (r.eval M g)
  | .init, _ => by
    have : (g '' {i | i ∈ (Reduction.init).iters}) = ∅ := by
      simp [Reduction.iters]
    rw [this]; exact Corners.empty M
  | .iter r i, h => by
    have := (Reduction.corners M g r (fun j hj => h j (List.mem_cons_of_mem _ hj))).expand (g i)
      (h i List.mem_cons_self).1 (h i List.mem_cons_self).2
    have e : (g '' {j | j ∈ (r.iter i).iters}) = insert (g i) (g '' {j | j ∈ r.iters}) := by
      ext y; simp [Reduction.iters, eq_comm]
    rw [e]; exact this
  | .join r s, h => by
    have := (Reduction.corners M g r (fun j hj => h j (List.mem_append_left _ hj))).join
      (Reduction.corners M g s (fun j hj => h j (List.mem_append_right _ hj)))
    have e : (g '' {j | j ∈ (r.join s).iters}) = (g '' {j | j ∈ r.iters}) ∪ (g '' {j | j ∈ s.iters}) := by
      ext y
      simp only [Reduction.iters, List.mem_append, Set.mem_image, Set.mem_ofPred_eq, Set.mem_union]
      constructor
      · rintro ⟨j, hj | hj, rfl⟩
        exacts [.inl ⟨j, hj, rfl⟩, .inr ⟨j, hj, rfl⟩]
      · rintro (⟨j, hj, rfl⟩ | ⟨j, hj, rfl⟩)
        exacts [⟨j, .inl hj, rfl⟩, ⟨j, .inr hj, rfl⟩]
    rw [e]; exact this

/-! ## Property theorems -/

/-- **C31.** For any geometries (boxes with ordered corners, spheres of radius at least 0, finite
coordinates), any number of dimensions and any arrangement of the parallel reduction, the bounding
box computed is the smallest box containing all of them; with no geometries it is empty. -/
theorem bounding_box_least (M : K) (hM : 0 < M) (hD : 1 ≤ D) (g : ℕ → Geom K D) (n : ℕ)
    (hv : ∀ i < n, (g i).Valid) (hb : ∀ i < n, (g i).Bounded M)
    (r : Reduction) (hr : ∀ i, i ∈ r.iters ↔ i < n) :
    IsLeastBox (r.eval M g) {x | ∃ i < n, x = g i} ∧ (n = 0 → (r.eval M g).set = ∅) := by
  have hc := r.corners M g (fun i hi => ⟨hv i ((hr i).mp hi), hb i ((hr i).mp hi)⟩)
  have hs : g '' {i | i ∈ r.iters} = {x | ∃ i < n, x = g i} := by
    ext y; simp only [Set.mem_image, Set.mem_ofPred_eq, hr, eq_comm]
  rw [hs] at hc
  -- an empty corner comes from the initial value
  have hempty : ∀ x ∈ (r.eval M g).set, ∀ d, (∃ G ∈ {x | ∃ i < n, x = g i}, ∃ y ∈ G.set, (r.eval M g).lo d = y d) ∧
      (∃ G ∈ {x | ∃ i < n, x = g i}, ∃ y ∈ G.set, (r.eval M g).hi d = y d) ∨ n = 0 := by
    intro x hx d
    by_cases h0 : n = 0
    · exact .inr h0
    · left
      have hne : ∃ y, y ∈ (g 0).set := by
        obtain ⟨H, -, -, -, hat⟩ := (Box.empty M : Box K D).expand_spec (g 0) (hv 0 (by omega))
        obtain ⟨y, hy, -⟩ := (hat d).1
        exact ⟨y, hy⟩
      obtain ⟨y, hy⟩ := hne
      have hg0 : g 0 ∈ {x | ∃ i < n, x = g i} := ⟨0, by omega, rfl⟩
      constructor
      · rcases hc.loAt d with h | h
        · refine ⟨g 0, hg0, y, hy, ?_⟩
          exact le_antisymm ((hc.lo d).2 _ hg0 y hy) (h.symm ▸ (hb 0 (by omega) y hy d).2)
        · exact h
      · rcases hc.hiAt d with h | h
        · refine ⟨g 0, hg0, y, hy, ?_⟩
          exact le_antisymm (h.symm ▸ (hb 0 (by omega) y hy d).1) ((hc.hi d).2 _ hg0 y hy)
        · exact h
  have hzero : n = 0 → (r.eval M g).set = ∅ := by
    intro h0
    ext x
    simp only [Set.mem_empty_iff_false, iff_false]
    intro hx
    have d : Fin D := ⟨0, hD⟩
    have hno : ∀ G, G ∉ {x | ∃ i < n, x = g i} := by rintro G ⟨i, hi, -⟩; omega
    have h1 : (r.eval M g).lo d = M := (hc.loAt d).resolve_right (fun ⟨G, hG, _⟩ => hno G hG)
    have h2 : (r.eval M g).hi d = -M := (hc.hiAt d).resolve_right (fun ⟨G, hG, _⟩ => hno G hG)
    have := (hx d).1.trans (hx d).2
    rw [h1, h2] at this
    linarith
  refine ⟨⟨?_, ?_⟩, hzero⟩
  · intro G hG x hx d
    exact ⟨(hc.lo d).2 G hG x hx, (hc.hi d).2 G hG x hx⟩
  · intro C hC x hx d
    rcases hempty x hx d with ⟨⟨G, hG, y, hy, h1⟩, ⟨G', hG', y', hy', h2⟩⟩ | h0
    · exact ⟨(hC G hG hy d).1.trans (h1 ▸ (hx d).1), (h2 ▸ (hx d).2).trans (hC G' hG' hy' d).2⟩
    · rw [hzero h0] at hx; exact absurd hx (Set.notMem_empty x)

/-- **C31.** The corners do not depend on the order or grouping of the reduction. -/
theorem bounding_box_deterministic (M : K) (g : ℕ → Geom K D) (r s : Reduction) (hrs : ∀ i, i ∈ r.iters ↔ i ∈ s.iters)
    (hv : ∀ i ∈ r.iters, (g i).Valid ∧ (g i).Bounded M) : r.eval M g = s.eval M g := by
  have h1 := r.corners M g hv
  have h2 := s.corners M g (fun i hi => hv i ((hrs i).mpr hi))
  have : {i | i ∈ r.iters} = {i | i ∈ s.iters} := by ext i; exact hrs i
  rw [this] at h1
  exact h1.unique h2

/-- The one-node tree (`initializeSingleLeafTree`, `ArborX_TreeConstruction.hpp` 41-69) and a box
grown sequentially: expanding from the empty box is a reduction. -/
def Reduction.sequential : List ℕ → Reduction
  | [] => .init
  | i :: L => .iter (Reduction.sequential L) i

theorem sequential_iters (L : List ℕ) : (Reduction.sequential L).iters = L := by
  induction L with
  | nil => rfl
  | cons i L ih => rw [Reduction.sequential, Reduction.iters, ih]

/-! ## Non-vacuity -/

/-- A point, a sphere and a triangle in the plane. -/
def exampleGeom : ℕ → Geom ℚ 2
  | 0 => .point ![1, 2]
  | 1 => .sphere ⟨![0, 0], 1⟩
  | _ => .triangle ⟨![0, 0], ![3, 0], ![0, -4]⟩

/-- Two threads. -/
def exampleReduction : Reduction := .join (.iter (.iter .init 2) 0) (.iter .init 1)

example : exampleReduction.eval 1000 exampleGeom = ⟨![-1, -4], ![3, 2]⟩ := by
  simp only [exampleReduction, Reduction.eval, exampleGeom, Box.expand, Box.expandTriangle, Box.expandPoint, Box.expandSphere, Box.expandBox,
    Box.empty, Box.mk.injEq]
  constructor <;> (ext d; fin_cases d <;> simp <;> norm_num)


lemma Geom.subset_expand (B : Box K D) (g : Geom K D) (hv : g.Valid) : g.set ⊆ (B.expand g).set := by
  obtain ⟨H, e, -, hin, -⟩ := B.expand_spec g hv
  rw [e]
  intro x hx d
  exact ⟨(min_le_right _ _).trans (hin hx d).1, (hin hx d).2.trans (le_max_right _ _)⟩

example : IsLeastBox (exampleReduction.eval 1000 exampleGeom) {x | ∃ i < 3, x = exampleGeom i} := by
  have hv : ∀ i, (exampleGeom i).Valid := by
    intro i
    match i with
    | 0 => trivial
    | 1 => exact zero_le_one
    | _ + 2 => trivial
  refine (bounding_box_least 1000 (by norm_num) (by norm_num) exampleGeom 3 (fun i _ => hv i) (fun i _ x hx d => ?_) exampleReduction ?_).1
  · have := Geom.subset_expand (Box.empty 0) (exampleGeom i) (hv i) hx d
    match i with
    | 0 | 1 | _ + 2 =>
      simp only [exampleGeom, Box.expand, Box.expandTriangle, Box.expandPoint, Box.expandSphere, Box.empty] at this
      revert this
      fin_cases d <;> simp <;> intro h1 h2 <;> constructor <;> linarith
  · intro i
    simp [exampleReduction, Reduction.iters]
    omega

end ArborX.Geometry
