import Verif.Geometry.Ray
import Verif.Geometry.Barycentric
import Verif.Geometry.Distance
import Mathlib.Tactic.FieldSimp
import Mathlib.Tactic.Positivity
import Mathlib.Tactic.Linarith

/-!
# Rays and triangles, segments and triangles: model and lemmas (C58, C59)

Models `intersection(Ray, Triangle)`, `intersects(Ray, Triangle)` (`src/geometry/ArborX_Ray.hpp` 171-427) and
`intersects(Segment, Triangle)` (`src/geometry/algorithms/ArborX_Intersects.hpp` 487-507) over ℝ. The two
tolerances of the code are kept, as parameters. The second evaluation in double precision (320-329) has
no effect in exact arithmetic and is left out.
-/

namespace ArborX.Geometry

/-! ## Model -/

/-- The constants `epsilon` of `intersection(Ray, Triangle)` (343, `0.0000001f`) and of `rayEdgeIntersect`
(254, `0.00001f`). -/
structure Tol where
  plane : ℝ
  edge : ℝ

/-- `findLargestComp` (171-193). -/
noncomputable def findLargestComp (dir : Pt ℝ 3) : Fin 3 :=
  ([1, 2].foldl (fun (s : Fin 3 × ℝ) i => if |dir i| > s.2 then (i, |dir i|) else s) (0, |dir 0|)).1

/-- `kx`, `ky`, `kz` (274-280). -/
noncomputable def rayAxes (dir : Pt ℝ 3) : Fin 3 × Fin 3 × Fin 3 :=
  let kz := findLargestComp dir
  if dir kz < 0 then (kz + 2, kz + 1, kz) else (kz + 1, kz + 2, kz)

/-- A vertex relative to the origin of the ray, sheared and scaled; the third component is not scaled
(282-313, 351-353). -/
noncomputable def shear (R : Ray ℝ) (mag : ℝ) (p : Pt ℝ 3) : Pt ℝ 3 :=
  let k := rayAxes R.dir
  let s2 := 1 / R.dir k.2.2
  let o := p - R.origin
  ![(o k.1 - R.dir k.1 * s2 * o k.2.2) * mag, (o k.2.1 - R.dir k.2.1 * s2 * o k.2.2) * mag, s2 * o k.2.2]

/-- `mag_oA + mag_oB + mag_oC` (296-300). -/
noncomputable def magSum (R : Ray ℝ) (T : Triangle ℝ 3) : ℝ :=
  Real.sqrt (dot (T.a - R.origin) (T.a - R.origin)) + Real.sqrt (dot (T.b - R.origin) (T.b - R.origin))
    + Real.sqrt (dot (T.c - R.origin) (T.c - R.origin))

/-- `rotate2D` (206-223), the first component; the second one is the third component of the point. -/
noncomputable def rotate2D (x y : ℝ) : ℝ :=
  let r := Real.sqrt (x * x + y * y)
  if x ≠ 0 then (if x > 0 then 1 else -1) * r else (if y > 0 then 1 else -1) * r

/-- `rayEdgeIntersect` (229-256): `t` if it returns true. -/
noncomputable def rayEdge (eps : ℝ) (p q : ℝ × ℝ) : Option ℝ :=
  let y2 := if |p.2| > |q.2| then p.2 else q.2
  let det := y2 * (p.1 - q.1)
  if det = 0 then none
  else
    let t := (p.1 * q.2 - q.1 * p.2) / det * y2
    let u := p.1 * y2 / det
    if u ≥ 0 - eps ∧ u ≤ 1 + eps then some t else none

/-- One of the three updates of `tmin` and `tmax` (372-392). -/
noncomputable def updateRange (s : Option (ℝ × ℝ)) : Option ℝ → Option (ℝ × ℝ)
  | none => s
  | some t => match s with
    | none => some (t, t)
    | some (a, b) => some (min a t, max b t)

/-- The end of `intersection(Ray, Triangle)` (394-413). -/
noncomputable def finishRange (s : ℝ × ℝ) : ℝ × ℝ :=
  if s.1 * s.2 ≤ 0 then (0, 0) else if s.1 < 0 then (s.2, s.1) else s

/-- The part for coplanar rays (361-416), after `A`, `B`, `C` have been computed. -/
noncomputable def coplanarRange (eps : ℝ) (A B C : ℝ × ℝ) : Option (ℝ × ℝ) :=
  (updateRange (updateRange (updateRange none (rayEdge eps A B)) (rayEdge eps B C)) (rayEdge eps C A)).map finishRange

/-- `intersection(Ray, Triangle, tmin, tmax)` from the sheared vertices (315-416): `none` if it returns
false, with `tmin = inf`, `tmax = -inf`, and otherwise `tmin` and `tmax`. -/
noncomputable def shearedRange (tol : Tol) (A B C : Pt ℝ 3) : Option (ℝ × ℝ) :=
  let u := C 0 * B 1 - C 1 * B 0
  let v := A 0 * C 1 - A 1 * C 0
  let w := B 0 * A 1 - B 1 * A 0
  if (u < -tol.plane ∨ v < -tol.plane ∨ w < -tol.plane) ∧ (u > tol.plane ∨ v > tol.plane ∨ w > tol.plane) then none
  else
    let det := u + v + w
    if det < -tol.plane ∨ det > tol.plane then
      let t := (u * A 2 + v * B 2 + w * C 2) / det
      some (t, t)
    else coplanarRange tol.edge (rotate2D (A 0) (A 1), A 2) (rotate2D (B 0) (B 1), B 2) (rotate2D (C 0) (C 1), C 2)

/-- `intersection(Ray, Triangle, tmin, tmax)` (265-417); `none` for a division by zero. -/
noncomputable def intersectionRayTriangle (tol : Tol) (R : Ray ℝ) (T : Triangle ℝ 3) : Option (Option (ℝ × ℝ)) :=
  if R.dir (rayAxes R.dir).2.2 = 0 ∨ magSum R T = 0 then none
  else
    let mag := 3 / magSum R T
    some (shearedRange tol (shear R mag T.a) (shear R mag T.b) (shear R mag T.c))

/-- The last line of `intersects(Ray, Triangle)` (426). -/
noncomputable def inFront : Option (ℝ × ℝ) → Bool
  | none => false
  | some s => decide (s.2 ≥ 0)

/-- `intersects(Ray, Triangle)` (419-427). -/
noncomputable def intersectsRayTriangle (tol : Tol) (R : Ray ℝ) (T : Triangle ℝ 3) : Option Bool :=
  (intersectionRayTriangle tol R T).map inFront

/-- `dir.norm()`. -/
noncomputable def norm3 (v : Pt ℝ 3) : ℝ := Real.sqrt (dot v v)

/-- The ray of `intersects(Segment, Triangle)`: the constructor normalises the direction
(`ArborX_Ray.hpp` 46-55). -/
noncomputable def segmentRay (S : Segment ℝ 3) : Ray ℝ where
  origin := S.a
  dir := fun d => (S.b d - S.a d) / norm3 (S.b - S.a)
  negZero := fun _ => false

/-- The last line of `intersects(Segment, Triangle)` (505); if there is no intersection, `tmax = -inf`. -/
noncomputable def inSegment (length : ℝ) : Option (ℝ × ℝ) → Bool
  | none => false
  | some s => decide (s.2 ≥ 0 ∧ s.2 ≤ length)

/-- `intersects(Segment, Triangle)` (`ArborX_Intersects.hpp` 487-507); `none` for a division by zero. -/
noncomputable def intersectsSegmentTriangle (tol : Tol) (S : Segment ℝ 3) (T : Triangle ℝ 3) : Option Bool :=
  if norm3 (S.b - S.a) = 0 then none
  else (intersectionRayTriangle tol (segmentRay S) T).map (inSegment (norm3 (S.b - S.a)))

/-! ## Lemmas: edges in the plane -/

/-- The line `x = 0` crosses the segment from `p` to `q` at `t`. -/
structure Crosses (p q : ℝ × ℝ) (t : ℝ) : Prop where
  ne : p.1 ≠ q.1
  sides : p.1 * q.1 ≤ 0
  at_ : t * (p.1 - q.1) = p.1 * q.2 - q.1 * p.2

lemma Crosses.symm {p q : ℝ × ℝ} {t : ℝ} (h : Crosses p q t) : Crosses q p t :=
  ⟨h.ne.symm, by rw [mul_comm]; exact h.sides, by linear_combination -h.at_⟩

lemma rayEdge_hit {eps : ℝ} (heps : 0 ≤ eps) {p q : ℝ × ℝ} {t : ℝ} (h : Crosses p q t) (hne : ¬ (p.2 = 0 ∧ q.2 = 0)) :
    rayEdge eps p q = some t := by
  have hy : (if |p.2| > |q.2| then p.2 else q.2) ≠ 0 := by
    split
    · rename_i hlt
      intro h0
      rw [h0, abs_zero] at hlt
      exact absurd hlt (not_lt.mpr (abs_nonneg _))
    · rename_i hle
      intro h0
      rw [h0, abs_zero, gt_iff_lt, not_lt, abs_nonpos_iff] at hle
      exact hne ⟨hle, h0⟩
  have hx : p.1 - q.1 ≠ 0 := sub_ne_zero.mpr h.ne
  unfold rayEdge
  dsimp only
  generalize (if |p.2| > |q.2| then p.2 else q.2) = y at hy ⊢
  rw [if_neg (mul_ne_zero hy hx)]
  have hu : p.1 * y / (y * (p.1 - q.1)) = p.1 / (p.1 - q.1) := by field_simp
  have ht : (p.1 * q.2 - q.1 * p.2) / (y * (p.1 - q.1)) * y = t := by
    rw [← h.at_]; field_simp
  rw [hu, ht, if_pos]
  have hs := h.sides
  rcases lt_or_gt_of_ne hx with hneg | hpos
  · constructor
    · have : 0 ≤ p.1 / (p.1 - q.1) := div_nonneg_of_nonpos (by nlinarith) hneg.le
      linarith
    · have : p.1 / (p.1 - q.1) ≤ 1 := by rw [div_le_one_of_neg hneg]; nlinarith
      linarith
  · constructor
    · have : 0 ≤ p.1 / (p.1 - q.1) := div_nonneg (by nlinarith) hpos.le
      linarith
    · have : p.1 / (p.1 - q.1) ≤ 1 := by rw [div_le_one₀ hpos]; nlinarith
      linarith

lemma rayEdge_sound {p q : ℝ × ℝ} {t : ℝ} (h : rayEdge 0 p q = some t) :
    ∃ l : ℝ, 0 ≤ l ∧ l ≤ 1 ∧ (1 - l) * p.1 + l * q.1 = 0 ∧ (1 - l) * p.2 + l * q.2 = t := by
  unfold rayEdge at h
  dsimp only at h
  generalize (if |p.2| > |q.2| then p.2 else q.2) = y at h
  split at h
  · cases h
  rename_i hdet
  have hy : y ≠ 0 := fun h0 => hdet (by rw [h0, zero_mul])
  have hx : p.1 - q.1 ≠ 0 := fun h0 => hdet (by rw [h0, mul_zero])
  have hu : p.1 * y / (y * (p.1 - q.1)) = p.1 / (p.1 - q.1) := by field_simp
  rw [hu] at h
  split at h
  · rename_i hb
    cases h
    refine ⟨p.1 / (p.1 - q.1), by linarith [hb.1], by linarith [hb.2], ?_, ?_⟩
    · field_simp; ring
    · field_simp; ring
  · cases h

/-- One vertex on one side, two on the other. -/
lemma one_two {A B C : ℝ × ℝ} {a b c t : ℝ} (hb : 0 ≤ b) (hc : 0 ≤ c) (hs : a + b + c = 1)
    (hx : a * A.1 + b * B.1 + c * C.1 = 0) (ht : a * A.2 + b * B.2 + c * C.2 = t)
    (hA : A.1 ≠ 0) (hB : A.1 * B.1 ≤ 0) (hC : A.1 * C.1 ≤ 0) :
    ∃ t1 t2, Crosses A B t1 ∧ Crosses A C t2 ∧ ((t1 ≤ t ∧ t ≤ t2) ∨ (t2 ≤ t ∧ t ≤ t1)) := by
  have hAB : A.1 - B.1 ≠ 0 := by
    intro h0
    have : A.1 = B.1 := by linarith
    rw [← this] at hB
    exact hA (by nlinarith [mul_self_nonneg A.1])
  have hAC : A.1 - C.1 ≠ 0 := by
    intro h0
    have : A.1 = C.1 := by linarith
    rw [← this] at hC
    exact hA (by nlinarith [mul_self_nonneg A.1])
  refine ⟨(A.1 * B.2 - B.1 * A.2) / (A.1 - B.1), (A.1 * C.2 - C.1 * A.2) / (A.1 - C.1),
    ⟨fun h => hAB (by rw [h, sub_self]), hB, by field_simp⟩, ⟨fun h => hAC (by rw [h, sub_self]), hC, by field_simp⟩, ?_⟩
  set t1 := (A.1 * B.2 - B.1 * A.2) / (A.1 - B.1) with e1
  set t2 := (A.1 * C.2 - C.1 * A.2) / (A.1 - C.1) with e2
  -- weights of the crossings
  have h1 : t1 * (A.1 - B.1) = A.1 * B.2 - B.1 * A.2 := by rw [e1]; field_simp
  have h2 : t2 * (A.1 - C.1) = A.1 * C.2 - C.1 * A.2 := by rw [e2]; field_simp
  have hsq : 0 < A.1 * A.1 := mul_self_pos.mpr hA
  set l := b * (A.1 - B.1) / A.1 with el
  set m := c * (A.1 - C.1) / A.1 with em
  have hl : 0 ≤ l := by
    have : l = b * (A.1 * A.1 - A.1 * B.1) / (A.1 * A.1) := by rw [el]; field_simp
    rw [this]
    exact div_nonneg (mul_nonneg hb (by linarith)) hsq.le
  have hm : 0 ≤ m := by
    have : m = c * (A.1 * A.1 - A.1 * C.1) / (A.1 * A.1) := by rw [em]; field_simp
    rw [this]
    exact div_nonneg (mul_nonneg hc (by linarith)) hsq.le
  have hlm : l + m = 1 := by
    rw [el, em, ← add_div, div_eq_one_iff_eq hA]
    linear_combination -hx + A.1 * hs
  have htt : t = l * t1 + m * t2 := by
    have : t * A.1 = b * (A.1 - B.1) * t1 + c * (A.1 - C.1) * t2 := by
      linear_combination -A.1 * ht - b * h1 - c * h2 - (-A.2) * hx
    rw [el, em]
    field_simp
    linear_combination this
  have hm1 : m = 1 - l := by linarith
  have hl1 : l ≤ 1 := by linarith
  rcases le_total t1 t2 with h12 | h12
  · left; rw [htt, hm1]; constructor <;> nlinarith
  · right; rw [htt, hm1]; constructor <;> nlinarith

lemma updateRange_spec {s : Option (ℝ × ℝ)} {x : Option ℝ} :
    (∀ a b, s = some (a, b) → ∃ a' b', updateRange s x = some (a', b') ∧ a' ≤ a ∧ b ≤ b') ∧
    (∀ t, x = some t → ∃ a' b', updateRange s x = some (a', b') ∧ a' ≤ t ∧ t ≤ b') := by
  constructor
  · rintro a b rfl
    cases x with
    | none => exact ⟨a, b, rfl, le_rfl, le_rfl⟩
    | some t => exact ⟨_, _, rfl, min_le_left _ _, le_max_left _ _⟩
  · rintro t rfl
    cases s with
    | none => exact ⟨t, t, rfl, le_rfl, le_rfl⟩
    | some s => exact ⟨_, _, rfl, min_le_right _ _, le_max_right _ _⟩

/-- The range of the crossings. -/
lemma range_spec (x y z : Option ℝ) {t : ℝ} (h : x = some t ∨ y = some t ∨ z = some t) :
    ∃ a b, updateRange (updateRange (updateRange none x) y) z = some (a, b) ∧ a ≤ t ∧ t ≤ b := by
  rcases h with h | h | h
  · obtain ⟨a, b, e, h1, h2⟩ := (updateRange_spec (s := none)).2 t h
    obtain ⟨a', b', e', h1', h2'⟩ := (updateRange_spec (x := y)).1 a b e
    obtain ⟨a'', b'', e'', h1'', h2''⟩ := (updateRange_spec (x := z)).1 a' b' e'
    exact ⟨a'', b'', e'', h1''.trans (h1'.trans h1), h2.trans (h2'.trans h2'')⟩
  · obtain ⟨a', b', e', h1', h2'⟩ := (updateRange_spec (s := updateRange none x)).2 t h
    obtain ⟨a'', b'', e'', h1'', h2''⟩ := (updateRange_spec (x := z)).1 a' b' e'
    exact ⟨a'', b'', e'', h1''.trans h1', h2'.trans h2''⟩
  · exact (updateRange_spec (s := updateRange (updateRange none x) y)).2 t h

lemma range_mem (x y z : Option ℝ) {a b : ℝ} (h : updateRange (updateRange (updateRange none x) y) z = some (a, b)) :
    (x = some a ∨ y = some a ∨ z = some a) ∧ (x = some b ∨ y = some b ∨ z = some b) ∧ a ≤ b := by
  have key : ∀ (s : Option (ℝ × ℝ)) (x : Option ℝ) (P : ℝ → Prop), (∀ a b, s = some (a, b) → P a ∧ P b ∧ a ≤ b) →
      (∀ t, x = some t → P t) → ∀ a b, updateRange s x = some (a, b) → P a ∧ P b ∧ a ≤ b := by
    intro s x P hs hx a b e
    cases x with
    | none => exact hs a b e
    | some t =>
      cases s with
      | none =>
        simp only [updateRange, Option.some.injEq, Prod.mk.injEq] at e
        obtain ⟨rfl, rfl⟩ := e
        exact ⟨hx _ rfl, hx _ rfl, le_rfl⟩
      | some s =>
        obtain ⟨a', b'⟩ := s
        simp only [updateRange, Option.some.injEq, Prod.mk.injEq] at e
        obtain ⟨rfl, rfl⟩ := e
        obtain ⟨h1, h2, h3⟩ := hs a' b' rfl
        refine ⟨?_, ?_, (min_le_left _ _).trans (h3.trans (le_max_left _ _))⟩
        · rcases min_choice a' t with h | h <;> rw [h]
          exacts [h1, hx t rfl]
        · rcases max_choice b' t with h | h <;> rw [h]
          exacts [h2, hx t rfl]
  have h3 := key _ z (fun t => x = some t ∨ y = some t ∨ z = some t) (key _ y _ (key none x _ (by simp) (fun t ht => .inl ht))
    (fun t ht => .inr (.inl ht))) (fun t ht => .inr (.inr ht)) a b h
  exact h3

lemma allNeg {a b c x y z : ℝ} (ha : 0 ≤ a) (hb : 0 ≤ b) (hc : 0 ≤ c) (hs : a + b + c = 1) (hx : x < 0) (hy : y < 0) (hz : z < 0) :
    a * x + b * y + c * z < 0 := by
  rcases ha.lt_or_eq with h | rfl
  · nlinarith [mul_nonneg hb (neg_nonneg.mpr hy.le), mul_nonneg hc (neg_nonneg.mpr hz.le), mul_pos h (neg_pos.mpr hx)]
  · rcases hb.lt_or_eq with h | rfl
    · nlinarith [mul_nonneg hc (neg_nonneg.mpr hz.le), mul_pos h (neg_pos.mpr hy)]
    · have : c = 1 := by linarith
      rw [this]; linarith

/-- The crossings with the edges enclose every point of the triangle on the line of the ray, unless the origin is on an
edge. -/
lemma coplanar_raw {eps : ℝ} (heps : 0 ≤ eps) {A B C : ℝ × ℝ} {a b c t : ℝ} (ha : 0 ≤ a) (hb : 0 ≤ b) (hc : 0 ≤ c) (hs : a + b + c = 1)
    (hx : a * A.1 + b * B.1 + c * C.1 = 0) (ht : a * A.2 + b * B.2 + c * C.2 = t)
    (hnz : ¬ (A.1 = 0 ∧ B.1 = 0 ∧ C.1 = 0))
    (hAB : ¬ (A.1 * B.1 ≤ 0 ∧ A.2 = 0 ∧ B.2 = 0)) (hBC : ¬ (B.1 * C.1 ≤ 0 ∧ B.2 = 0 ∧ C.2 = 0))
    (hCA : ¬ (C.1 * A.1 ≤ 0 ∧ C.2 = 0 ∧ A.2 = 0)) :
    ∃ lo hi, updateRange (updateRange (updateRange none (rayEdge eps A B)) (rayEdge eps B C)) (rayEdge eps C A) = some (lo, hi) ∧ lo ≤ t ∧ t ≤ hi := by
  -- crossings of the edges on both sides of `t`
  have hit : ∃ t1 t2, t1 ≤ t ∧ t ≤ t2 ∧ (Crosses A B t1 ∨ Crosses B C t1 ∨ Crosses C A t1) ∧
      (Crosses A B t2 ∨ Crosses B C t2 ∨ Crosses C A t2) := by
    have vertex : ∀ {P Q S : ℝ × ℝ} {p q s : ℝ}, 0 ≤ p → 0 ≤ q → 0 ≤ s → p + q + s = 1 → p * P.1 + q * Q.1 + s * S.1 = 0 →
        p * P.2 + q * Q.2 + s * S.2 = t → P.1 = 0 → 0 < Q.1 * S.1 → Crosses P Q t ∧ Crosses S P t := by
      intro P Q S p q s hp hq hs' hsum hx' ht' hP hQS
      have hQ : Q.1 ≠ 0 := fun h => by rw [h, zero_mul] at hQS; exact lt_irrefl _ hQS
      have hS : S.1 ≠ 0 := fun h => by rw [h, mul_zero] at hQS; exact lt_irrefl _ hQS
      rw [hP, mul_zero, zero_add] at hx'
      have h1 : q * (Q.1 * Q.1) + s * (Q.1 * S.1) = 0 := by linear_combination Q.1 * hx'
      have hQ2 : 0 < Q.1 * Q.1 := mul_self_pos.mpr hQ
      have hq0 : q = 0 := by
        have h2 : q * (Q.1 * Q.1) ≤ 0 := by nlinarith [mul_nonneg hs' hQS.le]
        by_contra h
        exact absurd h2 (not_le.mpr (mul_pos (lt_of_le_of_ne hq (Ne.symm h)) hQ2))
      have hs0 : s = 0 := by
        rw [hq0, zero_mul, zero_add] at hx'
        exact (mul_eq_zero.mp hx').resolve_right hS
      have htP : t = P.2 := by
        rw [hq0, hs0] at ht' hsum
        have : p = 1 := by linarith
        rw [this] at ht'; linarith
      refine ⟨⟨by rw [hP]; exact Ne.symm hQ, by rw [hP, zero_mul], ?_⟩, ⟨by rw [hP]; exact hS, by rw [hP, mul_zero], ?_⟩⟩
      · rw [hP, htP]; ring
      · rw [hP, htP]; ring
    have two : ∀ {P Q S : ℝ × ℝ} {p q s : ℝ}, 0 ≤ p → 0 ≤ q → 0 ≤ s → p + q + s = 1 → p * P.1 + q * Q.1 + s * S.1 = 0 →
        p * P.2 + q * Q.2 + s * S.2 = t → P.1 ≠ 0 → P.1 * Q.1 ≤ 0 → P.1 * S.1 ≤ 0 →
        ∃ t1 t2, t1 ≤ t ∧ t ≤ t2 ∧ (Crosses P Q t1 ∨ Crosses S P t1) ∧ (Crosses P Q t2 ∨ Crosses S P t2) := by
      intro P Q S p q s hp hq hs' hsum hx' ht' h1 h2 h3
      obtain ⟨t1, t2, c1, c2, h | h⟩ := one_two hq hs' hsum hx' ht' h1 h2 h3
      · exact ⟨t1, t2, h.1, h.2, .inl c1, .inr c2.symm⟩
      · exact ⟨t2, t1, h.1, h.2, .inr c2.symm, .inl c1⟩
    have onA : (A.1 ≠ 0 ∧ A.1 * B.1 ≤ 0 ∧ A.1 * C.1 ≤ 0) → _ := fun h =>
      two ha hb hc hs hx ht h.1 h.2.1 h.2.2
    have onB : (B.1 ≠ 0 ∧ B.1 * C.1 ≤ 0 ∧ B.1 * A.1 ≤ 0) → _ := fun h =>
      two hb hc ha (by linarith) (by linarith) (by linarith) h.1 h.2.1 h.2.2
    have onC : (C.1 ≠ 0 ∧ C.1 * A.1 ≤ 0 ∧ C.1 * B.1 ≤ 0) → _ := fun h =>
      two hc ha hb (by linarith) (by linarith) (by linarith) h.1 h.2.1 h.2.2
    by_cases h1 : A.1 ≠ 0 ∧ A.1 * B.1 ≤ 0 ∧ A.1 * C.1 ≤ 0
    · obtain ⟨t1, t2, k1, k2, c1, c2⟩ := onA h1
      exact ⟨t1, t2, k1, k2, c1.imp id .inr, c2.imp id .inr⟩
    by_cases h2 : B.1 ≠ 0 ∧ B.1 * C.1 ≤ 0 ∧ B.1 * A.1 ≤ 0
    · obtain ⟨t1, t2, k1, k2, c1, c2⟩ := onB h2
      exact ⟨t1, t2, k1, k2, c1.elim (fun h => .inr (.inl h)) .inl, c2.elim (fun h => .inr (.inl h)) .inl⟩
    by_cases h3 : C.1 ≠ 0 ∧ C.1 * A.1 ≤ 0 ∧ C.1 * B.1 ≤ 0
    · obtain ⟨t1, t2, k1, k2, c1, c2⟩ := onC h3
      exact ⟨t1, t2, k1, k2, c1.elim (fun h => .inr (.inr h)) (fun h => .inr (.inl h)), c2.elim (fun h => .inr (.inr h)) (fun h => .inr (.inl h))⟩
    -- otherwise a vertex is on the line and the two others are on one side
    by_cases hA0 : A.1 = 0
    · have : 0 < B.1 * C.1 := by
        by_contra hle
        rw [not_lt] at hle
        by_cases hB0 : B.1 = 0
        · by_cases hC0 : C.1 = 0
          · exact hnz ⟨hA0, hB0, hC0⟩
          · exact h3 ⟨hC0, by rw [hA0, mul_zero], by rw [hB0, mul_zero]⟩
        · exact h2 ⟨hB0, hle, by rw [hA0, mul_zero]⟩
      obtain ⟨c1, c2⟩ := vertex ha hb hc hs hx ht hA0 this
      exact ⟨t, t, le_rfl, le_rfl, .inl c1, .inl c1⟩
    by_cases hB0 : B.1 = 0
    · have : 0 < C.1 * A.1 := by
        by_contra hle
        rw [not_lt] at hle
        exact h1 ⟨hA0, by rw [hB0, mul_zero], by rw [mul_comm]; exact hle⟩
      obtain ⟨c1, c2⟩ := vertex hb hc ha (by linarith) (by linarith) (by linarith) hB0 this
      exact ⟨t, t, le_rfl, le_rfl, .inl c2, .inl c2⟩
    by_cases hC0 : C.1 = 0
    · have : 0 < A.1 * B.1 := by
        by_contra hle
        rw [not_lt] at hle
        exact h1 ⟨hA0, hle, by rw [hC0, mul_zero]⟩
      obtain ⟨c1, c2⟩ := vertex hc ha hb (by linarith) (by linarith) (by linarith) hC0 this
      exact ⟨t, t, le_rfl, le_rfl, .inr (.inl c2), .inr (.inl c2)⟩
    exfalso
    rcases lt_or_gt_of_ne hA0 with pA | pA <;> rcases lt_or_gt_of_ne hB0 with pB | pB <;> rcases lt_or_gt_of_ne hC0 with pC | pC
    · nlinarith [mul_nonneg ha (neg_nonneg.mpr pA.le), mul_nonneg hb (neg_nonneg.mpr pB.le), mul_nonneg hc (neg_nonneg.mpr pC.le),
        mul_pos (neg_pos.mpr pA) (neg_pos.mpr pB), allNeg ha hb hc hs pA pB pC]
    · exact h3 ⟨hC0, by nlinarith, by nlinarith⟩
    · exact h2 ⟨hB0, by nlinarith, by nlinarith⟩
    · exact h1 ⟨hA0, by nlinarith, by nlinarith⟩
    · exact h1 ⟨hA0, by nlinarith, by nlinarith⟩
    · exact h2 ⟨hB0, by nlinarith, by nlinarith⟩
    · exact h3 ⟨hC0, by nlinarith, by nlinarith⟩
    · have := allNeg ha hb hc hs (neg_neg_of_pos pA) (neg_neg_of_pos pB) (neg_neg_of_pos pC)
      nlinarith
  obtain ⟨t1, t2, k1, k2, c1, c2⟩ := hit
  have conv : ∀ {s}, (Crosses A B s ∨ Crosses B C s ∨ Crosses C A s) →
      (rayEdge eps A B = some s ∨ rayEdge eps B C = some s ∨ rayEdge eps C A = some s) := by
    rintro s (h | h | h)
    · exact .inl (rayEdge_hit heps h (fun h0 => hAB ⟨h.sides, h0⟩))
    · exact .inr (.inl (rayEdge_hit heps h (fun h0 => hBC ⟨h.sides, h0⟩)))
    · exact .inr (.inr (rayEdge_hit heps h (fun h0 => hCA ⟨h.sides, h0⟩)))
  obtain ⟨lo, hi, e, l1, l2⟩ := range_spec _ _ _ (conv c1)
  obtain ⟨lo', hi', e', l1', l2'⟩ := range_spec _ _ _ (conv c2)
  rw [e, Option.some.injEq, Prod.mk.injEq] at e'
  obtain ⟨rfl, rfl⟩ := e'
  exact ⟨lo, hi, e, l1.trans k1, k2.trans l2'⟩

/-- The coplanar part finds every point of the triangle in front of the ray, unless the origin is on an
edge. -/
lemma coplanar_complete {eps : ℝ} (heps : 0 ≤ eps) {A B C : ℝ × ℝ} {a b c t : ℝ} (ha : 0 ≤ a) (hb : 0 ≤ b) (hc : 0 ≤ c) (hs : a + b + c = 1)
    (hx : a * A.1 + b * B.1 + c * C.1 = 0) (ht : a * A.2 + b * B.2 + c * C.2 = t)
    (hnz : ¬ (A.1 = 0 ∧ B.1 = 0 ∧ C.1 = 0))
    (hAB : ¬ (A.1 * B.1 ≤ 0 ∧ A.2 = 0 ∧ B.2 = 0)) (hBC : ¬ (B.1 * C.1 ≤ 0 ∧ B.2 = 0 ∧ C.2 = 0))
    (hCA : ¬ (C.1 * A.1 ≤ 0 ∧ C.2 = 0 ∧ A.2 = 0)) :
    ∃ lo hi, coplanarRange eps A B C = some (finishRange (lo, hi)) ∧ lo ≤ t ∧ t ≤ hi := by
  obtain ⟨lo, hi, e, h1, h2⟩ := coplanar_raw heps ha hb hc hs hx ht hnz hAB hBC hCA
  exact ⟨lo, hi, by unfold coplanarRange; rw [e]; rfl, h1, h2⟩

/-- A crossing is a point of the triangle, if there is no tolerance. -/
lemma edge_point {A B C : ℝ × ℝ} {t : ℝ} (h : rayEdge 0 A B = some t ∨ rayEdge 0 B C = some t ∨ rayEdge 0 C A = some t) :
    ∃ a b c : ℝ, 0 ≤ a ∧ 0 ≤ b ∧ 0 ≤ c ∧ a + b + c = 1 ∧ a * A.1 + b * B.1 + c * C.1 = 0 ∧ a * A.2 + b * B.2 + c * C.2 = t := by
  rcases h with h | h | h
  · obtain ⟨l, h0, h1, e1, e2⟩ := rayEdge_sound h
    exact ⟨1 - l, l, 0, by linarith, h0, le_rfl, by ring, by linarith, by linarith⟩
  · obtain ⟨l, h0, h1, e1, e2⟩ := rayEdge_sound h
    exact ⟨0, 1 - l, l, le_rfl, by linarith, h0, by ring, by linarith, by linarith⟩
  · obtain ⟨l, h0, h1, e1, e2⟩ := rayEdge_sound h
    exact ⟨l, 0, 1 - l, h0, le_rfl, by linarith, by ring, by linarith, by linarith⟩

/-- The points found by the coplanar part are points of the triangle, if there is no tolerance. -/
lemma coplanar_sound {A B C : ℝ × ℝ} {lo hi : ℝ} (h : coplanarRange 0 A B C = some (lo, hi)) (hhi : 0 ≤ hi) :
    ∃ a b c t : ℝ, 0 ≤ a ∧ 0 ≤ b ∧ 0 ≤ c ∧ a + b + c = 1 ∧ 0 ≤ t ∧ a * A.1 + b * B.1 + c * C.1 = 0 ∧
      a * A.2 + b * B.2 + c * C.2 = t := by
  unfold coplanarRange at h
  cases hr : updateRange (updateRange (updateRange none (rayEdge 0 A B)) (rayEdge 0 B C)) (rayEdge 0 C A) with
  | none => rw [hr] at h; cases h
  | some s =>
    obtain ⟨p, q⟩ := s
    rw [hr, Option.map_some, Option.some.injEq] at h
    obtain ⟨hp, hq, hpq⟩ := range_mem _ _ _ hr
    have pt : ∀ {t}, (rayEdge 0 A B = some t ∨ rayEdge 0 B C = some t ∨ rayEdge 0 C A = some t) →
        ∃ a b c : ℝ, 0 ≤ a ∧ 0 ≤ b ∧ 0 ≤ c ∧ a + b + c = 1 ∧ a * A.1 + b * B.1 + c * C.1 = 0 ∧ a * A.2 + b * B.2 + c * C.2 = t := edge_point
    unfold finishRange at h
    dsimp only at h
    split at h
    · -- the origin is between two points of the triangle
      rename_i hle
      obtain ⟨a, b, c, ha, hb, hc, hs, hx, hy⟩ := pt hp
      obtain ⟨a', b', c', ha', hb', hc', hs', hx', hy'⟩ := pt hq
      by_cases h0 : p = q
      · have : p = 0 := by rw [← h0] at hle; nlinarith [mul_self_nonneg p]
        exact ⟨a, b, c, 0, ha, hb, hc, hs, le_rfl, hx, by rw [hy, this]⟩
      · have hlt : 0 < q - p := by
          rcases hpq.lt_or_eq with h | h
          · linarith
          · exact absurd h h0
        have hp0 : p ≤ 0 := by nlinarith
        have hq0 : 0 ≤ q := by nlinarith
        have l1 : 0 ≤ q / (q - p) := div_nonneg hq0 hlt.le
        have l2 : 0 ≤ -p / (q - p) := div_nonneg (by linarith) hlt.le
        have l3 : q / (q - p) + -p / (q - p) = 1 := by field_simp; ring
        have l4 : q / (q - p) * p + -p / (q - p) * q = 0 := by field_simp; ring
        generalize q / (q - p) = l at l1 l3 l4
        generalize -p / (q - p) = m at l2 l3 l4
        refine ⟨l * a + m * a', l * b + m * b', l * c + m * c', 0, by positivity, by positivity, by positivity, ?_, le_rfl, ?_, ?_⟩
        · linear_combination l * hs + m * hs' + l3
        · linear_combination l * hx + m * hx'
        · linear_combination l * hy + m * hy' + l4
    · split at h
      · rename_i hn
        simp only [Prod.mk.injEq] at h
        linarith [h.2]
      · simp only [Prod.mk.injEq] at h
        obtain ⟨a', b', c', ha', hb', hc', hs', hx', hy'⟩ := pt hq
        exact ⟨a', b', c', q, ha', hb', hc', hs', by linarith [h.2], hx', hy'⟩

lemma finish_front {lo hi t : ℝ} (h2 : t ≤ hi) (ht : 0 ≤ t) : 0 ≤ (finishRange (lo, hi)).2 := by
  unfold finishRange
  dsimp only
  split
  · exact le_rfl
  · split
    · nlinarith
    · exact ht.trans h2

/-! ## Lemmas: the rotation -/

lemma rotate_smul (c x y : ℝ) : rotate2D (c * x) (c * y) = c * rotate2D x y := by
  have hr : Real.sqrt (c * x * (c * x) + c * y * (c * y)) = |c| * Real.sqrt (x * x + y * y) := by
    have : c * x * (c * x) + c * y * (c * y) = c * c * (x * x + y * y) := by ring
    rw [this, Real.sqrt_mul (mul_self_nonneg c), Real.sqrt_mul_self_eq_abs]
  unfold rotate2D
  dsimp only
  rw [hr]
  rcases lt_trichotomy c 0 with hc | rfl | hc
  · rw [abs_of_neg hc]
    by_cases hx : x = 0
    · subst hx
      simp only [mul_zero, ne_eq, not_true_eq_false, if_false, zero_add]
      rcases lt_trichotomy y 0 with hy | rfl | hy
      · rw [if_pos (mul_pos_of_neg_of_neg hc hy), if_neg (not_lt.mpr hy.le)]; ring
      · simp
      · rw [if_neg (not_lt.mpr (mul_nonpos_of_nonpos_of_nonneg hc.le hy.le)), if_pos hy]; ring
    · rw [if_pos hx, if_pos (mul_ne_zero hc.ne hx)]
      rcases lt_or_gt_of_ne hx with h | h
      · rw [if_pos (mul_pos_of_neg_of_neg hc h), if_neg (not_lt.mpr h.le)]; ring
      · rw [if_neg (not_lt.mpr (mul_nonpos_of_nonpos_of_nonneg hc.le h.le)), if_pos h]; ring
  · simp
  · rw [abs_of_pos hc]
    by_cases hx : x = 0
    · subst hx
      simp only [mul_zero, ne_eq, not_true_eq_false, if_false, zero_add]
      rcases lt_trichotomy y 0 with hy | rfl | hy
      · rw [if_neg (not_lt.mpr (mul_nonpos_of_nonneg_of_nonpos hc.le hy.le)), if_neg (not_lt.mpr hy.le)]; ring
      · simp
      · rw [if_pos (mul_pos hc hy), if_pos hy]; ring
    · rw [if_pos hx, if_pos (mul_ne_zero hc.ne' hx)]
      rcases lt_or_gt_of_ne hx with h | h
      · rw [if_neg (not_lt.mpr (mul_nonpos_of_nonneg_of_nonpos hc.le h.le)), if_neg (not_lt.mpr h.le)]; ring
      · rw [if_pos (mul_pos hc h), if_pos h]; ring

lemma rotate_sq (x y : ℝ) : rotate2D x y * rotate2D x y = x * x + y * y := by
  have h := Real.mul_self_sqrt (add_nonneg (mul_self_nonneg x) (mul_self_nonneg y))
  unfold rotate2D
  dsimp only
  split <;> split <;> linear_combination h

lemma rotate_zero {x y : ℝ} (h : rotate2D x y = 0) : x = 0 ∧ y = 0 := by
  have := rotate_sq x y
  rw [h, mul_zero] at this
  constructor <;> nlinarith [mul_self_nonneg x, mul_self_nonneg y]

/-- Parallel vectors are multiples of one vector, and the rotation gives the factors. -/
lemma parallel_line {p q r : ℝ × ℝ} (hpq : p.1 * q.2 = p.2 * q.1) (hqr : q.1 * r.2 = q.2 * r.1) (hrp : r.1 * p.2 = r.2 * p.1) :
    ∃ e f : ℝ, (e ≠ 0 ∨ f ≠ 0) ∧ (p.1 = rotate2D p.1 p.2 * e ∧ p.2 = rotate2D p.1 p.2 * f) ∧
      (q.1 = rotate2D q.1 q.2 * e ∧ q.2 = rotate2D q.1 q.2 * f) ∧ (r.1 = rotate2D r.1 r.2 * e ∧ r.2 = rotate2D r.1 r.2 * f) := by
  -- from a vector which is not zero
  have key : ∀ s : ℝ × ℝ, rotate2D s.1 s.2 ≠ 0 → ∃ e f : ℝ, (e ≠ 0 ∨ f ≠ 0) ∧ ∀ z : ℝ × ℝ, s.1 * z.2 = s.2 * z.1 →
      z.1 = rotate2D z.1 z.2 * e ∧ z.2 = rotate2D z.1 z.2 * f := by
    intro s hs
    refine ⟨s.1 / rotate2D s.1 s.2, s.2 / rotate2D s.1 s.2, ?_, ?_⟩
    · by_contra h
      push Not at h
      have h1 : s.1 = 0 := (div_eq_zero_iff.mp h.1).resolve_right hs
      have h2 : s.2 = 0 := (div_eq_zero_iff.mp h.2).resolve_right hs
      exact hs (by rw [h1, h2]; simp [rotate2D])
    · intro z hz
      have hc : ∃ c, z.1 = c * s.1 ∧ z.2 = c * s.2 := by
        by_cases h1 : s.1 = 0
        · have h2 : s.2 ≠ 0 := fun h2 => hs (by rw [h1, h2]; simp [rotate2D])
          refine ⟨z.2 / s.2, ?_, by field_simp⟩
          rw [h1, zero_mul] at hz
          rw [h1, mul_zero]
          exact (mul_eq_zero.mp hz.symm).resolve_left h2
        · refine ⟨z.1 / s.1, by field_simp, ?_⟩
          field_simp
          linear_combination hz
      obtain ⟨c, h1, h2⟩ := hc
      rw [h1, h2, rotate_smul]
      constructor <;> field_simp
  by_cases hp : rotate2D p.1 p.2 = 0
  · obtain ⟨p1, p2⟩ := rotate_zero hp
    by_cases hq : rotate2D q.1 q.2 = 0
    · obtain ⟨q1, q2⟩ := rotate_zero hq
      by_cases hr : rotate2D r.1 r.2 = 0
      · obtain ⟨r1, r2⟩ := rotate_zero hr
        refine ⟨1, 0, .inl one_ne_zero, ?_, ?_, ?_⟩
        · rw [p1, p2]; simp [rotate2D]
        · rw [q1, q2]; simp [rotate2D]
        · rw [r1, r2]; simp [rotate2D]
      · obtain ⟨e, f, hef, k⟩ := key r hr
        exact ⟨e, f, hef, k p (by rw [p1, p2]; ring), k q (by rw [q1, q2]; ring), k r (by ring)⟩
    · obtain ⟨e, f, hef, k⟩ := key q hq
      exact ⟨e, f, hef, k p (by rw [p1, p2]; ring), k q (by ring), k r hqr⟩
  · obtain ⟨e, f, hef, k⟩ := key p hp
    exact ⟨e, f, hef, k p (by ring), k q hpq, k r (by linarith)⟩

/-! ## Lemmas: the shear -/

/-- The shear of a vector. -/
noncomputable def lin (dir : Pt ℝ 3) (mag : ℝ) (o : Pt ℝ 3) : Pt ℝ 3 :=
  let k := rayAxes dir
  let s2 := 1 / dir k.2.2
  ![(o k.1 - dir k.1 * s2 * o k.2.2) * mag, (o k.2.1 - dir k.2.1 * s2 * o k.2.2) * mag, s2 * o k.2.2]

lemma shear_eq (R : Ray ℝ) (mag : ℝ) (p : Pt ℝ 3) : shear R mag p = lin R.dir mag (p - R.origin) := rfl

lemma lin_comb (dir : Pt ℝ 3) (mag a b c : ℝ) (p q r : Pt ℝ 3) (i : Fin 3) :
    lin dir mag (fun d => a * p d + b * q d + c * r d) i = a * lin dir mag p i + b * lin dir mag q i + c * lin dir mag r i := by
  fin_cases i <;> simp [lin] <;> ring

lemma axes_cover (dir : Pt ℝ 3) (d : Fin 3) : d = (rayAxes dir).1 ∨ d = (rayAxes dir).2.1 ∨ d = (rayAxes dir).2.2 := by
  unfold rayAxes
  generalize findLargestComp dir = k
  dsimp only
  split <;> fin_cases k <;> fin_cases d <;> decide

lemma lin_dir {dir : Pt ℝ 3} {mag : ℝ} (hz : dir (rayAxes dir).2.2 ≠ 0) (t : ℝ) :
    lin dir mag (fun d => t * dir d) = ![0, 0, t] := by
  funext i
  fin_cases i
  · simp only [lin, Fin.zero_eta, Matrix.cons_val_zero]
    field_simp; ring
  · simp only [lin, Fin.mk_one, Matrix.cons_val_one, Matrix.cons_val_zero]
    field_simp; ring
  · simp [lin]
    field_simp

lemma lin_zero {dir : Pt ℝ 3} {mag : ℝ} (hz : dir (rayAxes dir).2.2 ≠ 0) (hm : mag ≠ 0) {o : Pt ℝ 3} (h0 : lin dir mag o 0 = 0)
    (h1 : lin dir mag o 1 = 0) (d : Fin 3) : o d = lin dir mag o 2 * dir d := by
  have e0 : (o (rayAxes dir).1 - dir (rayAxes dir).1 * (1 / dir (rayAxes dir).2.2) * o (rayAxes dir).2.2) * mag = 0 := h0
  have e1 : (o (rayAxes dir).2.1 - dir (rayAxes dir).2.1 * (1 / dir (rayAxes dir).2.2) * o (rayAxes dir).2.2) * mag = 0 := h1
  have e2 : lin dir mag o 2 = 1 / dir (rayAxes dir).2.2 * o (rayAxes dir).2.2 := rfl
  have e0' := (mul_eq_zero.mp e0).resolve_right hm
  have e1' := (mul_eq_zero.mp e1).resolve_right hm
  rw [e2]
  rcases axes_cover dir d with h | h | h
  · rw [h]; linear_combination e0'
  · rw [h]; linear_combination e1'
  · rw [h]; field_simp

/-- The largest component. -/
lemma largest (dir : Pt ℝ 3) (d : Fin 3) : |dir d| ≤ |dir (findLargestComp dir)| := by
  unfold findLargestComp
  simp only [List.foldl_cons, List.foldl_nil]
  by_cases h1 : |dir 1| > |dir 0|
  · simp only [h1, if_true]
    by_cases h2 : |dir 2| > |dir 1|
    · simp only [h2, if_true]
      fin_cases d
      · exact (h1.trans h2).le
      · exact h2.le
      · exact le_rfl
    · simp only [h2, if_false]
      fin_cases d
      · exact h1.le
      · exact le_rfl
      · exact not_lt.mp h2
  · simp only [h1, if_false]
    by_cases h2 : |dir 2| > |dir 0|
    · simp only [h2, if_true]
      fin_cases d
      · exact h2.le
      · exact (not_lt.mp h1).trans h2.le
      · exact le_rfl
    · simp only [h2, if_false]
      fin_cases d
      · exact le_rfl
      · exact not_lt.mp h1
      · exact not_lt.mp h2

lemma axes_z (dir : Pt ℝ 3) : (rayAxes dir).2.2 = findLargestComp dir := by
  unfold rayAxes
  dsimp only
  split <;> rfl

lemma dirZ_ne {dir : Pt ℝ 3} (h : ∃ d, dir d ≠ 0) : dir (rayAxes dir).2.2 ≠ 0 := by
  obtain ⟨d, hd⟩ := h
  rw [axes_z]
  intro h0
  have := largest dir d
  rw [h0, abs_zero] at this
  exact hd (abs_nonpos_iff.mp this)

/-- The determinant. -/
lemma det_eq {R : Ray ℝ} {T : Triangle ℝ 3} (mag : ℝ) (hz : R.dir (rayAxes R.dir).2.2 ≠ 0) :
    let A := shear R mag T.a
    let B := shear R mag T.b
    let C := shear R mag T.c
    (C 0 * B 1 - C 1 * B 0) + (A 0 * C 1 - A 1 * C 0) + (B 0 * A 1 - B 1 * A 0) =
      - (mag * mag * dot (cross (T.b - T.a) (T.c - T.a)) R.dir / |R.dir (rayAxes R.dir).2.2|) := by
  dsimp only
  unfold dot cross shear
  rw [Fin.sum_univ_three]
  revert hz
  unfold rayAxes
  generalize findLargestComp R.dir = k
  dsimp only
  split
  · rename_i hneg
    rw [abs_of_neg hneg]
    intro hz
    fin_cases k <;> simp at hz ⊢ <;> field_simp <;> ring
  · rename_i hpos
    rw [abs_of_nonneg (not_lt.mp hpos)]
    intro hz
    fin_cases k <;> simp at hz ⊢ <;> field_simp <;> ring

end ArborX.Geometry
