import Verif.Geometry.Segments
import Verif.Geometry.ClosestPoint
import Mathlib.Tactic.Positivity

/-!
# Ellipsoids (C40)

Points and segments over any ordered field; the box test over the real numbers because of the square root
of the sphere case. `none` is a division by zero.
-/

namespace ArborX.Geometry

variable {K : Type} [Field K] [LinearOrder K] [IsStrictOrderedRing K] {D : ℕ}

/-! ## Model -/

/-- `Experimental::Ellipsoid` (`ArborX_Ellipsoid.hpp` 26-70). -/
structure Ellipsoid (K : Type) (D : ℕ) where
  centroid : Pt K D
  rmt : Fin D → Fin D → K

/-- `rmt_multiply` (`ArborX_Intersects.hpp` 509-519). -/
def rmtMultiply (x : Pt K D) (R : Fin D → Fin D → K) (y : Pt K D) : K := ∑ i, ∑ j, x i * R i j * y j

/-- `intersects(Ellipsoid, Point)` (522-531). -/
def intersectsEllipsoidPoint (E : Ellipsoid K D) (p : Pt K D) : Bool :=
  decide (rmtMultiply (p - E.centroid) E.rmt (p - E.centroid) ≤ 1)

/-- `intersects(Ellipsoid, Segment)` (533-572). -/
def intersectsEllipsoidSegment (E : Ellipsoid K D) (S : Segment K D) : Option Bool :=
  if S.a = S.b then some (intersectsEllipsoidPoint E S.a)
  else
    let ab := S.b - S.a
    let ca := S.a - E.centroid
    let A := rmtMultiply ab E.rmt ab
    let B := rmtMultiply ca E.rmt ab
    let C := rmtMultiply ca E.rmt ca
    (divide (-B) A).map (fun t0 =>
      let t := clamp t0 0 1
      decide (A * t * t + 2 * B * t + C ≤ 1))

/-- `intersects_box2d` (577-617): a face spanned by `b - a` and `c - a`. -/
def intersectsFace (E : Ellipsoid K 3) (a b c : Pt K 3) : Option Bool :=
  if a = b then intersectsEllipsoidSegment E ⟨a, c⟩
  else if a = c then intersectsEllipsoidSegment E ⟨a, b⟩
  else if b = c then intersectsEllipsoidSegment E ⟨b, a⟩
  else
    let ab := b - a
    let ac := c - a
    let c0a := a - E.centroid
    let A11 := rmtMultiply ac E.rmt ac
    let A12 := rmtMultiply ab E.rmt ac
    let A22 := rmtMultiply ab E.rmt ab
    let B1 := rmtMultiply c0a E.rmt ac
    let B2 := rmtMultiply c0a E.rmt ab
    let C := rmtMultiply c0a E.rmt c0a
    (divide (A12 * B1 - A11 * B2) (A11 * A22 - A12 * A12)).bind (fun s0 =>
      (divide (A12 * B2 - A22 * B1) (A11 * A22 - A12 * A12)).map (fun t0 =>
        let t := clamp t0 0 1
        let s := clamp s0 0 1
        decide (A11 * t * t + 2 * A12 * t * s + A22 * s * s + 2 * B1 * t + 2 * B2 * s + C ≤ 1)))

/-- `||` of two tests: the second one is not evaluated if the first is true. -/
def orElse (x : Option Bool) (y : Option Bool) : Option Bool :=
  x.bind (fun v => if v then some true else y)

/-- `intersects(Ellipsoid, Box)` (620-668) for `DIM == 2`, without the sphere case and the centroid. -/
def edges2 (E : Ellipsoid K 2) (B : Box K 2) : Option Bool :=
  orElse (intersectsEllipsoidSegment E ⟨B.lo, ![B.lo 0, B.hi 1]⟩)
    (orElse (intersectsEllipsoidSegment E ⟨B.lo, ![B.hi 0, B.lo 1]⟩)
      (orElse (intersectsEllipsoidSegment E ⟨B.hi, ![B.lo 0, B.hi 1]⟩)
        (intersectsEllipsoidSegment E ⟨B.hi, ![B.hi 0, B.lo 1]⟩)))

/-- The same for `DIM == 3` (659-666). -/
def faces3 (E : Ellipsoid K 3) (B : Box K 3) : Option Bool :=
  orElse (intersectsFace E B.lo ![B.hi 0, B.lo 1, B.lo 2] ![B.lo 0, B.hi 1, B.lo 2])
    (orElse (intersectsFace E B.lo ![B.hi 0, B.lo 1, B.lo 2] ![B.lo 0, B.lo 1, B.hi 2])
      (orElse (intersectsFace E B.lo ![B.lo 0, B.hi 1, B.lo 2] ![B.lo 0, B.lo 1, B.hi 2])
        (orElse (intersectsFace E B.hi ![B.lo 0, B.hi 1, B.hi 2] ![B.hi 0, B.lo 1, B.hi 2])
          (orElse (intersectsFace E B.hi ![B.lo 0, B.hi 1, B.hi 2] ![B.hi 0, B.hi 1, B.lo 2])
            (intersectsFace E B.hi ![B.hi 0, B.lo 1, B.hi 2] ![B.hi 0, B.hi 1, B.lo 2])))))

/-- `is_sphere` for `DIM == 2` (633). -/
def isSphere2 (R : Fin 2 → Fin 2 → K) : Bool := decide (R 0 0 = R 1 1) && decide (R 0 1 = 0)

/-- `is_sphere` for `DIM == 3` (633-635). -/
def isSphere3 (R : Fin 3 → Fin 3 → K) : Bool :=
  (decide (R 0 0 = R 1 1) && decide (R 0 1 = 0)) && (decide (R 0 0 = R 2 2) && decide (R 0 2 = 0) && decide (R 1 2 = 0))

/-- `intersects(Ellipsoid, Box)` in two dimensions (620-656). The division by `sqrt(rmt[0][0])` is defined
because the diagonal of a positive definite matrix is positive. -/
noncomputable def intersectsEllipsoidBox2 (E : Ellipsoid ℝ 2) (B : Box ℝ 2) : Option Bool :=
  if isSphere2 E.rmt then
    (divide 1 (Real.sqrt (E.rmt 0 0))).map (fun r => intersectsSphereBox ⟨E.centroid, r⟩ B)
  else if intersectsPointBox E.centroid B then some true
  else edges2 E B

/-- `intersects(Ellipsoid, Box)` in three dimensions (620-668). -/
noncomputable def intersectsEllipsoidBox3 (E : Ellipsoid ℝ 3) (B : Box ℝ 3) : Option Bool :=
  if isSphere3 E.rmt then
    (divide 1 (Real.sqrt (E.rmt 0 0))).map (fun r => intersectsSphereBox ⟨E.centroid, r⟩ B)
  else if intersectsPointBox E.centroid B then some true
  else faces3 E B

/-! ## Specification -/

/-- The points of an ellipsoid: `(x - c)ᵀ R (x - c) ≤ 1`. -/
def Ellipsoid.set (E : Ellipsoid K D) : Set (Pt K D) :=
  {x | ∑ i, ∑ j, (x i - E.centroid i) * E.rmt i j * (x j - E.centroid j) ≤ 1}

/-- The matrix is symmetric and positive definite. -/
structure Ellipsoid.Valid (E : Ellipsoid K D) : Prop where
  symm : ∀ i j, E.rmt i j = E.rmt j i
  pos : ∀ v : Pt K D, v ≠ 0 → 0 < ∑ i, ∑ j, v i * E.rmt i j * v j

/-! ## Lemmas -/

omit [LinearOrder K] [IsStrictOrderedRing K] in
lemma rmt_add_left (x y z : Pt K D) (R : Fin D → Fin D → K) : rmtMultiply (x + y) R z = rmtMultiply x R z + rmtMultiply y R z := by
  unfold rmtMultiply
  rw [← Finset.sum_add_distrib]
  refine Finset.sum_congr rfl (fun i _ => ?_)
  rw [← Finset.sum_add_distrib]
  exact Finset.sum_congr rfl (fun j _ => by rw [Pi.add_apply]; ring)

omit [LinearOrder K] [IsStrictOrderedRing K] in
lemma rmt_smul_left (t : K) (x z : Pt K D) (R : Fin D → Fin D → K) : rmtMultiply (t • x) R z = t * rmtMultiply x R z := by
  unfold rmtMultiply
  rw [Finset.mul_sum]
  refine Finset.sum_congr rfl (fun i _ => ?_)
  rw [Finset.mul_sum]
  exact Finset.sum_congr rfl (fun j _ => by rw [Pi.smul_apply, smul_eq_mul]; ring)

omit [LinearOrder K] [IsStrictOrderedRing K] in
lemma rmt_comm {R : Fin D → Fin D → K} (hR : ∀ i j, R i j = R j i) (x y : Pt K D) : rmtMultiply x R y = rmtMultiply y R x := by
  unfold rmtMultiply
  rw [Finset.sum_comm]
  exact Finset.sum_congr rfl (fun i _ => Finset.sum_congr rfl (fun j _ => by rw [hR j i]; ring))

omit [LinearOrder K] [IsStrictOrderedRing K] in
/-- Expansion of the quadratic form on a plane. -/
lemma rmt_expand {R : Fin D → Fin D → K} (hR : ∀ i j, R i j = R j i) (x u v : Pt K D) (s t : K) :
    rmtMultiply (x + (s • u + t • v)) R (x + (s • u + t • v)) =
      rmtMultiply v R v * t * t + 2 * rmtMultiply u R v * t * s + rmtMultiply u R u * s * s + 2 * rmtMultiply x R v * t +
        2 * rmtMultiply x R u * s + rmtMultiply x R x := by
  have hr : ∀ a b c : Pt K D, rmtMultiply a R (b + c) = rmtMultiply a R b + rmtMultiply a R c := by
    intro a b c; rw [rmt_comm hR, rmt_add_left, rmt_comm hR b, rmt_comm hR c]
  have hs : ∀ (r : K) (a b : Pt K D), rmtMultiply a R (r • b) = r * rmtMultiply a R b := by
    intro r a b; rw [rmt_comm hR, rmt_smul_left, rmt_comm hR b]
  simp only [rmt_add_left, rmt_smul_left, hr, hs]
  rw [rmt_comm hR v u, rmt_comm hR u x, rmt_comm hR v x]
  ring

omit [IsStrictOrderedRing K] in
lemma mem_ellipsoid (E : Ellipsoid K D) (x : Pt K D) : x ∈ E.set ↔ rmtMultiply (x - E.centroid) E.rmt (x - E.centroid) ≤ 1 := Iff.rfl

lemma clamp_mem (t : K) : 0 ≤ clamp t 0 1 ∧ clamp t 0 1 ≤ 1 := by
  unfold clamp
  split_ifs with h1 h2
  · exact ⟨le_rfl, zero_le_one⟩
  · exact ⟨zero_le_one, le_rfl⟩
  · exact ⟨not_lt.mp h1, not_lt.mp h2⟩

/-- The clamped stationary point minimises a convex quadratic on `[0, 1]`. -/
lemma clamp_min {A B : K} (hA : 0 < A) {t : K} (h0 : 0 ≤ t) (h1 : t ≤ 1) :
    A * clamp (-B / A) 0 1 * clamp (-B / A) 0 1 + 2 * B * clamp (-B / A) 0 1 ≤ A * t * t + 2 * B * t := by
  have e : A * (-B / A) = -B := mul_div_cancel₀ _ hA.ne'
  generalize -B / A = r at e
  unfold clamp
  split_ifs with h2 h3
  · have : 0 < B := by nlinarith
    nlinarith [mul_nonneg hA.le (mul_nonneg h0 h0), mul_nonneg this.le h0]
  · have hB : A + B < 0 := by nlinarith
    nlinarith [mul_nonneg hA.le (mul_self_nonneg (t - 1)), mul_nonneg (neg_nonneg.mpr hB.le) (by linarith : (0:K) ≤ 1 - t)]
  · have hB : B = -(A * r) := by linear_combination e
    nlinarith [mul_nonneg hA.le (mul_self_nonneg (t - r))]

lemma valid_pos {E : Ellipsoid K D} (hE : E.Valid) {v : Pt K D} (hv : v ≠ 0) : 0 < rmtMultiply v E.rmt v := hE.pos v hv

lemma rmt_nonneg {E : Ellipsoid K D} (hE : E.Valid) (v : Pt K D) : 0 ≤ rmtMultiply v E.rmt v := by
  by_cases h : v = 0
  · rw [h]; simp [rmtMultiply]
  · exact (hE.pos v h).le

/-- Shrinking towards the centre stays in the ellipsoid. -/
lemma lerp_centroid {E : Ellipsoid K D} (hE : E.Valid) {x : Pt K D} (hx : x ∈ E.set) {t : K} (h0 : 0 ≤ t) (h1 : t ≤ 1) :
    lerp x E.centroid t ∈ E.set := by
  rw [mem_ellipsoid] at hx ⊢
  have e : lerp x E.centroid t - E.centroid = (1 - t) • (x - E.centroid) := by
    funext d; simp [lerp]; ring
  rw [e, rmt_smul_left, rmt_comm hE.symm, rmt_smul_left]
  have hq := rmt_nonneg hE (x - E.centroid)
  have h2 : (1 - t) * ((1 - t) * rmtMultiply (x - E.centroid) E.rmt (x - E.centroid)) =
      ((1 - t) * (1 - t)) * rmtMultiply (x - E.centroid) E.rmt (x - E.centroid) := by ring
  rw [h2]
  have h3 : (1 - t) * (1 - t) ≤ 1 := by nlinarith
  calc _ ≤ 1 * rmtMultiply (x - E.centroid) E.rmt (x - E.centroid) := mul_le_mul_of_nonneg_right h3 hq
    _ ≤ 1 := by rw [one_mul]; exact hx

omit [Field K] [LinearOrder K] [IsStrictOrderedRing K] in
lemma orElse_some {x y : Option Bool} {p q : Prop} (hx : ∃ v, x = some v ∧ (v = true ↔ p)) (hy : ∃ v, y = some v ∧ (v = true ↔ q)) :
    ∃ v, orElse x y = some v ∧ (v = true ↔ p ∨ q) := by
  obtain ⟨v, rfl, hv⟩ := hx
  obtain ⟨w, rfl, hw⟩ := hy
  cases v with
  | true => exact ⟨true, rfl, by simp [hv.mp rfl]⟩
  | false =>
    refine ⟨w, rfl, hw.trans ⟨Or.inr, fun h => h.resolve_left (fun hp => ?_)⟩⟩
    exact absurd (hv.mpr hp) (by simp)

/-- Segment test, as an existence statement. -/
lemma segment_test {E : Ellipsoid K D} (hE : E.Valid) (S : Segment K D) :
    ∃ v, intersectsEllipsoidSegment E S = some v ∧ (v = true ↔ (S.set ∩ E.set).Nonempty) := by
  unfold intersectsEllipsoidSegment
  by_cases hab : S.a = S.b
  · rw [if_pos hab]
    refine ⟨_, rfl, ?_⟩
    unfold intersectsEllipsoidPoint
    rw [decide_eq_true_iff, ← mem_ellipsoid]
    constructor
    · exact fun h => ⟨S.a, a_mem S, h⟩
    · rintro ⟨x, ⟨u, v, -, -, h1, hx⟩, hE'⟩
      have : x = S.a := by funext d; rw [hx d, ← hab, ← add_mul, h1, one_mul]
      rwa [this] at hE'
  · rw [if_neg hab]
    have hne : S.b - S.a ≠ 0 := sub_ne_zero.mpr (Ne.symm hab)
    have hA := valid_pos hE hne
    dsimp only
    unfold divide
    rw [if_neg hA.ne']
    refine ⟨_, rfl, ?_⟩
    rw [decide_eq_true_eq]
    have hf : ∀ t : K, rmtMultiply (lerp S.a S.b t - E.centroid) E.rmt (lerp S.a S.b t - E.centroid) =
        rmtMultiply (S.b - S.a) E.rmt (S.b - S.a) * t * t + 2 * rmtMultiply (S.a - E.centroid) E.rmt (S.b - S.a) * t +
          rmtMultiply (S.a - E.centroid) E.rmt (S.a - E.centroid) := by
      intro t
      have e : lerp S.a S.b t - E.centroid = (S.a - E.centroid) + ((0:K) • (S.b - S.a) + t • (S.b - S.a)) := by
        funext d; simp [lerp]; ring
      rw [e, rmt_expand hE.symm]; ring
    rw [← hf]
    constructor
    · intro h
      obtain ⟨c0, c1⟩ := clamp_mem (-rmtMultiply (S.a - E.centroid) E.rmt (S.b - S.a) / rmtMultiply (S.b - S.a) E.rmt (S.b - S.a))
      exact ⟨_, mem_of_param S c0 c1 (fun _ => rfl), h⟩
    · rintro ⟨x, ⟨u, t, hu, ht, h1, hx⟩, hE'⟩
      have hu' : u = 1 - t := by linear_combination h1
      have e : x = lerp S.a S.b t := by funext d; rw [hx d, hu', lerp]; ring
      rw [e, mem_ellipsoid, hf] at hE'
      rw [hf]
      have := clamp_min (B := rmtMultiply (S.a - E.centroid) E.rmt (S.b - S.a)) hA ht (by linarith : t ≤ 1)
      linarith

/-! ## Property theorems -/

/-- **C40.** The point test. -/
theorem intersects_ellipsoid_point (E : Ellipsoid K D) (p : Pt K D) : intersectsEllipsoidPoint E p = true ↔ p ∈ E.set := by
  unfold intersectsEllipsoidPoint
  rw [decide_eq_true_iff, mem_ellipsoid]

/-- **C40.** The segment test is exact in every dimension, degenerate segments included. -/
theorem intersects_ellipsoid_segment (E : Ellipsoid K D) (hE : E.Valid) (S : Segment K D) :
    ∃ v, intersectsEllipsoidSegment E S = some v ∧ (v = true ↔ (S.set ∩ E.set).Nonempty) := segment_test hE S

/-- The four sides of a valid box. -/
lemma edges_test {E : Ellipsoid K 2} (hE : E.Valid) (B : Box K 2) (hB : B.Valid) (hc : E.centroid ∉ B.set) :
    ∃ v, edges2 E B = some v ∧ (v = true ↔ (B.set ∩ E.set).Nonempty) := by
  obtain ⟨v, hv, hiff⟩ := orElse_some (segment_test hE ⟨B.lo, ![B.lo 0, B.hi 1]⟩)
    (orElse_some (segment_test hE ⟨B.lo, ![B.hi 0, B.lo 1]⟩)
      (orElse_some (segment_test hE ⟨B.hi, ![B.lo 0, B.hi 1]⟩) (segment_test hE ⟨B.hi, ![B.hi 0, B.lo 1]⟩)))
  refine ⟨v, hv, hiff.trans ?_⟩
  have hconv : ∀ (a b : Pt K 2), a ∈ B.set → b ∈ B.set → (⟨a, b⟩ : Segment K 2).set ⊆ B.set := by
    rintro a b ha hb x ⟨u, v, hu, hv, h1, hx⟩ d
    rw [hx d]
    have e1 : ∀ m : K, m = u * m + v * m := fun m => by rw [← add_mul, h1, one_mul]
    constructor
    · rw [e1 (B.lo d)]
      exact add_le_add (mul_le_mul_of_nonneg_left (ha d).1 hu) (mul_le_mul_of_nonneg_left (hb d).1 hv)
    · rw [e1 (B.hi d)]
      exact add_le_add (mul_le_mul_of_nonneg_left (ha d).2 hu) (mul_le_mul_of_nonneg_left (hb d).2 hv)
  have hlo : B.lo ∈ B.set := fun d => ⟨le_rfl, hB d⟩
  have hhi : B.hi ∈ B.set := fun d => ⟨hB d, le_rfl⟩
  have htl : (![B.lo 0, B.hi 1] : Pt K 2) ∈ B.set := by
    intro d; fin_cases d
    · exact ⟨le_rfl, hB 0⟩
    · exact ⟨hB 1, le_rfl⟩
  have hbr : (![B.hi 0, B.lo 1] : Pt K 2) ∈ B.set := by
    intro d; fin_cases d
    · exact ⟨hB 0, le_rfl⟩
    · exact ⟨le_rfl, hB 1⟩
  constructor
  · rintro (⟨x, hx, hy⟩ | ⟨x, hx, hy⟩ | ⟨x, hx, hy⟩ | ⟨x, hx, hy⟩)
    · exact ⟨x, hconv _ _ hlo htl hx, hy⟩
    · exact ⟨x, hconv _ _ hlo hbr hx, hy⟩
    · exact ⟨x, hconv _ _ hhi htl hx, hy⟩
    · exact ⟨x, hconv _ _ hhi hbr hx, hy⟩
  · rintro ⟨x, hxB, hxE⟩
    obtain ⟨t, t0, t1, hy, d, hd⟩ := exit_box B x E.centroid hxB hc
    have hyE := lerp_centroid hE hxE t0 t1
    obtain ⟨y0, y0'⟩ := hy 0
    obtain ⟨y1, y1'⟩ := hy 1
    generalize lerp x E.centroid t = y at *
    fin_cases d
    · rcases hd with hd | hd
      · left
        exact ⟨y, mem_edge _ y 0 1 (by decide) rfl hd ⟨(min_le_left _ _).trans y1, y1'.trans (le_max_right _ _)⟩, hyE⟩
      · right; right; right
        exact ⟨y, mem_edge _ y 0 1 (by decide) rfl hd ⟨(min_le_right _ _).trans y1, y1'.trans (le_max_left _ _)⟩, hyE⟩
    · rcases hd with hd | hd
      · right; left
        exact ⟨y, mem_edge _ y 1 0 (by decide) rfl hd ⟨(min_le_left _ _).trans y0, y0'.trans (le_max_right _ _)⟩, hyE⟩
      · right; right; left
        exact ⟨y, mem_edge _ y 1 0 (by decide) rfl hd ⟨(min_le_right _ _).trans y0, y0'.trans (le_max_left _ _)⟩, hyE⟩

/-- An ellipsoid with a scalar matrix is a sphere. -/
lemma sphere_set {E : Ellipsoid ℝ D} (ρ : ℝ) (hρ : 0 < ρ) (hR : ∀ i j, E.rmt i j = if i = j then ρ else 0) :
    (⟨E.centroid, 1 / Real.sqrt ρ⟩ : Sphere ℝ D).set = E.set := by
  ext x
  rw [mem_ellipsoid]
  have e : rmtMultiply (x - E.centroid) E.rmt (x - E.centroid) = ρ * dist2 x E.centroid := by
    unfold rmtMultiply dist2
    rw [Finset.mul_sum]
    refine Finset.sum_congr rfl (fun i _ => ?_)
    rw [Finset.sum_eq_single i]
    · rw [hR, if_pos rfl, Pi.sub_apply]; ring
    · intro j _ hj; rw [hR, if_neg (Ne.symm hj)]; ring
    · intro h; exact absurd (Finset.mem_univ i) h
  rw [e]
  have h2 : (1 / Real.sqrt ρ) ^ 2 = 1 / ρ := by rw [div_pow, one_pow, Real.sq_sqrt hρ.le]
  show 0 ≤ 1 / Real.sqrt ρ ∧ dist2 x E.centroid ≤ (1 / Real.sqrt ρ) ^ 2 ↔ _
  rw [h2, le_div_iff₀ hρ, mul_comm, and_iff_right (by positivity)]

/-- The sphere case. -/
lemma sphere_case {E : Ellipsoid ℝ D} (ρ : ℝ) (hρ : 0 < ρ) (hR : ∀ i j, E.rmt i j = if i = j then ρ else 0) (B : Box ℝ D) (hB : B.Valid) :
    ∃ v, (divide 1 (Real.sqrt ρ)).map (fun r => intersectsSphereBox ⟨E.centroid, r⟩ B) = some v ∧
      (v = true ↔ (B.set ∩ E.set).Nonempty) := by
  unfold divide
  rw [if_neg (Real.sqrt_pos.mpr hρ).ne']
  refine ⟨_, rfl, ?_⟩
  dsimp only
  rw [intersects_sphere_box _ _ hB, sphere_set ρ hρ hR, Set.inter_comm]

/-- The diagonal is positive. -/
lemma diag_pos {E : Ellipsoid K D} (hE : E.Valid) (i : Fin D) : 0 < E.rmt i i := by
  have := hE.pos (fun d => if d = i then 1 else 0) (fun h => by have := congrFun h i; simp at this)
  simpa using this

/-- A rectangle with a corner `a` and sides to `b` and `c`. -/
def Rect (a b c : Pt K 3) : Set (Pt K 3) :=
  {x | ∃ s t : K, 0 ≤ s ∧ s ≤ 1 ∧ 0 ≤ t ∧ t ≤ 1 ∧ ∀ d, x d = a d + s * (b d - a d) + t * (c d - a d)}

/-- The face test never faults, and true answers have a witness on the face; with `A12 = 0` the test is
exact. -/
lemma face_test {E : Ellipsoid K 3} (hE : E.Valid) (a b c : Pt K 3) (j : Fin 3) (hb : b j = a j) (hc : ∀ d, d ≠ j → c d = a d) :
    ∃ v, intersectsFace E a b c = some v ∧ (v = true → (Rect a b c ∩ E.set).Nonempty) ∧
      (rmtMultiply (b - a) E.rmt (c - a) = 0 → (Rect a b c ∩ E.set).Nonempty → v = true) := by
  unfold intersectsFace
  by_cases hab : a = b
  · rw [if_pos hab]
    obtain ⟨v, hv, hiff⟩ := segment_test hE ⟨a, c⟩
    refine ⟨v, hv, fun h => ?_, fun _ h => hiff.mpr ?_⟩
    · obtain ⟨x, ⟨u, t, hu, ht, h1, hx⟩, hxE⟩ := hiff.mp h
      have hu' : u = 1 - t := by linear_combination h1
      exact ⟨x, ⟨0, t, le_rfl, zero_le_one, ht, by linarith, fun d => by rw [hx d, hu']; ring⟩, hxE⟩
    · obtain ⟨x, ⟨s, t, s0, s1, t0, t1, hx⟩, hxE⟩ := h
      refine ⟨x, mem_of_param _ t0 t1 (fun d => ?_), hxE⟩
      rw [hx d, ← hab]; ring
  rw [if_neg hab]
  by_cases hac : a = c
  · rw [if_pos hac]
    obtain ⟨v, hv, hiff⟩ := segment_test hE ⟨a, b⟩
    refine ⟨v, hv, fun h => ?_, fun _ h => hiff.mpr ?_⟩
    · obtain ⟨x, ⟨u, t, hu, ht, h1, hx⟩, hxE⟩ := hiff.mp h
      have hu' : u = 1 - t := by linear_combination h1
      exact ⟨x, ⟨t, 0, ht, by linarith, le_rfl, zero_le_one, fun d => by rw [hx d, hu']; ring⟩, hxE⟩
    · obtain ⟨x, ⟨s, t, s0, s1, t0, t1, hx⟩, hxE⟩ := h
      refine ⟨x, mem_of_param _ s0 s1 (fun d => ?_), hxE⟩
      rw [hx d, ← hac]; ring
  rw [if_neg hac]
  have hcj : c j - a j ≠ 0 := by
    intro h
    apply hac
    funext d
    by_cases hd : d = j
    · subst hd; exact (sub_eq_zero.mp h).symm
    · exact (hc d hd).symm
  have hbc : b ≠ c := by
    intro h
    rw [← h, hb, sub_self] at hcj
    exact hcj rfl
  rw [if_neg hbc]
  have hA22 : 0 < rmtMultiply (b - a) E.rmt (b - a) := valid_pos hE (sub_ne_zero.mpr (Ne.symm hab))
  have hA11 : 0 < rmtMultiply (c - a) E.rmt (c - a) := valid_pos hE (sub_ne_zero.mpr (Ne.symm hac))
  -- the determinant is positive
  have hdet : 0 < rmtMultiply (c - a) E.rmt (c - a) * rmtMultiply (b - a) E.rmt (b - a) -
      rmtMultiply (b - a) E.rmt (c - a) * rmtMultiply (b - a) E.rmt (c - a) := by
    have hw : (0 : Pt K 3) + ((-rmtMultiply (b - a) E.rmt (c - a)) • (b - a) + rmtMultiply (b - a) E.rmt (b - a) • (c - a)) ≠ 0 := by
      intro h
      have := congrFun h j
      simp [hb] at this
      rcases this with h | h
      · exact hA22.ne' h
      · exact hcj h
    have := valid_pos hE hw
    rw [rmt_expand hE.symm] at this
    have z : ∀ y : Pt K 3, rmtMultiply 0 E.rmt y = 0 := by intro y; simp [rmtMultiply]
    rw [z, z, z] at this
    by_contra hn
    push Not at hn
    nlinarith [mul_nonpos_of_nonneg_of_nonpos hA22.le hn]
  dsimp only
  unfold divide
  rw [if_neg hdet.ne', if_neg hdet.ne']
  refine ⟨_, rfl, ?_⟩
  rw [decide_eq_true_eq]
  have hf : ∀ s t : K, rmtMultiply ((fun d => a d + s * (b d - a d) + t * (c d - a d)) - E.centroid) E.rmt
      ((fun d => a d + s * (b d - a d) + t * (c d - a d)) - E.centroid) =
      rmtMultiply (c - a) E.rmt (c - a) * t * t + 2 * rmtMultiply (b - a) E.rmt (c - a) * t * s + rmtMultiply (b - a) E.rmt (b - a) * s * s +
        2 * rmtMultiply (a - E.centroid) E.rmt (c - a) * t + 2 * rmtMultiply (a - E.centroid) E.rmt (b - a) * s +
          rmtMultiply (a - E.centroid) E.rmt (a - E.centroid) := by
    intro s t
    rw [← rmt_expand hE.symm]
    have e : (fun d => a d + s * (b d - a d) + t * (c d - a d)) - E.centroid = (a - E.centroid) + (s • (b - a) + t • (c - a)) := by
      funext d; simp; ring
    rw [e]
  constructor
  · intro h
    rw [← hf] at h
    exact ⟨_, ⟨_, _, (clamp_mem _).1, (clamp_mem _).2, (clamp_mem _).1, (clamp_mem _).2, fun _ => rfl⟩, h⟩
  · rintro h12 ⟨x, ⟨s, t, s0, s1, t0, t1, hx⟩, hxE⟩
    have ex : x = fun d => a d + s * (b d - a d) + t * (c d - a d) := funext hx
    rw [ex, mem_ellipsoid, hf] at hxE
    rw [h12] at hxE ⊢
    have e1 : (0 * rmtMultiply (a - E.centroid) E.rmt (c - a) - rmtMultiply (c - a) E.rmt (c - a) * rmtMultiply (a - E.centroid) E.rmt (b - a)) /
        (rmtMultiply (c - a) E.rmt (c - a) * rmtMultiply (b - a) E.rmt (b - a) - 0 * 0) =
        -rmtMultiply (a - E.centroid) E.rmt (b - a) / rmtMultiply (b - a) E.rmt (b - a) := by
      rw [div_eq_div_iff (by rw [mul_zero, sub_zero]; exact (mul_pos hA11 hA22).ne') hA22.ne']; ring
    have e2 : (0 * rmtMultiply (a - E.centroid) E.rmt (b - a) - rmtMultiply (b - a) E.rmt (b - a) * rmtMultiply (a - E.centroid) E.rmt (c - a)) /
        (rmtMultiply (c - a) E.rmt (c - a) * rmtMultiply (b - a) E.rmt (b - a) - 0 * 0) =
        -rmtMultiply (a - E.centroid) E.rmt (c - a) / rmtMultiply (c - a) E.rmt (c - a) := by
      rw [div_eq_div_iff (by rw [mul_zero, sub_zero]; exact (mul_pos hA11 hA22).ne') hA11.ne']; ring
    rw [e1, e2]
    have m1 := clamp_min (B := rmtMultiply (a - E.centroid) E.rmt (b - a)) hA22 s0 s1
    have m2 := clamp_min (B := rmtMultiply (a - E.centroid) E.rmt (c - a)) hA11 t0 t1
    linarith

/-- Faces of a box are in the box. -/
lemma rect_subset (B : Box K 3) {a b c : Pt K 3} (ha : a ∈ B.set) (hb : b ∈ B.set) (hc : c ∈ B.set) (j : Fin 3)
    (hbj : b j = a j) (hcj : ∀ d, d ≠ j → c d = a d) : Rect a b c ⊆ B.set := by
  rintro x ⟨s, t, s0, s1, t0, t1, hx⟩ d
  have conv : ∀ r y z : K, 0 ≤ r → r ≤ 1 → B.lo d ≤ y → y ≤ B.hi d → B.lo d ≤ z → z ≤ B.hi d →
      B.lo d ≤ y + r * (z - y) ∧ y + r * (z - y) ≤ B.hi d := by
    intro r y z r0 r1 h1 h2 h3 h4
    have h5 : 0 ≤ 1 - r := by linarith
    constructor
    · nlinarith [mul_le_mul_of_nonneg_left h1 h5, mul_le_mul_of_nonneg_left h3 r0]
    · nlinarith [mul_le_mul_of_nonneg_left h2 h5, mul_le_mul_of_nonneg_left h4 r0]
  rw [hx d]
  by_cases hd : d = j
  · subst hd
    rw [hbj, sub_self, mul_zero, add_zero]
    exact conv t _ _ t0 t1 (ha d).1 (ha d).2 (hc d).1 (hc d).2
  · rw [hcj d hd, sub_self, mul_zero, add_zero]
    exact conv s _ _ s0 s1 (ha d).1 (ha d).2 (hb d).1 (hb d).2

lemma param_between {a b x : K} (h : min a b ≤ x ∧ x ≤ max a b) : ∃ s, 0 ≤ s ∧ s ≤ 1 ∧ x = a + s * (b - a) := by
  by_cases hab : a = b
  · subst hab
    rw [min_self, max_self] at h
    exact ⟨0, le_rfl, zero_le_one, by rw [le_antisymm h.2 h.1]; ring⟩
  · obtain ⟨h1, h2, h3⟩ := between hab h
    exact ⟨_, h1, h2, h3⟩

/-- A point of a box on a side is in the rectangle of that side. -/
lemma mem_rect (a b c x : Pt K 3) (i j k : Fin 3) (hall : ∀ d, d = i ∨ d = j ∨ d = k) (hk : b k = a k) (hk' : c k = a k) (hxk : x k = a k)
    (hci : c i = a i) (hbj : b j = a j) (hi : min (a i) (b i) ≤ x i ∧ x i ≤ max (a i) (b i))
    (hj : min (a j) (c j) ≤ x j ∧ x j ≤ max (a j) (c j)) : x ∈ Rect a b c := by
  obtain ⟨s, s0, s1, hs⟩ := param_between hi
  obtain ⟨t, t0, t1, ht⟩ := param_between hj
  refine ⟨s, t, s0, s1, t0, t1, fun d => ?_⟩
  rcases hall d with rfl | rfl | rfl
  · rw [hci, sub_self, mul_zero, add_zero]; exact hs
  · rw [hbj, sub_self, mul_zero, add_zero]; exact ht
  · rw [hk, hk', hxk]; ring

/-- The rectangles of the six face tests, with the index on which the third point differs. -/
def boxFaces (B : Box K 3) : List (Pt K 3 × Pt K 3 × Pt K 3 × Fin 3) :=
  [(B.lo, ![B.hi 0, B.lo 1, B.lo 2], ![B.lo 0, B.hi 1, B.lo 2], 1), (B.lo, ![B.hi 0, B.lo 1, B.lo 2], ![B.lo 0, B.lo 1, B.hi 2], 2),
   (B.lo, ![B.lo 0, B.hi 1, B.lo 2], ![B.lo 0, B.lo 1, B.hi 2], 2), (B.hi, ![B.lo 0, B.hi 1, B.hi 2], ![B.hi 0, B.lo 1, B.hi 2], 1),
   (B.hi, ![B.lo 0, B.hi 1, B.hi 2], ![B.hi 0, B.hi 1, B.lo 2], 2), (B.hi, ![B.hi 0, B.lo 1, B.hi 2], ![B.hi 0, B.hi 1, B.lo 2], 2)]

omit [Field K] [IsStrictOrderedRing K] in
lemma boxFaces_spec (B : Box K 3) (hB : B.Valid) : ∀ f ∈ boxFaces B, f.1 ∈ B.set ∧ f.2.1 ∈ B.set ∧ f.2.2.1 ∈ B.set ∧
    f.2.1 f.2.2.2 = f.1 f.2.2.2 ∧ ∀ d, d ≠ f.2.2.2 → f.2.2.1 d = f.1 d := by
  have h0 := hB 0
  have h1 := hB 1
  have h2 := hB 2
  intro f hf
  simp only [boxFaces, List.mem_cons, List.not_mem_nil, or_false] at hf
  rcases hf with rfl | rfl | rfl | rfl | rfl | rfl
  all_goals
    refine ⟨fun d => ?_, fun d => ?_, fun d => ?_, rfl, fun d hd => ?_⟩
    · exact ⟨by first | exact le_rfl | exact hB d, by first | exact le_rfl | exact hB d⟩
    · fin_cases d <;> simp [h0, h1, h2]
    · fin_cases d <;> simp [h0, h1, h2]
    · fin_cases d <;> first | rfl | exact absurd rfl hd

/-- The boundary of a box is covered by the six rectangles. -/
lemma boxFaces_cover (B : Box K 3) (y : Pt K 3) (hy : y ∈ B.set) (d : Fin 3) (hd : y d = B.lo d ∨ y d = B.hi d) :
    ∃ f ∈ boxFaces B, y ∈ Rect f.1 f.2.1 f.2.2.1 := by
  obtain ⟨a0, b0⟩ := hy 0
  obtain ⟨a1, b1⟩ := hy 1
  obtain ⟨a2, b2⟩ := hy 2
  have lo : ∀ {p q x : K}, p ≤ x → x ≤ q → min p q ≤ x ∧ x ≤ max p q :=
    fun h1 h2 => ⟨(min_le_left _ _).trans h1, h2.trans (le_max_right _ _)⟩
  have hi : ∀ {p q x : K}, p ≤ x → x ≤ q → min q p ≤ x ∧ x ≤ max q p :=
    fun h1 h2 => ⟨(min_le_right _ _).trans h1, h2.trans (le_max_left _ _)⟩
  fin_cases d
  · rcases hd with hd | hd
    · exact ⟨(B.lo, ![B.lo 0, B.hi 1, B.lo 2], ![B.lo 0, B.lo 1, B.hi 2], 2), by simp [boxFaces],
        mem_rect _ _ _ y 1 2 0 (by decide) rfl rfl hd rfl rfl (lo a1 b1) (lo a2 b2)⟩
    · exact ⟨(B.hi, ![B.hi 0, B.lo 1, B.hi 2], ![B.hi 0, B.hi 1, B.lo 2], 2), by simp [boxFaces],
        mem_rect _ _ _ y 1 2 0 (by decide) rfl rfl hd rfl rfl (hi a1 b1) (hi a2 b2)⟩
  · rcases hd with hd | hd
    · exact ⟨(B.lo, ![B.hi 0, B.lo 1, B.lo 2], ![B.lo 0, B.lo 1, B.hi 2], 2), by simp [boxFaces],
        mem_rect _ _ _ y 0 2 1 (by decide) rfl rfl hd rfl rfl (lo a0 b0) (lo a2 b2)⟩
    · exact ⟨(B.hi, ![B.lo 0, B.hi 1, B.hi 2], ![B.hi 0, B.hi 1, B.lo 2], 2), by simp [boxFaces],
        mem_rect _ _ _ y 0 2 1 (by decide) rfl rfl hd rfl rfl (hi a0 b0) (hi a2 b2)⟩
  · rcases hd with hd | hd
    · exact ⟨(B.lo, ![B.hi 0, B.lo 1, B.lo 2], ![B.lo 0, B.hi 1, B.lo 2], 1), by simp [boxFaces],
        mem_rect _ _ _ y 0 1 2 (by decide) rfl rfl hd rfl rfl (lo a0 b0) (lo a1 b1)⟩
    · exact ⟨(B.hi, ![B.lo 0, B.hi 1, B.hi 2], ![B.hi 0, B.lo 1, B.hi 2], 1), by simp [boxFaces],
        mem_rect _ _ _ y 0 1 2 (by decide) rfl rfl hd rfl rfl (hi a0 b0) (hi a1 b1)⟩

/-- A chain of `||` without faults. -/
def orList : List (Option Bool) → Option Bool
  | [] => some false
  | [x] => x
  | x :: y :: l => orElse x (orList (y :: l))

omit [Field K] [LinearOrder K] [IsStrictOrderedRing K] in
lemma orList_spec {α : Type} (l : List α) (hl : l ≠ []) (v : α → Option Bool) (hv : ∀ a ∈ l, ∃ b, v a = some b) :
    ∃ b, orList (l.map v) = some b ∧ (b = true ↔ ∃ a ∈ l, v a = some true) := by
  induction l with
  | nil => exact absurd rfl hl
  | cons x l ih =>
    rcases l with _ | ⟨y, l⟩
    · obtain ⟨b, hb⟩ := hv x (by simp)
      exact ⟨b, hb, by simp [hb]⟩
    · obtain ⟨b, hb, hiff⟩ := ih (by simp) (fun a ha => hv a (List.mem_cons_of_mem _ ha))
      obtain ⟨c, hc⟩ := hv x (by simp)
      obtain ⟨r, hr, hr'⟩ := orElse_some ⟨c, hc, Iff.rfl⟩ ⟨b, hb, Iff.rfl⟩
      refine ⟨r, hr, hr'.trans ?_⟩
      rw [hiff]
      constructor
      · rintro (rfl | ⟨a, ha, h⟩)
        · exact ⟨x, by simp, hc⟩
        · exact ⟨a, List.mem_cons_of_mem _ ha, h⟩
      · rintro ⟨a, ha, h⟩
        rcases List.mem_cons.mp ha with rfl | ha
        · left; rw [hc] at h; exact Option.some.inj h
        · right; exact ⟨a, ha, h⟩

lemma faces_eq (E : Ellipsoid K 3) (B : Box K 3) :
    faces3 E B = orList ((boxFaces B).map (fun f => intersectsFace E f.1 f.2.1 f.2.2.1)) := rfl

/-- The six faces. -/
lemma faces_test {E : Ellipsoid K 3} (hE : E.Valid) (B : Box K 3) (hB : B.Valid) (hc : E.centroid ∉ B.set) :
    ∃ v, faces3 E B = some v ∧ (v = true → (B.set ∩ E.set).Nonempty) ∧
      ((∀ i j, i ≠ j → E.rmt i j = 0) → (B.set ∩ E.set).Nonempty → v = true) := by
  rw [faces_eq]
  have hspec := boxFaces_spec B hB
  obtain ⟨v, hv, hiff⟩ := orList_spec (boxFaces B) (by simp [boxFaces]) (fun f => intersectsFace E f.1 f.2.1 f.2.2.1) (fun f hf => by
    obtain ⟨-, -, -, h4, h5⟩ := hspec f hf
    obtain ⟨b, hb, -⟩ := face_test hE f.1 f.2.1 f.2.2.1 f.2.2.2 h4 h5
    exact ⟨b, hb⟩)
  refine ⟨v, hv, fun h => ?_, fun hdiag h => hiff.mpr ?_⟩
  · obtain ⟨f, hf, hft⟩ := hiff.mp h
    obtain ⟨h1, h2, h3, h4, h5⟩ := hspec f hf
    obtain ⟨b, hb, hs, -⟩ := face_test hE f.1 f.2.1 f.2.2.1 f.2.2.2 h4 h5
    rw [hb] at hft
    obtain ⟨x, hx, hxE⟩ := hs (Option.some.inj hft)
    exact ⟨x, rect_subset B h1 h2 h3 _ h4 h5 hx, hxE⟩
  · obtain ⟨x, hxB, hxE⟩ := h
    obtain ⟨t, t0, t1, hy, d, hd⟩ := exit_box B x E.centroid hxB hc
    obtain ⟨f, hf, hyf⟩ := boxFaces_cover B _ hy d hd
    obtain ⟨h1, h2, h3, h4, h5⟩ := hspec f hf
    obtain ⟨b, hb, -, hs⟩ := face_test hE f.1 f.2.1 f.2.2.1 f.2.2.2 h4 h5
    have h12 : rmtMultiply (f.2.1 - f.1) E.rmt (f.2.2.1 - f.1) = 0 := by
      unfold rmtMultiply
      refine Finset.sum_eq_zero (fun i _ => Finset.sum_eq_zero (fun k _ => ?_))
      by_cases hik : i = k
      · subst hik
        by_cases hd : i = f.2.2.2
        · have : (f.2.1 - f.1) i = 0 := by rw [hd, Pi.sub_apply, h4, sub_self]
          rw [this]; ring
        · have : (f.2.2.1 - f.1) i = 0 := by rw [Pi.sub_apply, h5 i hd, sub_self]
          rw [this]; ring
      · rw [hdiag i k hik]; ring
    exact ⟨f, hf, by rw [hb, hs h12 ⟨_, hyf, lerp_centroid hE hxE t0 t1⟩]⟩

lemma centroid_mem (E : Ellipsoid K D) : E.centroid ∈ E.set := by
  rw [mem_ellipsoid, sub_self]
  simp [rmtMultiply]

/-- **C40.** In two dimensions the box test is exact for every ellipsoid with a symmetric positive definite
matrix and every box with ordered corners, and never divides by zero. -/
theorem intersects_ellipsoid_box_2d (E : Ellipsoid ℝ 2) (hE : E.Valid) (B : Box ℝ 2) (hB : B.Valid) :
    ∃ v, intersectsEllipsoidBox2 E B = some v ∧ (v = true ↔ (B.set ∩ E.set).Nonempty) := by
  unfold intersectsEllipsoidBox2
  split_ifs with h1 h2
  · unfold isSphere2 at h1
    rw [Bool.and_eq_true, decide_eq_true_iff, decide_eq_true_iff] at h1
    refine sphere_case _ (diag_pos hE 0) (fun i j => ?_) B hB
    have := hE.symm 0 1
    fin_cases i <;> fin_cases j <;> simp [h1.1, h1.2, ← this]
  · rw [intersectsPointBox_iff] at h2
    exact ⟨true, rfl, iff_of_true rfl ⟨_, h2, centroid_mem E⟩⟩
  · rw [intersectsPointBox_iff] at h2
    exact edges_test hE B hB h2

/-- **C40.** In three dimensions the box test never divides by zero and a true answer is right. -/
theorem intersects_ellipsoid_box_3d_sound (E : Ellipsoid ℝ 3) (hE : E.Valid) (B : Box ℝ 3) (hB : B.Valid) :
    ∃ v, intersectsEllipsoidBox3 E B = some v ∧ (v = true → (B.set ∩ E.set).Nonempty) := by
  unfold intersectsEllipsoidBox3
  split_ifs with h1 h2
  · unfold isSphere3 at h1
    simp only [Bool.and_eq_true, decide_eq_true_iff] at h1
    obtain ⟨⟨h3, h4⟩, ⟨h5, h6⟩, h7⟩ := h1
    obtain ⟨v, hv, hiff⟩ := sphere_case (E := E) _ (diag_pos hE 0) (fun i j => by
      have e1 := (hE.symm 1 0).trans h4
      have e2 := (hE.symm 2 0).trans h6
      have e3 := (hE.symm 2 1).trans h7
      fin_cases i <;> fin_cases j <;> simp [h4, h6, h7, e1, e2, e3, ← h3, ← h5]) B hB
    exact ⟨v, hv, hiff.mp⟩
  · rw [intersectsPointBox_iff] at h2
    exact ⟨true, rfl, fun _ => ⟨_, h2, centroid_mem E⟩⟩
  · rw [intersectsPointBox_iff] at h2
    obtain ⟨v, hv, h, -⟩ := faces_test hE B hB h2
    exact ⟨v, hv, h⟩

/-- **C40** (partial). In three dimensions the box test is exact for ellipsoids whose axes are parallel to
the coordinate axes. Missing: the other ellipsoids, for which it can miss an intersection
(`intersects_ellipsoid_box_3d_wrong`), because the two parameters of a face are clamped independently. -/
theorem intersects_ellipsoid_box_3d_partial (E : Ellipsoid ℝ 3) (hE : E.Valid) (hdiag : ∀ i j, i ≠ j → E.rmt i j = 0)
    (B : Box ℝ 3) (hB : B.Valid) : ∃ v, intersectsEllipsoidBox3 E B = some v ∧ (v = true ↔ (B.set ∩ E.set).Nonempty) := by
  unfold intersectsEllipsoidBox3
  split_ifs with h1 h2
  · unfold isSphere3 at h1
    simp only [Bool.and_eq_true, decide_eq_true_iff] at h1
    obtain ⟨⟨h3, h4⟩, ⟨h5, h6⟩, h7⟩ := h1
    refine sphere_case (E := E) _ (diag_pos hE 0) (fun i j => ?_) B hB
    by_cases hij : i = j
    · subst hij; rw [if_pos rfl]; fin_cases i <;> simp [← h3, ← h5]
    · rw [if_neg hij, hdiag i j hij]
  · rw [intersectsPointBox_iff] at h2
    exact ⟨true, rfl, iff_of_true rfl ⟨_, h2, centroid_mem E⟩⟩
  · rw [intersectsPointBox_iff] at h2
    obtain ⟨v, hv, h, h'⟩ := faces_test hE B hB h2
    exact ⟨v, hv, h, h' hdiag⟩

/-- **C40, refuted** in three dimensions. The point (1/2, 2, 1) of the box [-1,1]×[2,4]×[1,4] is in the
ellipsoid centred at the origin, the matrix is symmetric and positive definite, and the test answers no. -/
theorem intersects_ellipsoid_box_3d_wrong :
    let E : Ellipsoid ℝ 3 := ⟨![0, 0, 0], ![![4/19, -2/19, 2/19], ![-2/19, 4/19, 0], ![2/19, 0, 4/19]]⟩
    let B : Box ℝ 3 := ⟨![-1, 2, 1], ![1, 4, 4]⟩
    E.Valid ∧ B.Valid ∧ (B.set ∩ E.set).Nonempty ∧ intersectsEllipsoidBox3 E B = some false := by
  intro E B
  refine ⟨⟨?_, ?_⟩, ?_, ⟨![1/2, 2, 1], ?_, ?_⟩, ?_⟩
  · intro i j; fin_cases i <;> fin_cases j <;> simp [E]
  · intro v hv
    have e : ∑ i, ∑ j, v i * E.rmt i j * v j = 2/19 * ((v 0 - v 1) ^ 2 + (v 0 + v 2) ^ 2 + v 1 ^ 2 + v 2 ^ 2) := by
      simp [E, Fin.sum_univ_three]; ring
    rw [e]
    by_contra hn
    push Not at hn
    have h1 : v 1 ^ 2 = 0 := by nlinarith [sq_nonneg (v 0 - v 1), sq_nonneg (v 0 + v 2), sq_nonneg (v 1), sq_nonneg (v 2)]
    have h2 : v 2 ^ 2 = 0 := by nlinarith [sq_nonneg (v 0 - v 1), sq_nonneg (v 0 + v 2), sq_nonneg (v 1), sq_nonneg (v 2)]
    have h3 : (v 0 - v 1) ^ 2 = 0 := by nlinarith [sq_nonneg (v 0 - v 1), sq_nonneg (v 0 + v 2), sq_nonneg (v 1), sq_nonneg (v 2)]
    rw [pow_eq_zero_iff two_ne_zero] at h1 h2 h3
    apply hv
    funext d
    fin_cases d
    · show v 0 = 0; linarith
    · exact h1
    · exact h2
  · intro d; fin_cases d <;> norm_num [B]
  · intro d; fin_cases d <;> norm_num [B]
  · show _ ≤ (1:ℝ)
    simp [E, Fin.sum_univ_three]; norm_num
  · have hs : isSphere3 E.rmt = false := by simp [isSphere3, E]
    have hc : intersectsPointBox E.centroid B = false := by
      rw [← Bool.not_eq_true, intersectsPointBox_iff]
      intro h
      have := (h 1).1
      norm_num [E, B] at this
    unfold intersectsEllipsoidBox3
    rw [hs, hc]
    rw [if_neg (by simp), if_neg (by simp)]
    have n1 : ∀ (a b c a' b' c' : ℝ), a ≠ a' ∨ b ≠ b' ∨ c ≠ c' → (![a, b, c] : Pt ℝ 3) ≠ ![a', b', c'] := by
      intro a b c a' b' c' h e
      have h0 := congrFun e 0
      have h1 := congrFun e 1
      have h2 := congrFun e 2
      simp at h0 h1 h2
      rcases h with h | h | h
      exacts [h h0, h h1, h h2]
    have face : ∀ a b c, a ≠ b → a ≠ c → b ≠ c → 
        ∀ A11 A12 A22 B1 B2 C, rmtMultiply (c - a) E.rmt (c - a) = A11 → rmtMultiply (b - a) E.rmt (c - a) = A12 →
        rmtMultiply (b - a) E.rmt (b - a) = A22 → rmtMultiply (a - E.centroid) E.rmt (c - a) = B1 →
        rmtMultiply (a - E.centroid) E.rmt (b - a) = B2 → rmtMultiply (a - E.centroid) E.rmt (a - E.centroid) = C →
        A11 * A22 - A12 * A12 ≠ 0 →
        1 < A11 * clamp ((A12 * B2 - A22 * B1) / (A11 * A22 - A12 * A12)) 0 1 * clamp ((A12 * B2 - A22 * B1) / (A11 * A22 - A12 * A12)) 0 1 +
          2 * A12 * clamp ((A12 * B2 - A22 * B1) / (A11 * A22 - A12 * A12)) 0 1 * clamp ((A12 * B1 - A11 * B2) / (A11 * A22 - A12 * A12)) 0 1 +
          A22 * clamp ((A12 * B1 - A11 * B2) / (A11 * A22 - A12 * A12)) 0 1 * clamp ((A12 * B1 - A11 * B2) / (A11 * A22 - A12 * A12)) 0 1 +
          2 * B1 * clamp ((A12 * B2 - A22 * B1) / (A11 * A22 - A12 * A12)) 0 1 +
          2 * B2 * clamp ((A12 * B1 - A11 * B2) / (A11 * A22 - A12 * A12)) 0 1 + C →
        intersectsFace E a b c = some false := by
      intro a b c h1 h2 h3 A11 A12 A22 B1 B2 C e11 e12 e22 eb1 eb2 ec hdet hlt
      unfold intersectsFace
      rw [if_neg h1, if_neg h2, if_neg h3]
      dsimp only
      rw [e11, e12, e22, eb1, eb2, ec]
      unfold divide
      rw [if_neg hdet, if_neg hdet]
      simp only [Option.bind_some, Option.map_some]
      rw [decide_eq_false (not_le.mpr hlt)]
    unfold faces3
    simp only [B, Matrix.cons_val_zero, Matrix.cons_val_one, Matrix.cons_val]
    have f0 := face ![-1, 2, 1] ![1, 2, 1] ![-1, 4, 1] (n1 _ _ _ _ _ _ (by norm_num)) (n1 _ _ _ _ _ _ (by norm_num)) (n1 _ _ _ _ _ _ (by norm_num)) _ _ _ _ _ _
      (by simp [rmtMultiply, E, Fin.sum_univ_three]; norm_num; rfl) (by simp [rmtMultiply, E, Fin.sum_univ_three]; norm_num; rfl)
      (by simp [rmtMultiply, E, Fin.sum_univ_three]; norm_num; rfl) (by simp [rmtMultiply, E, Fin.sum_univ_three]; norm_num; rfl)
      (by simp [rmtMultiply, E, Fin.sum_univ_three]; norm_num; rfl) (by simp [rmtMultiply, E, Fin.sum_univ_three]; norm_num; rfl)
      (by norm_num) (by norm_num [clamp])
    have f1 := face ![-1, 2, 1] ![1, 2, 1] ![-1, 2, 4] (n1 _ _ _ _ _ _ (by norm_num)) (n1 _ _ _ _ _ _ (by norm_num)) (n1 _ _ _ _ _ _ (by norm_num)) _ _ _ _ _ _
      (by simp [rmtMultiply, E, Fin.sum_univ_three]; norm_num; rfl) (by simp [rmtMultiply, E, Fin.sum_univ_three]; norm_num; rfl)
      (by simp [rmtMultiply, E, Fin.sum_univ_three]; norm_num; rfl) (by simp [rmtMultiply, E, Fin.sum_univ_three]; norm_num; rfl)
      (by simp [rmtMultiply, E, Fin.sum_univ_three]; norm_num; rfl) (by simp [rmtMultiply, E, Fin.sum_univ_three]; norm_num; rfl)
      (by norm_num) (by norm_num [clamp])
    have f2 := face ![-1, 2, 1] ![-1, 4, 1] ![-1, 2, 4] (n1 _ _ _ _ _ _ (by norm_num)) (n1 _ _ _ _ _ _ (by norm_num)) (n1 _ _ _ _ _ _ (by norm_num)) _ _ _ _ _ _
      (by simp [rmtMultiply, E, Fin.sum_univ_three]; norm_num; rfl) (by simp [rmtMultiply, E, Fin.sum_univ_three]; norm_num; rfl)
      (by simp [rmtMultiply, E, Fin.sum_univ_three]; norm_num; rfl) (by simp [rmtMultiply, E, Fin.sum_univ_three]; norm_num; rfl)
      (by simp [rmtMultiply, E, Fin.sum_univ_three]; norm_num; rfl) (by simp [rmtMultiply, E, Fin.sum_univ_three]; norm_num; rfl)
      (by norm_num) (by norm_num [clamp])
    have f3 := face ![1, 4, 4] ![-1, 4, 4] ![1, 2, 4] (n1 _ _ _ _ _ _ (by norm_num)) (n1 _ _ _ _ _ _ (by norm_num)) (n1 _ _ _ _ _ _ (by norm_num)) _ _ _ _ _ _
      (by simp [rmtMultiply, E, Fin.sum_univ_three]; norm_num; rfl) (by simp [rmtMultiply, E, Fin.sum_univ_three]; norm_num; rfl)
      (by simp [rmtMultiply, E, Fin.sum_univ_three]; norm_num; rfl) (by simp [rmtMultiply, E, Fin.sum_univ_three]; norm_num; rfl)
      (by simp [rmtMultiply, E, Fin.sum_univ_three]; norm_num; rfl) (by simp [rmtMultiply, E, Fin.sum_univ_three]; norm_num; rfl)
      (by norm_num) (by norm_num [clamp])
    have f4 := face ![1, 4, 4] ![-1, 4, 4] ![1, 4, 1] (n1 _ _ _ _ _ _ (by norm_num)) (n1 _ _ _ _ _ _ (by norm_num)) (n1 _ _ _ _ _ _ (by norm_num)) _ _ _ _ _ _
      (by simp [rmtMultiply, E, Fin.sum_univ_three]; norm_num; rfl) (by simp [rmtMultiply, E, Fin.sum_univ_three]; norm_num; rfl)
      (by simp [rmtMultiply, E, Fin.sum_univ_three]; norm_num; rfl) (by simp [rmtMultiply, E, Fin.sum_univ_three]; norm_num; rfl)
      (by simp [rmtMultiply, E, Fin.sum_univ_three]; norm_num; rfl) (by simp [rmtMultiply, E, Fin.sum_univ_three]; norm_num; rfl)
      (by norm_num) (by norm_num [clamp])
    have f5 := face ![1, 4, 4] ![1, 2, 4] ![1, 4, 1] (n1 _ _ _ _ _ _ (by norm_num)) (n1 _ _ _ _ _ _ (by norm_num)) (n1 _ _ _ _ _ _ (by norm_num)) _ _ _ _ _ _
      (by simp [rmtMultiply, E, Fin.sum_univ_three]; norm_num; rfl) (by simp [rmtMultiply, E, Fin.sum_univ_three]; norm_num; rfl)
      (by simp [rmtMultiply, E, Fin.sum_univ_three]; norm_num; rfl) (by simp [rmtMultiply, E, Fin.sum_univ_three]; norm_num; rfl)
      (by simp [rmtMultiply, E, Fin.sum_univ_three]; norm_num; rfl) (by simp [rmtMultiply, E, Fin.sum_univ_three]; norm_num; rfl)
      (by norm_num) (by norm_num [clamp])
    rw [f0, f1, f2, f3, f4, f5]
    rfl

/-! ## Non-vacuity -/

/-- A rotated ellipsoid in the plane that meets the hypotheses of `intersects_ellipsoid_box_2d`. -/
example : (⟨![0, 0], ![![2, 1], ![1, 2]]⟩ : Ellipsoid ℚ 2).Valid := by
  refine ⟨fun i j => by fin_cases i <;> fin_cases j <;> rfl, fun v hv => ?_⟩
  have e : ∑ i, ∑ j, v i * (![![2, 1], ![1, 2]] : Fin 2 → Fin 2 → ℚ) i j * v j = (v 0 + v 1) ^ 2 + v 0 ^ 2 + v 1 ^ 2 := by
    simp [Fin.sum_univ_two]; ring
  show 0 < ∑ i, ∑ j, v i * (![![2, 1], ![1, 2]] : Fin 2 → Fin 2 → ℚ) i j * v j
  rw [e]
  by_contra hn
  push Not at hn
  have h0 : v 0 ^ 2 = 0 := by nlinarith [sq_nonneg (v 0 + v 1), sq_nonneg (v 0), sq_nonneg (v 1)]
  have h1 : v 1 ^ 2 = 0 := by nlinarith [sq_nonneg (v 0 + v 1), sq_nonneg (v 0), sq_nonneg (v 1)]
  rw [pow_eq_zero_iff two_ne_zero] at h0 h1
  exact hv (funext (fun d => by fin_cases d; exacts [h0, h1]))

example : edges2 (K := ℚ) ⟨![0, 0], ![![2, 1], ![1, 2]]⟩ ⟨![1/2, -1], ![1, 1]⟩ = some true := by decide +kernel
example : edges2 (K := ℚ) ⟨![0, 0], ![![2, 1], ![1, 2]]⟩ ⟨![1/2, 1/2], ![1, 1]⟩ = some false := by decide +kernel

end ArborX.Geometry
