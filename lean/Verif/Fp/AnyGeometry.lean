import Verif.Traversal.AnyPredicate
import Verif.Geometry.Barycentric
import Verif.Fp.DistDbscanLimits
import Verif.Fp.DenseBoxLimits
import Verif.Fp.Limits

/-!
# Trees of segments, triangles and tetrahedra in floating-point arithmetic (C89)

The box of such a value is computed with minima and maxima only (`src/geometry/algorithms/ArborX_Expand.hpp` 98-108, 224-247), but the test of the value itself is a long
rounded computation, which need not agree with the test of its box.
-/

namespace ArborX.Fp

open Geometry BVH Euclid

variable {D : ℕ}

/-! ## Model -/

/-- A finite result; `none` if it has overflowed. -/
noncomputable def finite (x : EReal) : Option ℝ := if x = ⊤ ∨ x = ⊥ then none else some x.toReal

/-- `a * b + c * d`. -/
noncomputable def Format.dot2 (F : Format) (a b c d : ℝ) : Option ℝ :=
  (finite (F.rnd (c * d))).bind fun q =>
    if F.fma then finite (F.rnd (a * b + q)) else (finite (F.rnd (a * b))).bind fun p => finite (F.rnd (p + q))

/-- `intersects(Point, Triangle)` in the plane (`src/geometry/algorithms/ArborX_Intersects.hpp` 126-163). `none` if an operation overflows or the
determinant is zero, which fails the assertion (150). -/
noncomputable def Format.pointTriangle (F : Format) (p : Pt ℝ 2) (T : Triangle ℝ 2) : Option Bool := do
  let u0 ← finite (F.rnd (T.b 0 - T.a 0))
  let u1 ← finite (F.rnd (T.b 1 - T.a 1))
  let v0 ← finite (F.rnd (T.c 0 - T.a 0))
  let v1 ← finite (F.rnd (T.c 1 - T.a 1))
  let det ← F.dot2 v1 u0 (-v0) u1
  if det = 0 then none
  else
    let inv ← finite (F.rnd (1 / det))
    let a0 ← finite (F.rnd (v1 * inv))
    let a1 ← finite (F.rnd (-v0 * inv))
    let b0 ← finite (F.rnd (-u1 * inv))
    let b1 ← finite (F.rnd (u0 * inv))
    let x ← finite (F.rnd (p 0 - T.a 0))
    let y ← finite (F.rnd (p 1 - T.a 1))
    let alpha ← F.dot2 a0 x a1 y
    let beta ← F.dot2 b0 x b1 y
    let s ← finite (F.rnd (1 - alpha))
    let gamma ← finite (F.rnd (s - beta))
    some (decide (gamma ≥ 0) && decide (alpha ≥ 0) && decide (beta ≥ 0))

/-- `intersects(Box, Triangle)` (`ArborX_Intersects.hpp` 165-316): first the box of the triangle is compared with the box (180-186); `rest` is whatever the
remaining tests compute. -/
noncomputable def boxTriangleTest (M : ℝ) (rest : Box ℝ D → Triangle ℝ D → Bool) (B : Box ℝ D) (T : Triangle ℝ D) : Bool :=
  if !intersectsBoxBox ((Box.empty M).expandTriangle T) B then false else rest B T

/-- A query `nearest(Q, k)` on values whose distances are computed by any function `dist`; the distances of nodes are those of the library. -/
noncomputable def Scene.nearestBy (Q : Geom ℝ D) (F : Format) (dist : ℕ → EReal) (k : ℕ) : Nearest.Query ℕ (Bound D) EReal where
  k := k
  dl := dist
  dv := WithBot.recBotCoe ⊤ (fun B => asDistance (F.distance Q (.box B.1)))
  zero := 0
  inf := ⊤
  cap := 64

/-! ## Specification -/

/-- Values whose box is given by coordinates of the value: all but spheres. -/
def HasCorners : Geom ℝ D → Prop
  | .box B => B.Valid
  | .sphere _ => False
  | _ => True

/-- What the constructor needs, as in `Scene.Valid`, of values of any kind but spheres. -/
structure Scene.Built (S : Scene D) : Prop where
  fits : S.geo.length ≤ 2 ^ 63
  sorted : S.input.Sorted
  top : ∀ i < S.geo.length, (S.code i).toNat < 2 ^ 63
  corners : ∀ g ∈ S.geo, HasCorners g

/-- The box of the value `i`. -/
noncomputable def Scene.box (S : Scene D) (i : ℕ) : Box ℝ D := (Box.empty S.M).expand (S.at i)

/-! ## Lemmas -/

lemma Scene.Built.input {S : Scene D} (h : S.Built) : S.input.Valid := ⟨by norm_num, h.fits, h.sorted, h.top⟩

lemma HasCorners.valid {g : Geom ℝ D} (h : HasCorners g) : g.Valid := by
  cases g <;> first | exact h | exact trivial | exact h.elim

lemma Scene.Built.at {S : Scene D} (h : S.Built) (i : ℕ) : HasCorners (S.at i) := by
  rcases Nat.lt_or_ge i S.geo.length with hi | hi
  · exact h.corners _ (S.at_mem hi)
  · unfold Scene.at
    rw [List.getD_eq_default _ _ hi]
    exact trivial

lemma Scene.Built.vol {S : Scene D} (h : S.Built) (i : ℕ) : ∃ hv : (S.box i).Valid, S.input.vol i = ((⟨S.box i, hv⟩ : VBox D) : Bound D) := by
  have hv : (S.box i).Valid := by
    obtain ⟨H, e, hH, -, -⟩ := (Box.empty S.M).expand_spec (S.at i) (h.at i).valid
    unfold Scene.box
    rw [e]; intro d
    exact (min_le_right _ _).trans ((hH d).trans (le_max_right _ _))
  exact ⟨hv, dif_pos hv⟩

/-- The volumes around a value are boxes that contain its box. -/
lemma Scene.Built.above {S : Scene D} (h : S.Built) {i : ℕ} {v : Bound D} (hv : S.input.vol i ≤ v) :
    ∃ C : VBox D, v = (C : Bound D) ∧ (S.box i).set ⊆ C.1.set := by
  obtain ⟨hb, e⟩ := h.vol i
  rw [e] at hv
  induction v using WithBot.recBotCoe with
  | bot => exact absurd hv (by simp)
  | coe C => exact ⟨C, rfl, (VBox.le_iff _ C).mp (WithBot.coe_le_coe.mp hv)⟩

/-! ## Theorems -/

/-- **C89.** A query `intersects(Q)`, `Q` a point, a box or a ball, on a tree of values of any kind but spheres, with any function `test` as the computed
test of the values: the calls do not depend on the schedule of the construction, are for values the test accepts, each once, and include every value
that the test accepts and whose box is accepted as well. Rounding cannot hide a value whose own box is accepted. -/
theorem any_geometry_query_float_partial (S : Scene D) (h : S.Built) (F : Format) (Q : Geom ℝ D) (hQ : SimpleQuery Q) (test : ℕ → Bool) :
    ∃ calls : List ℕ, (∀ sched, S.input.Finished sched → ∀ fuel, 2 * S.geo.length ≤ fuel →
        Traversal.spatialQuery (S.input.build sched) test (nodeTest F Q) (fun _ => false) fuel = .done calls) ∧
      calls.Nodup ∧ (∀ i ∈ calls, i < S.geo.length ∧ test i = true) ∧
      ∀ i < S.geo.length, test i = true → F.intersects Q (.box (S.box i)) = some true → i ∈ calls := by
  obtain ⟨calls, h1, h2, h3⟩ := Traversal.spatial_query_any S.input h.input test (nodeTest F Q)
  rw [S.stored_eq] at h2 h3
  refine ⟨calls, h1, ?_, fun i hi => ?_, fun i hi ht hb => ?_⟩
  · obtain ⟨l, hl, hs⟩ := h2
    exact hl.nodup_iff.mp (hs.nodup (List.nodup_range.filter _))
  · have := List.mem_filter.mp (h2.subset hi)
    exact ⟨List.mem_range.mp this.1, this.2⟩
  · refine (h3 (fun j => decide (j = i)) (fun j hj => ?_)).subset (List.mem_filter.mpr ⟨List.mem_range.mpr hi, decide_eq_true rfl⟩)
    obtain rfl := of_decide_eq_true hj
    refine ⟨ht, fun v hv => ?_⟩
    obtain ⟨C, rfl, hC⟩ := h.above hv
    exact decide_eq_true (intersects_mono F hQ (g := .box (S.box j)) (h.vol j).1 hC hb)

/-- **C89.** `nearest(Q, k)` on such a tree, with any function `dist` as the computed distance of the values: `min k n` different values in the order of
their computed distances, and a value is only left out if its distance or that of its box is not less than the distances of all that are returned. -/
theorem any_geometry_nearest_float_partial (S : Scene D) (h : S.Built) (F : Format) (Q : Geom ℝ D) (hQ : SimpleQuery Q) (dist : ℕ → EReal) (k : ℕ)
    (hfin : ∀ i < S.geo.length, dist i < ⊤ ∧ ∀ r, F.distance Q (.box (S.box i)) = some r → r < ⊤)
    (hcap : Nearest.StackFits S.input 64) (sched : List ℕ) (hf : S.input.Finished sched) (fuel : ℕ) (hfuel : 2 * S.geo.length ≤ fuel) :
    ∃ calls, Nearest.nearestQuery (S.input.build sched) (Scene.nearestBy Q F dist k) fuel = .done calls ∧
      calls.Nodup ∧ (∀ i ∈ calls, i < S.geo.length) ∧ calls.length = min k S.geo.length ∧
      calls.Pairwise (fun i j => dist i ≤ dist j) ∧
      ∀ i ∈ calls, ∀ j < S.geo.length, j ∉ calls → dist i ≤ dist j ∨ ∃ r, F.distance Q (.box (S.box j)) = some r ∧ dist i ≤ r := by
  by_cases hn : S.input.n = 1
  · have hn' : S.geo.length = 1 := hn
    refine ⟨_, Nearest.nearest_query_single S.input hn _ sched fuel, ?_⟩
    by_cases hk : k < 1
    · rw [if_pos (show (Scene.nearestBy Q F dist k).k < 1 from hk)]
      simp; omega
    · rw [if_neg (show ¬ (Scene.nearestBy Q F dist k).k < 1 from hk)]
      have e : S.input.values 0 = 0 := rfl
      rw [e]
      simp [hn']; omega
  have key : ∀ i, ∃ r, F.distance Q (.box (S.box i)) = some r ∧ 0 ≤ r ∧ ∀ v, S.input.vol i ≤ v → (Scene.nearestBy Q F dist k).dv v ≤ r := by
    intro i
    obtain ⟨s, e1, h0, h2⟩ := distance_mono F hQ (g := .box (S.box i)) (h.vol i).1
    refine ⟨s, e1, h0, fun v hv => ?_⟩
    obtain ⟨C, rfl, hC⟩ := h.above hv
    obtain ⟨r, e2, hr⟩ := h2 C.1 hC
    show asDistance (F.distance Q (.box C.1)) ≤ s
    rw [e2]; exact hr
  choose box hbox hbox0 hboxv using key
  obtain ⟨calls, h1, om, h3, h4, h5, h6, h7, h8⟩ := Nearest.nearest_query_any S.input h.input hn (Scene.nearestBy Q F dist k)
    (fun i => max (dist i) (box i)) (fun i => ⟨le_max_left _ _, fun v hv => (hboxv i v hv).trans (le_max_right _ _)⟩)
    (fun i => (hbox0 i).trans (le_max_right _ _)) hcap sched hf fuel hfuel
  rw [S.stored_eq] at h3
  have hnd : (calls ++ om).Nodup := h3.nodup_iff.mpr List.nodup_range
  have hlt : ∀ i ∈ calls ++ om, i < S.geo.length := fun i hi => List.mem_range.mp (h3.mem_iff.mp hi)
  have hlen : calls.length + om.length = S.geo.length := by
    rw [← List.length_append, h3.length_eq, List.length_range]
  refine ⟨calls, h1, (List.nodup_append.mp hnd).1, fun i hi => hlt i (List.mem_append_left _ hi), ?_, h4, ?_⟩
  · rcases Nat.lt_or_ge calls.length k with hk | hk
    · have : om = [] := by
        rw [List.eq_nil_iff_forall_not_mem]
        intro j hj
        have hj' := hlt j (List.mem_append_right _ hj)
        exact h8 hk j hj (max_lt (hfin j hj').1 ((hfin j hj').2 _ (hbox j)))
      rw [this, List.length_nil] at hlen
      omega
    · have h6' : calls.length ≤ k := h6
      omega
  · intro i hi j hj hjn
    have : j ∈ calls ++ om := h3.mem_iff.mpr (List.mem_range.mpr hj)
    rcases le_max_iff.mp (h7 i hi j ((List.mem_append.mp this).resolve_left hjn)) with hle | hle
    · exact .inl hle
    · exact .inr ⟨_, hbox j, hle⟩

/-- **C89.** A query `intersects(box)` on a tree of triangles, however the tests after the first are computed: the callback is called once for each
triangle that the test of the library accepts when it is applied to the triangle itself, and for no other. -/
theorem box_triangle_query_float (S : Scene D) (h : S.Built) (F : Format) (tri : ℕ → Triangle ℝ D) (htri : ∀ i < S.geo.length, S.at i = .triangle (tri i))
    (B : Box ℝ D) (hB : B.Valid) (rest : Box ℝ D → Triangle ℝ D → Bool) (sched : List ℕ) (hf : S.input.Finished sched) (fuel : ℕ)
    (hfuel : 2 * S.geo.length ≤ fuel) :
    ∃ calls, Traversal.spatialQuery (S.input.build sched) (fun i => boxTriangleTest S.M rest B (tri i)) (nodeTest F (.box B)) (fun _ => false) fuel
        = .done calls ∧
      calls.Nodup ∧ ∀ i, i ∈ calls ↔ i < S.geo.length ∧ boxTriangleTest S.M rest B (tri i) = true := by
  obtain ⟨calls, h1, h2, h3, h4⟩ := any_geometry_query_float_partial S h F (.box B) hB (fun i => boxTriangleTest S.M rest B (tri i))
  refine ⟨calls, h1 sched hf fuel hfuel, h2, fun i => ⟨h3 i, fun ⟨hi, ht⟩ => h4 i hi ht ?_⟩⟩
  have e : S.box i = (Box.empty S.M).expandTriangle (tri i) := by
    unfold Scene.box
    rw [htri i hi]; rfl
  have hv : (S.box i).Valid := (h.vol i).1
  unfold boxTriangleTest at ht
  rw [← e] at ht
  have hov : intersectsBoxBox (S.box i) B = true := by
    by_contra hc
    rw [Bool.not_eq_true] at hc
    simp [hc] at ht
  show some (intersectsBoxBox B (S.box i)) = some true
  rw [Option.some_inj, intersects_box_box _ _ hB hv]
  rw [intersects_box_box _ _ hv hB] at hov
  rwa [Set.inter_comm]

/-! ## The restriction is needed -/

lemma finite_coe (x : ℝ) : finite (x : EReal) = some x := by
  unfold finite
  rw [if_neg (by simp), EReal.toReal_coe]

lemma dot2_right (F : Format) {a b y : ℝ} (c d : ℝ) (hcd : c * d = 0) (h : F.rnd (a * b) = (y : EReal)) (hy : F.rnd y = (y : EReal)) :
    F.dot2 a b c d = some y := by
  unfold Format.dot2
  rw [hcd, F.rnd_zero, ← EReal.coe_zero, finite_coe, h, finite_coe]
  simp only [Option.bind_some, add_zero]
  rw [h, hy, finite_coe]
  split_ifs <;> rfl

/-- A triangle, and one whose box lies in that of the first. -/
def flat : Triangle ℝ 2 := ⟨![0, 0], ![31, 0], ![0, 1]⟩

/-- The second triangle. -/
def small : Triangle ℝ 2 := ⟨![0, 0], ![1, 0], ![0, 1]⟩

/-- The next number of type `float` after 31. -/
noncomputable def beyond : Pt ℝ 2 := ![31 + 2 ^ (-19 : ℤ), 0]

/-- A tree on some triangles. -/
noncomputable def triangleScene (M : ℝ) (ts : List (Triangle ℝ 2)) : Scene 2 where
  geo := ts.map .triangle
  M := M
  code := fun i => BitVec.ofNat 64 i
  perm := fun i => i

/-- `Intersects::operator()` (`src/spatial/detail/ArborX_Predicates.hpp` 95-101) for the predicate `intersects(p)`, on a leaf. -/
noncomputable def triangleTest (F : Format) (ts : List (Triangle ℝ 2)) (p : Pt ℝ 2) (i : ℕ) : Bool := decide (F.pointTriangle p (ts.getD i small) = some true)

lemma float_int (fma : Bool) (z : ℤ) (hz : |z| ≤ 2 ^ 24) : (Ieee.float fma).rnd z = ((z : ℝ) : EReal) := float_exact fma z 0 hz (by norm_num) (by norm_num) (by simp)

lemma flat_accepts (fma : Bool) : (Ieee.float fma).pointTriangle beyond flat = some true := by
  have f0 : (Ieee.float fma).rnd 0 = ((0 : ℝ) : EReal) := by rw [Format.rnd_zero]; rfl
  have f1 : (Ieee.float fma).rnd 1 = ((1 : ℝ) : EReal) := by simpa using float_int fma 1 (by norm_num)
  have f31 : (Ieee.float fma).rnd 31 = ((31 : ℝ) : EReal) := by simpa using float_int fma 31 (by norm_num)
  have finv : (Ieee.float fma).rnd (1 / 31) = ((8659208 * 2 ^ (-28 : ℤ) : ℝ) : EReal) :=
    float_eq _ (-28) 8659208 (by norm_num) (by norm_num) (by norm_num) (by norm_num) (by norm_num) (by norm_num) (by norm_num)
  have finv' : (Ieee.float fma).rnd (8659208 * 2 ^ (-28 : ℤ)) = ((8659208 * 2 ^ (-28 : ℤ) : ℝ) : EReal) :=
    float_exact fma 8659208 (-28) (by norm_num) (by norm_num) (by norm_num) (by norm_num)
  have fb : (Ieee.float fma).rnd (31 * (8659208 * 2 ^ (-28 : ℤ))) = ((1 : ℝ) : EReal) :=
    float_tie _ (-24) (2 ^ 24) (by norm_num) (by norm_num) (by norm_num) (by norm_num) (by norm_num) (by norm_num) (by norm_num) (by norm_num)
  have fx : (Ieee.float fma).rnd (31 + 2 ^ (-19 : ℤ)) = ((31 + 2 ^ (-19 : ℤ) : ℝ) : EReal) :=
    float_exact fma (31 * 2 ^ 19 + 1) (-19) (by norm_num) (by norm_num) (by norm_num) (by norm_num)
  have fa : (Ieee.float fma).rnd (8659208 * 2 ^ (-28 : ℤ) * (31 + 2 ^ (-19 : ℤ))) = ((1 : ℝ) : EReal) :=
    float_eq _ (-23) (2 ^ 23) (by norm_num) (by norm_num) (by norm_num) (by norm_num) (by norm_num) (by norm_num) (by norm_num)
  have hdet : (Ieee.float fma).dot2 1 31 0 0 = some 31 := dot2_right _ _ _ (by simp) (by rw [one_mul]; exact f31) f31
  have halpha : (Ieee.float fma).dot2 (8659208 * 2 ^ (-28 : ℤ)) (31 + 2 ^ (-19 : ℤ)) 0 0 = some 1 := dot2_right _ _ _ (by simp) fa f1
  have hbeta : (Ieee.float fma).dot2 0 (31 + 2 ^ (-19 : ℤ)) 1 0 = some 0 := dot2_right _ _ _ (by simp) (by rw [zero_mul]; exact f0) f0
  unfold Format.pointTriangle
  simp only [flat, beyond, Matrix.cons_val_zero, Matrix.cons_val_one, sub_zero, Option.bind_eq_bind, f0, f1, f31, fx, finite_coe, Option.bind_some, hdet,
    finv, one_mul, finv', neg_zero, zero_mul, fb, halpha, hbeta, sub_self]
  norm_num

/-- Every box left of the point. -/
def LeftOf (v : Bound 2) : Prop := ∀ C : VBox 2, v = (C : Bound 2) → C.1.hi 0 ≤ 31

lemma leftOf_sup (a b : Bound 2) (ha : LeftOf a) (hb : LeftOf b) : LeftOf (a ⊔ b) := by
  induction a using WithBot.recBotCoe with
  | bot => rw [bot_sup_eq]; exact hb
  | coe A =>
    induction b using WithBot.recBotCoe with
    | bot => rw [sup_bot_eq]; exact ha
    | coe B =>
      intro C hC
      have : A ⊔ B = C := WithBot.coe_injective hC
      rw [← this]
      exact max_le (ha A rfl) (hb B rfl)

lemma leafBound_leftOf {M : ℝ} {g : Geom ℝ 2} (hg : ((Box.empty M).expand g).hi 0 ≤ 31) : LeftOf (leafBound M g) := by
  intro C hC
  unfold leafBound at hC
  split_ifs at hC with h
  · rw [← WithBot.coe_injective hC]; exact hg
  · exact absurd hC.symm (WithBot.coe_ne_bot)

lemma triangles_left {M : ℝ} (hM : 0 < M) (i : ℕ) : LeftOf ((triangleScene M [flat, small]).input.vol i) := by
  refine leafBound_leftOf ?_
  rcases (by omega : i = 0 ∨ i = 1 ∨ 2 ≤ i) with rfl | rfl | hi
  · show max (max (max (-M) 0) 31) 0 ≤ (31 : ℝ)
    simp; linarith
  · show max (max (max (-M) 0) 1) 0 ≤ (31 : ℝ)
    simp; linarith
  · unfold Scene.at
    rw [List.getD_eq_default _ _ (by simpa [triangleScene] using hi)]
    show max (-M) 0 ≤ (31 : ℝ)
    simp; linarith

theorem triangleScene_built (M : ℝ) : (triangleScene M [flat, small]).Built where
  fits := by show 2 ≤ 2 ^ 63; norm_num
  sorted := by
    refine ⟨?_, ?_⟩
    · show ((List.range 2).map (fun i => i)).Perm (List.range 2)
      rw [List.map_id']
    · intro i hi
      have hi' : i + 1 < 2 := hi
      obtain rfl : i = 0 := by omega
      exact (by decide : (BitVec.ofNat 64 0).toNat ≤ (BitVec.ofNat 64 (0 + 1)).toNat)
  top := by
    intro i hi
    have hi' : i < 2 := hi
    rcases (by omega : i = 0 ∨ i = 1) with rfl | rfl
    · exact (by decide : (BitVec.ofNat 64 0).toNat < 2 ^ 63)
    · exact (by decide : (BitVec.ofNat 64 1).toNat < 2 ^ 63)
  corners := by
    intro g hg
    simp only [triangleScene, List.map_cons, List.map_nil, List.mem_cons, List.not_mem_nil, or_false] at hg
    rcases hg with rfl | rfl <;> exact trivial

/-- **C89 (the condition on the box is needed).** A point of type `float` that is not in the triangle (0,0), (31,0), (0,1), nor in its box, but that the
test of the library puts into it. A tree on this triangle alone finds it; with a second triangle, contained in the first, nothing is found. -/
theorem triangle_values_hidden (fma : Bool) (M : ℝ) (hM : 0 < M) :
    (∀ d, (Ieee.float fma).rnd (beyond d) = (beyond d : EReal)) ∧ beyond ∉ flat.set ∧ small.set ⊆ flat.set ∧
    (Ieee.float fma).pointTriangle beyond flat = some true ∧
    (∀ sched fuel, Traversal.spatialQuery ((triangleScene M [flat]).input.build sched) (triangleTest (Ieee.float fma) [flat] beyond)
      (nodeTest (Ieee.float fma) (.point beyond)) (fun _ => false) fuel = .done [0]) ∧
    ∀ sched, (triangleScene M [flat, small]).input.Finished sched → ∀ fuel, 4 ≤ fuel →
      Traversal.spatialQuery ((triangleScene M [flat, small]).input.build sched) (triangleTest (Ieee.float fma) [flat, small] beyond)
        (nodeTest (Ieee.float fma) (.point beyond)) (fun _ => false) fuel = .done [] := by
  refine ⟨fun d => ?_, ?_, ?_, flat_accepts fma, fun sched fuel => ?_, fun sched hf fuel hfuel => ?_⟩
  · fin_cases d
    · exact float_exact fma (31 * 2 ^ 19 + 1) (-19) (by norm_num) (by norm_num) (by norm_num) (by norm_num [beyond])
    · show (Ieee.float fma).rnd 0 = ((0 : ℝ) : EReal)
      rw [Format.rnd_zero]; rfl
  · rintro ⟨u, v, w, hu, hv, hw, h1, hx⟩
    have := hx 0
    simp only [beyond, flat, Matrix.cons_val_zero, mul_zero, zero_add, add_zero] at this
    have hp : (0 : ℝ) < 2 ^ (-19 : ℤ) := by positivity
    linarith
  · rintro x ⟨u, v, w, hu, hv, hw, h1, hx⟩
    refine ⟨u + v * (30 / 31), v / 31, w, by positivity, by positivity, hw, by linarith, fun d => ?_⟩
    have := hx d
    rw [this]
    fin_cases d
    · simp [flat, small]
    · simp [flat, small]
  · rw [Traversal.spatial_query_single _ rfl, if_pos]
    · rfl
    · exact decide_eq_true (flat_accepts fma)
  · refine Traversal.spatial_query_rejected _ (triangleScene_built M).input le_rfl _ _ LeftOf leftOf_sup (triangles_left hM) ?_ _ sched hf fuel hfuel
    intro v hv
    induction v using WithBot.recBotCoe with
    | bot => rfl
    | coe C =>
      refine decide_eq_false fun h => ?_
      have h' : intersectsPointBox beyond C.1 = true := Option.some_injective _ h
      rw [intersects_point_box] at h'
      have h2 : 31 + 2 ^ (-19 : ℤ) ≤ C.1.hi 0 := (h' 0).2
      have hp : (0 : ℝ) < 2 ^ (-19 : ℤ) := by positivity
      exact absurd (hv C rfl) (by linarith)

/-! ## Non-vacuity -/

/-- A finished construction with more than one value, and queries of all kinds. -/
example (fma : Bool) : (triangleScene (2 ^ (127 : ℤ)) [flat, small]).Built ∧ Nearest.StackFits (triangleScene (2 ^ (127 : ℤ)) [flat, small]).input 64 ∧
    SimpleQuery (.point beyond) ∧
    (∀ i < (triangleScene (2 ^ (127 : ℤ)) [flat, small]).geo.length, (triangleScene (2 ^ (127 : ℤ)) [flat, small]).at i = .triangle ([flat, small].getD i small)) ∧
    (Ieee.float fma).intersects (.point ![1 / 2, 1 / 2]) (.box ((triangleScene (2 ^ (127 : ℤ)) [flat, small]).box 1)) = some true := by
  refine ⟨triangleScene_built _, Nearest.stack_suffices_small _ (by norm_num) (by show 2 ≤ _; norm_num), trivial, fun i hi => ?_, ?_⟩
  · have hi' : i < 2 := hi
    rcases (by omega : i = 0 ∨ i = 1) with rfl | rfl <;> rfl
  · show some (intersectsPointBox _ _) = some true
    rw [Option.some_inj, intersects_point_box]
    intro d
    show min (min (min (2 ^ (127 : ℤ)) (small.a d)) (small.b d)) (small.c d) ≤ _ ∧ _ ≤ max (max (max (-2 ^ (127 : ℤ)) (small.a d)) (small.b d)) (small.c d)
    fin_cases d <;> norm_num [small]

end ArborX.Fp
