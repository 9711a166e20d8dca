import Verif.Fp.Theorems
import Verif.Geometry.Ray
import Verif.Traversal.Bounded

/-!
# Rays in floating-point arithmetic

The test of a ray against a box, with rounded operations, infinities and the NaN that a zero times an infinity gives.
-/

namespace ArborX.Fp

open Geometry BVH Euclid

/-! ## Model -/

/-- `e / s` for a finite `s` which is not zero. -/
noncomputable def Format.rayQuot (F : Format) (e : EReal) (s : ℝ) : EReal :=
  if e = ⊤ then (if 0 < s then ⊤ else ⊥)
  else if e = ⊥ then (if 0 < s then ⊥ else ⊤)
  else F.rnd (e.toReal / s)

/-- `std::signbit(dir[d] * x)` for `dir[d] == ±0`. The product with an infinity is a NaN, whose sign `nan` depends on the machine. The difference of two
different numbers does not round to a negative zero. -/
noncomputable def zeroSign (nan : Bool) (R : Ray ℝ) (d : Fin 3) (x : EReal) : Bool :=
  if x = ⊤ ∨ x = ⊥ then nan else xor (R.negZero d) (decide (x < 0))

/-- The range `[tdmin, tdmax]` of one dimension, `none` for `continue` (`src/geometry/ArborX_Ray.hpp` 121-152). The direction of `R` is the normalised and
rounded one. -/
noncomputable def Format.slab (F : Format) (nan : Bool) (R : Ray ℝ) (B : Box ℝ 3) (d : Fin 3) : Option (EReal × EReal) :=
  if R.dir d = 0 then
    if F.rnd (B.lo d - R.origin d) = 0 then none
    else some (if zeroSign nan R d (F.rnd (B.hi d - R.origin d)) then ⊤ else ⊥, if zeroSign nan R d (F.rnd (B.lo d - R.origin d)) then ⊤ else ⊥)
  else if R.dir d > 0 then
    some (F.rayQuot (F.rnd (B.lo d - R.origin d)) (R.dir d), F.rayQuot (F.rnd (B.hi d - R.origin d)) (R.dir d))
  else
    some (F.rayQuot (F.rnd (B.hi d - R.origin d)) (R.dir d), F.rayQuot (F.rnd (B.lo d - R.origin d)) (R.dir d))

/-- Body of the loop over the dimensions (119-157). -/
noncomputable def Format.rayStep (F : Format) (nan : Bool) (R : Ray ℝ) (B : Box ℝ 3) (st : EReal × EReal) (d : Fin 3) : EReal × EReal :=
  match F.slab nan R B d with
  | none => st
  | some (tdmin, tdmax) => (if st.1 < tdmin then tdmin else st.1, if st.2 > tdmax then tdmax else st.2)

/-- `tmin` and `tmax` of `intersection(Ray, Box, tmin, tmax)` (104-159); its result is `tmin <= tmax`. -/
noncomputable def Format.rayRange (F : Format) (nan : Bool) (R : Ray ℝ) (B : Box ℝ 3) : EReal × EReal := [0, 1, 2].foldl (F.rayStep nan R B) (⊥, ⊤)

/-- `intersects(Ray, Box)` (161-170). -/
noncomputable def Format.rayBox (F : Format) (nan : Bool) (R : Ray ℝ) (B : Box ℝ 3) : Bool :=
  decide ((F.rayRange nan R B).1 ≤ (F.rayRange nan R B).2) && decide ((F.rayRange nan R B).2 ≥ 0)

/-- `distance(Ray, Box)` (431-442). -/
noncomputable def Format.rayDistance (F : Format) (nan : Bool) (R : Ray ℝ) (B : Box ℝ 3) : EReal :=
  if F.rayBox nan R B then max (F.rayRange nan R B).1 0 else ⊤

/-- `intersects(ray)` (`src/spatial/detail/ArborX_Predicates.hpp` 95-101) on a stored value; values which are not boxes are outside this model. -/
noncomputable def Scene.rayLeaf (S : Scene 3) (F : Format) (nan : Bool) (R : Ray ℝ) (i : ℕ) : Bool :=
  match S.at i with
  | .box B => F.rayBox nan R B
  | _ => false

/-- The same on an internal node. -/
noncomputable def rayNode (F : Format) (nan : Bool) (R : Ray ℝ) : Bound 3 → Bool := WithBot.recBotCoe false (fun B => F.rayBox nan R B.1)

/-- The distance of the ray to a stored value. -/
noncomputable def Scene.rayDist (S : Scene 3) (F : Format) (nan : Bool) (R : Ray ℝ) (i : ℕ) : EReal :=
  match S.at i with
  | .box B => F.rayDistance nan R B
  | _ => ⊤

/-- The same on an internal node. -/
noncomputable def rayNodeDist (F : Format) (nan : Bool) (R : Ray ℝ) : Bound 3 → EReal := WithBot.recBotCoe ⊤ (fun B => F.rayDistance nan R B.1)

/-- `nearest(ray, k)` (`ArborX_Predicates.hpp` 71-76); 64 entries on the stack (`ArborX_TreeTraversal.hpp` 218). -/
noncomputable def Scene.rayNearest (S : Scene 3) (F : Format) (nan : Bool) (R : Ray ℝ) (k : ℕ) : Nearest.Query ℕ (Bound 3) EReal where
  k := k
  dl := S.rayDist F nan R
  dv := rayNodeDist F nan R
  zero := 0
  inf := ⊤
  cap := 64

/-- `ordered_intersects(ray)` (`ArborX_Predicates.hpp` 105-125); 64 entries in the buffer (`ArborX_TreeTraversal.hpp` 424). -/
noncomputable def Scene.rayOrdered (S : Scene 3) (F : Format) (nan : Bool) (R : Ray ℝ) : Ordered.Query ℕ (Bound 3) EReal where
  dl := S.rayDist F nan R
  dv := rayNodeDist F nan R
  inf := ⊤
  cap := 64

/-! ## Specification -/

/-- The computed differences of the corners of the box `H` and the origin of the ray are finite along the axes to which the ray is perpendicular. -/
def Format.RayFits (F : Format) (R : Ray ℝ) (H : Box ℝ 3) : Prop :=
  ∀ d, R.dir d = 0 → F.rnd (H.lo d - R.origin d) ≠ ⊥ ∧ F.rnd (H.hi d - R.origin d) ≠ ⊤

/-- The stored values are boxes in the box `H`. -/
def Scene.BoxesIn (S : Scene 3) (H : Box ℝ 3) : Prop := ∀ g ∈ S.geo, ∃ B : Box ℝ 3, g = .box B ∧ B.set ⊆ H.set

/-! ## Lemmas -/

namespace Format

variable (F : Format)

lemma rayQuot_coe (x s : ℝ) : F.rayQuot x s = F.rnd (x / s) := by
  unfold rayQuot
  rw [if_neg (EReal.coe_ne_top x), if_neg (EReal.coe_ne_bot x), EReal.toReal_coe]

lemma rayQuot_mono {s : ℝ} (hs : 0 < s) {e e' : EReal} (h : e ≤ e') : F.rayQuot e s ≤ F.rayQuot e' s := by
  induction e using EReal.rec with
  | bot => unfold rayQuot; simp [hs]
  | top =>
    rw [top_le_iff] at h
    rw [h]
  | coe x =>
    induction e' using EReal.rec with
    | bot => exact absurd h (by simp)
    | top => unfold rayQuot; simp [hs]
    | coe y =>
      rw [rayQuot_coe, rayQuot_coe]
      exact F.mono (div_le_div_of_nonneg_right (EReal.coe_le_coe_iff.mp h) hs.le)

lemma rayQuot_anti {s : ℝ} (hs : s < 0) {e e' : EReal} (h : e ≤ e') : F.rayQuot e' s ≤ F.rayQuot e s := by
  have hs' : ¬ 0 < s := not_lt.mpr hs.le
  induction e using EReal.rec with
  | bot => unfold rayQuot; simp [hs']
  | top =>
    rw [top_le_iff] at h
    rw [h]
  | coe x =>
    induction e' using EReal.rec with
    | bot => exact absurd h (by simp)
    | top => unfold rayQuot; simp [hs']
    | coe y =>
      rw [rayQuot_coe, rayQuot_coe]
      exact F.mono (div_le_div_of_nonpos_of_le hs.le (EReal.coe_le_coe_iff.mp h))

/-- The range of a dimension as an interval. -/
noncomputable def slabRange (nan : Bool) (R : Ray ℝ) (B : Box ℝ 3) (d : Fin 3) : EReal × EReal := (F.slab nan R B d).getD (⊥, ⊤)

lemma rayStep_eq (nan : Bool) (R : Ray ℝ) (B : Box ℝ 3) (st : EReal × EReal) (d : Fin 3) :
    F.rayStep nan R B st d = (max st.1 (F.slabRange nan R B d).1, min st.2 (F.slabRange nan R B d).2) := by
  unfold rayStep slabRange
  cases F.slab nan R B d with
  | none => simp
  | some p =>
    obtain ⟨a, b⟩ := p
    dsimp only [Option.getD_some]
    congr 1
    · split_ifs with h
      · rw [max_eq_right h.le]
      · rw [max_eq_left (not_lt.mp h)]
    · split_ifs with h
      · rw [min_eq_right h.le]
      · rw [min_eq_left (not_lt.mp h)]

lemma rayRange_fst_le (nan : Bool) (R : Ray ℝ) (B : Box ℝ 3) (t : EReal) : (F.rayRange nan R B).1 ≤ t ↔ ∀ d, (F.slabRange nan R B d).1 ≤ t := by
  unfold rayRange
  simp only [List.foldl_cons, List.foldl_nil, rayStep_eq, max_le_iff, Fin.forall_fin_succ, bot_le, true_and]
  simp
  tauto

lemma le_rayRange_snd (nan : Bool) (R : Ray ℝ) (B : Box ℝ 3) (t : EReal) : t ≤ (F.rayRange nan R B).2 ↔ ∀ d, t ≤ (F.slabRange nan R B d).2 := by
  unfold rayRange
  simp only [List.foldl_cons, List.foldl_nil, rayStep_eq, le_min_iff, Fin.forall_fin_succ, le_top, true_and]
  simp
  tauto

lemma rayBox_iff (nan : Bool) (R : Ray ℝ) (B : Box ℝ 3) :
    F.rayBox nan R B = true ↔ (F.rayRange nan R B).1 ≤ (F.rayRange nan R B).2 ∧ 0 ≤ (F.rayRange nan R B).2 := by
  unfold rayBox
  rw [Bool.and_eq_true, decide_eq_true_eq, decide_eq_true_eq]

lemma zeroSign_fin {nan : Bool} {R : Ray ℝ} {d : Fin 3} (hs : R.negZero d = false) {x : EReal} (h1 : x ≠ ⊤) (h2 : x ≠ ⊥) :
    zeroSign nan R d x = decide (x < 0) := by
  unfold zeroSign
  rw [if_neg (by tauto), hs, Bool.false_xor]

/-- The range of a larger box is larger. -/
lemma slab_mono {nan : Bool} {R : Ray ℝ} {B C : Box ℝ 3} {d : Fin 3} (h1 : C.lo d ≤ B.lo d) (h2 : B.lo d ≤ B.hi d) (h3 : B.hi d ≤ C.hi d)
    (hs : R.dir d = 0 → R.negZero d = false) (hf : R.dir d = 0 → F.rnd (C.lo d - R.origin d) ≠ ⊥ ∧ F.rnd (C.hi d - R.origin d) ≠ ⊤) :
    (F.slabRange nan R C d).1 ≤ (F.slabRange nan R B d).1 ∧ (F.slabRange nan R B d).2 ≤ (F.slabRange nan R C d).2 := by
  have m1 : F.rnd (C.lo d - R.origin d) ≤ F.rnd (B.lo d - R.origin d) := F.mono (by linarith)
  have m2 : F.rnd (B.lo d - R.origin d) ≤ F.rnd (B.hi d - R.origin d) := F.mono (by linarith)
  have m3 : F.rnd (B.hi d - R.origin d) ≤ F.rnd (C.hi d - R.origin d) := F.mono (by linarith)
  unfold slabRange slab
  by_cases h0 : R.dir d = 0
  · obtain ⟨f1, f2⟩ := hf h0
    have hs' := hs h0
    simp only [if_pos h0]
    generalize F.rnd (C.lo d - R.origin d) = c1 at *
    generalize F.rnd (C.hi d - R.origin d) = c2 at *
    generalize F.rnd (B.lo d - R.origin d) = b1 at *
    generalize F.rnd (B.hi d - R.origin d) = b2 at *
    have k1 : b1 ≠ ⊥ := fun e => f1 (le_bot_iff.mp (e ▸ m1))
    have k2 : b2 ≠ ⊥ := fun e => k1 (le_bot_iff.mp (e ▸ m2))
    have k3 : c2 ≠ ⊥ := fun e => k2 (le_bot_iff.mp (e ▸ m3))
    have k4 : b2 ≠ ⊤ := fun e => f2 (top_le_iff.mp (e ▸ m3))
    have k5 : b1 ≠ ⊤ := fun e => k4 (top_le_iff.mp (e ▸ m2))
    have k6 : c1 ≠ ⊤ := fun e => k5 (top_le_iff.mp (e ▸ m1))
    rw [zeroSign_fin hs' k4 k2, zeroSign_fin hs' k5 k1, zeroSign_fin hs' f2 k3, zeroSign_fin hs' k6 f1]
    by_cases g1 : c1 = 0
    · rw [if_pos g1]; simp
    rw [if_neg g1]
    by_cases g2 : b1 = 0
    · rw [if_pos g2]
      have hc1 : c1 < 0 := lt_of_le_of_ne (g2 ▸ m1) g1
      have hc2 : ¬ c2 < 0 := not_lt.mpr ((g2 ▸ m2).trans m3)
      simp [hc1, hc2]
    rw [if_neg g2]
    simp only [Option.getD_some, decide_eq_true_eq]
    constructor
    · split_ifs with g3 g4 <;> simp
      exact g4 (lt_of_le_of_lt m3 g3)
    · split_ifs with g3 g4 <;> simp
      exact g4 (lt_of_le_of_lt m1 g3)
  · simp only [if_neg h0]
    by_cases hp : R.dir d > 0
    · simp only [if_pos hp, Option.getD_some]
      exact ⟨F.rayQuot_mono hp m1, F.rayQuot_mono hp m3⟩
    · simp only [if_neg hp, Option.getD_some]
      have hn : R.dir d < 0 := lt_of_le_of_ne (not_lt.mp hp) h0
      exact ⟨F.rayQuot_anti hn m3, F.rayQuot_anti hn m1⟩

variable {F}

/-- A box inside `H`. -/
lemma RayFits.mono {R : Ray ℝ} {H C : Box ℝ 3} (h : F.RayFits R H) (hC : C.Valid) (hs : C.set ⊆ H.set) : F.RayFits R C := by
  intro d hd
  obtain ⟨h1, h2⟩ := h d hd
  obtain ⟨c1, c2⟩ := corners hC hs d
  refine ⟨fun e => h1 (le_bot_iff.mp ?_), fun e => h2 (top_le_iff.mp ?_)⟩
  · rw [← e]; exact F.mono (by linarith)
  · rw [← e]; exact F.mono (by linarith)

variable (F)

lemma rayBox_mono {nan : Bool} {R : Ray ℝ} (hR : R.Valid) {B C : Box ℝ 3} (hB : B.Valid) (h : B.set ⊆ C.set) (hf : F.RayFits R C) :
    (F.rayRange nan R C).1 ≤ (F.rayRange nan R B).1 ∧ (F.rayRange nan R B).2 ≤ (F.rayRange nan R C).2 := by
  have key : ∀ d, _ := fun d => F.slab_mono (nan := nan) (R := R) (corners hB h d).1 (hB d) (corners hB h d).2 (hR.sign d) (hf d)
  exact ⟨(F.rayRange_fst_le nan R C _).mpr fun d => (key d).1.trans ((F.rayRange_fst_le nan R B _).mp le_rfl d),
    (F.le_rayRange_snd nan R C _).mpr fun d => ((F.le_rayRange_snd nan R B _).mp le_rfl d).trans (key d).2⟩

lemma rayBox_of_subset {nan : Bool} {R : Ray ℝ} (hR : R.Valid) {B C : Box ℝ 3} (hB : B.Valid) (h : B.set ⊆ C.set) (hf : F.RayFits R C)
    (ht : F.rayBox nan R B = true) : F.rayBox nan R C = true := by
  rw [rayBox_iff] at ht ⊢
  obtain ⟨h1, h2⟩ := F.rayBox_mono (nan := nan) hR hB h hf
  exact ⟨h1.trans (ht.1.trans h2), ht.2.trans h2⟩

lemma rayDistance_anti {nan : Bool} {R : Ray ℝ} (hR : R.Valid) {B C : Box ℝ 3} (hB : B.Valid) (h : B.set ⊆ C.set) (hf : F.RayFits R C) :
    F.rayDistance nan R C ≤ F.rayDistance nan R B := by
  unfold rayDistance
  by_cases ht : F.rayBox nan R B = true
  · rw [if_pos ht, if_pos (F.rayBox_of_subset hR hB h hf ht)]
    exact max_le_max (F.rayBox_mono hR hB h hf).1 le_rfl
  · rw [if_neg ht]; exact le_top

lemma rayDistance_nonneg (nan : Bool) (R : Ray ℝ) (B : Box ℝ 3) : 0 ≤ F.rayDistance nan R B := by
  unfold rayDistance
  split_ifs
  · exact le_max_right _ _
  · exact le_top

end Format

end ArborX.Fp
