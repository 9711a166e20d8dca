import Verif.Fp.CurveBalls
import Verif.Geometry.Kdop

/-!
# Property theorems: positions of k-DOPs on the space-filling curve (C103)

A k-DOP enters the scene, and has its centroid, through the intervals along its first directions, which are the axes.
-/

namespace ArborX.Fp

open Geometry

variable {w : ℕ} {f : Family}

/-! ## Model -/

/-- `calculateBoundingBoxOfTheScene` (`src/spatial/detail/ArborX_TreeConstruction.hpp` 26-39) for k-DOPs: `expand(Box, KDOP)`
(`src/geometry/algorithms/ArborX_Expand.hpp` 208-224) one after the other. -/
noncomputable def kdopScene (M : ℝ) (ks : List (Kdop ℝ f)) : Box ℝ f.dim := ks.foldl Box.expandKdop (Box.empty M)

/-- `returnCentroid` of a k-DOP (`src/geometry/algorithms/ArborX_Centroid.hpp` 84-95): the centroid of its box. -/
noncomputable def Format.kdopCentroid (F : Format) (M : ℝ) (k : Kdop ℝ f) : Fin f.dim → Fp.Num :=
  F.centroid [(k.toBox M).lo, (k.toBox M).hi]

/-- `projectOntoSpaceFillingCurve` (`src/spatial/detail/ArborX_SpaceFillingCurves.hpp` 66-89) on a k-DOP. -/
noncomputable def Curve.projectKdop (C : Curve w) (F : Format) (M : ℝ) (ks : List (Kdop ℝ f)) (k : Kdop ℝ f) : Option (BitVec w) :=
  C.position F (fun d => some ((kdopScene M ks).lo d : EReal)) (fun d => some ((kdopScene M ks).hi d : EReal)) (F.kdopCentroid M k)

/-! ## Specification -/

/-- The intervals along the axes are not empty, and their ends are numbers of the type `F` with largest number `M`. Nothing is said of the other directions. -/
structure KdopsOk (F : Format) (M : ℝ) (ks : List (Kdop ℝ f)) : Prop where
  order : ∀ k ∈ ks, ∀ d, k.lo (f.axis d) ≤ k.hi (f.axis d)
  rep : ∀ k ∈ ks, ∀ d, F.rnd (k.lo (f.axis d)) = (k.lo (f.axis d) : EReal) ∧ F.rnd (k.hi (f.axis d)) = (k.hi (f.axis d) : EReal)
  range : ∀ k ∈ ks, ∀ d, -M ≤ k.lo (f.axis d) ∧ k.hi (f.axis d) ≤ M

/-- The corners of the box of a k-DOP. -/
def kdopHull (k : Kdop ℝ f) : Hull f.dim := [fun d => k.lo (f.axis d), fun d => k.hi (f.axis d)]

/-! ## Lemmas -/

lemma kdops_sceneOk {F : Format} {M : ℝ} {ks : List (Kdop ℝ f)} (h : KdopsOk F M ks) : SceneOk F M (ks.map kdopHull) := by
  refine ⟨?_, ?_, ?_⟩
  · intro g hg v hv d
    obtain ⟨k, hk, rfl⟩ := List.mem_map.mp hg
    simp only [kdopHull, List.mem_cons, List.not_mem_nil, or_false] at hv
    rcases hv with rfl | rfl
    · exact (h.rep k hk d).1
    · exact (h.rep k hk d).2
  · intro g hg v hv d
    obtain ⟨k, hk, rfl⟩ := List.mem_map.mp hg
    have h1 := h.order k hk d
    have h2 := h.range k hk d
    simp only [kdopHull, List.mem_cons, List.not_mem_nil, or_false] at hv
    rw [abs_le]
    rcases hv with rfl | rfl <;> constructor <;> dsimp only <;> linarith
  · intro g hg
    obtain ⟨k, hk, rfl⟩ := List.mem_map.mp hg
    simp [kdopHull]

lemma kdop_fold (ks : List (Kdop ℝ f)) (d : Fin f.dim) (h : ∀ k ∈ ks, k.lo (f.axis d) ≤ k.hi (f.axis d)) : ∀ B : Box ℝ f.dim,
    (ks.foldl Box.expandKdop B).lo d = (ks.map kdopHull).flatten.foldl (fun m v => min m (v d)) (B.lo d) ∧
      (ks.foldl Box.expandKdop B).hi d = (ks.map kdopHull).flatten.foldl (fun m v => max m (v d)) (B.hi d) := by
  induction ks with
  | nil => intro B; exact ⟨rfl, rfl⟩
  | cons k ks ih =>
    intro B
    have ho := h k (by simp)
    obtain ⟨h1, h2⟩ := ih (fun k hk => h k (by simp [hk])) (B.expandKdop k)
    simp only [List.foldl_cons, List.map_cons, List.flatten_cons, List.foldl_append]
    rw [h1, h2]
    simp only [kdopHull, List.foldl_cons, List.foldl_nil, Box.expandKdop, Box.expandBox]
    rw [min_assoc, min_eq_left ho, max_assoc, max_eq_right ho]
    exact ⟨rfl, rfl⟩

lemma kdop_box {F : Format} {M : ℝ} {ks : List (Kdop ℝ f)} (h : KdopsOk F M ks) {k : Kdop ℝ f} (hk : k ∈ ks) :
    F.kdopCentroid M k = F.centroid (kdopHull k) := by
  have hl : (k.toBox M).lo = fun d => k.lo (f.axis d) := by
    funext d
    have h1 := h.order k hk d
    have h2 := h.range k hk d
    simp only [Kdop.toBox, Box.expandKdop, Box.expandBox, Box.empty]
    exact min_eq_right (by linarith)
  have hh : (k.toBox M).hi = fun d => k.hi (f.axis d) := by
    funext d
    have h1 := h.order k hk d
    have h2 := h.range k hk d
    simp only [Kdop.toBox, Box.expandKdop, Box.expandBox, Box.empty]
    exact max_eq_right (by linarith)
  rw [Format.kdopCentroid, hl, hh, kdopHull]

/-! ## Theorems -/

/-- **C103.** The position of a k-DOP among k-DOPs is that of its box among their boxes: all that is shown of boxes holds for k-DOPs. -/
theorem kdop_position_eq_box (C : Curve w) (F : Format) (M : ℝ) (ks : List (Kdop ℝ f)) (h : KdopsOk F M ks) (k : Kdop ℝ f) (hk : k ∈ ks) :
    C.projectKdop F M ks k = C.project F M (ks.map kdopHull) (F.centroid (kdopHull k)) := by
  have hl : (fun d => some ((kdopScene M ks).lo d : EReal)) = fun d => some (sceneLo M (ks.map kdopHull) d : EReal) :=
    funext fun d => by rw [sceneLo, kdopScene, (kdop_fold ks d (fun k hk => h.order k hk d) (Box.empty M)).1]; rfl
  have hh : (fun d => some ((kdopScene M ks).hi d : EReal)) = fun d => some (sceneHi M (ks.map kdopHull) d : EReal) :=
    funext fun d => by rw [sceneHi, kdopScene, (kdop_fold ks d (fun k hk => h.order k hk d) (Box.empty M)).2]; rfl
  rw [Curve.projectKdop, Curve.project, kdop_box h hk, hl, hh]

/-- **C103 (partial).** The constructor of a tree computes a defined position for every k-DOP, if no upper end is so far above a lower end along an axis that their difference
overflows; ends along other directions and centroids may overflow. -/
theorem kdop_position_defined_partial (C : Curve w) (hC : C.Ok) (F : Format) (hF : F.Gradual) (M : ℝ) (ks : List (Kdop ℝ f)) (h : KdopsOk F M ks)
    (hfit : ∀ k ∈ ks, ∀ l ∈ ks, ∀ d, F.rnd (k.hi (f.axis d) - l.lo (f.axis d)) ≠ ⊤) (k : Kdop ℝ f) (hk : k ∈ ks) :
    (C.projectKdop F M ks k).isSome := by
  rw [kdop_position_eq_box C F M ks h k hk]
  refine value_position_defined_partial C hC F hF M _ (kdops_sceneOk h) ?_ _ (List.mem_map.mpr ⟨k, hk, rfl⟩)
  intro g hg v hv g' hg' v' hv' d htop
  obtain ⟨a, ha, rfl⟩ := List.mem_map.mp hg
  obtain ⟨b, hb, rfl⟩ := List.mem_map.mp hg'
  have h1 := h.order a ha d
  have h2 := h.order b hb d
  refine hfit a ha b hb d (top_le_iff.mp (htop ▸ F.mono ?_))
  simp only [kdopHull, List.mem_cons, List.not_mem_nil, or_false] at hv hv'
  rcases hv with rfl | rfl <;> rcases hv' with rfl | rfl <;> dsimp only <;> linarith

/-! ## The hypotheses are met -/

/-- Two 14-DOPs, of which one has no points: its intervals along the diagonals are empty. -/
noncomputable def dops : List (Kdop ℝ .d3k14) := [⟨fun _ => 0, fun _ => 2 ^ (0 : ℤ)⟩, ⟨fun i => if i.val < 3 then 2 ^ (0 : ℤ) else floatMax, fun i => if i.val < 3 then 2 ^ (1 : ℤ) else -floatMax⟩]

example (b b' b'' : Bool) : ∀ k ∈ dops, ((curve64 (Ieee.float b) (Ieee.float b') (Ieee.double b'') 3).projectKdop (Ieee.float b) floatMax dops k).isSome := by
  have hax : ∀ d, (Family.d3k14.axis d).val < 3 := fun d => by simp [Family.axis]
  have p0 := float_pow b (a := 0) (by norm_num) (by norm_num)
  have p1 := float_pow b (a := 1) (by norm_num) (by norm_num)
  have z := (Ieee.float b).rnd_zero'
  refine kdop_position_defined_partial _ (morton_curves_fine 3 (by norm_num) (by norm_num) b b' b'' _ (.inl rfl)).2.1.toOk (Ieee.float b) (Ieee.gradual_float b)
    floatMax dops ⟨?_, ?_, ?_⟩ ?_
  · intro k hk d
    simp only [dops, List.mem_cons, List.not_mem_nil, or_false] at hk
    rcases hk with rfl | rfl <;> simp only [hax d, if_true] <;> norm_num
  · intro k hk d
    simp only [dops, List.mem_cons, List.not_mem_nil, or_false] at hk
    rcases hk with rfl | rfl <;> simp only [hax d, if_true]
    · exact ⟨z, p0⟩
    · exact ⟨p0, p1⟩
  · intro k hk d
    simp only [dops, List.mem_cons, List.not_mem_nil, or_false] at hk
    rcases hk with rfl | rfl <;> simp only [hax d, if_true] <;> norm_num [floatMax]
  · intro k hk l hl d htop
    have hle : (Ieee.float b).rnd (k.hi (Family.d3k14.axis d) - l.lo (Family.d3k14.axis d)) ≤ (Ieee.float b).rnd (2 ^ (1 : ℤ)) := by
      refine (Ieee.float b).mono ?_
      simp only [dops, List.mem_cons, List.not_mem_nil, or_false] at hk hl
      rcases hk with rfl | rfl <;> rcases hl with rfl | rfl <;> simp only [hax d, if_true] <;> norm_num
    rw [htop, p1] at hle
    exact absurd hle (not_le.mpr (EReal.coe_lt_top _))

end ArborX.Fp
