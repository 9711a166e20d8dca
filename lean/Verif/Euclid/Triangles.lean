import Verif.Euclid.Theorems
import Verif.Geometry.BoxTriangleExact
import Verif.Traversal.AnyPredicate

/-!
# Boxes as queries on trees of triangles (C52)

`intersects(Box)` on a tree of triangles in three dimensions, degenerate ones included. The test of a box and a triangle has a defect (C35); the
theorem says what the query finds nevertheless.
-/

namespace ArborX.Euclid

open Geometry BVH

/-! ## Model -/

/-- `intersects(Box, Triangle)` (`src/geometry/algorithms/ArborX_Intersects.hpp` 166-316) on a leaf, for the predicate `intersects(Q)`
(`src/spatial/detail/ArborX_Predicates.hpp` 95-101). -/
noncomputable def Scene.boxLeafTest (S : Scene 3) (Q : Box ℝ 3) (i : ℕ) : Bool :=
  match toReal (S.at i) with
  | .triangle T => intersectsBoxTriangle (S.M : ℝ) Q T
  | g => decide (intersects (.box Q) g = some true)

/-! ## Specification -/

/-- All values are triangles with coordinates in the range of the coordinate type. -/
def Scene.Triangles (S : Scene 3) : Prop := ∀ g ∈ S.geo, ∃ T, g = .triangle T ∧ ∀ d, |T.a d| ≤ S.M

/-- The one test that reads a wrong component of the vertices gives the answer it would give with the right one. -/
def WrongTestRight (B : Box ℝ 3) (T : Triangle ℝ 3) : Prop :=
  rejectYbcCode (relative B T.a) (relative B T.b) (relative B T.c) (halfSize B) =
    rejectYbc (relative B T.a) (relative B T.b) (relative B T.c) (halfSize B)

/-! ## Lemmas -/

lemma box_leaf_monotone (S : Scene 3) (Q : Box ℝ 3) (hQ : Q.Valid) (i : ℕ) (T : Triangle ℝ 3) (e : toReal (S.at i) = .triangle T) (v : Bound 3)
    (hv : S.input.vol i ≤ v) (ht : intersectsBoxTriangle (S.M : ℝ) Q T = true) : nodeTest (.box Q) v = true := by
  have hval : (Geom.triangle T).Valid := trivial
  obtain ⟨H, e1, hH, -, -⟩ := (Box.empty (S.M : ℝ)).expand_spec (.triangle T) hval
  have hb : ((Box.empty (S.M : ℝ)).expand (.triangle T)).Valid := by
    rw [e1]; intro d
    exact (min_le_right _ _).trans ((hH d).trans (le_max_right _ _))
  have hvol : S.input.vol i = ((⟨_, hb⟩ : VBox 3) : Bound 3) := by
    show leafBound (S.M : ℝ) (toReal (S.at i)) = _
    rw [e]
    exact dif_pos hb
  rw [hvol] at hv
  induction v using WithBot.recBotCoe with
  | bot => exact absurd hv (by simp)
  | coe C =>
    have hsub := (VBox.le_iff _ C).mp (WithBot.coe_le_coe.mp hv)
    have hbb : intersectsBoxBox ((Box.empty (S.M : ℝ)).expandTriangle T) Q = true := by
      unfold intersectsBoxTriangle at ht
      dsimp only at ht
      by_contra hc
      rw [if_pos (by simpa using hc)] at ht
      exact absurd ht (by decide)
    obtain ⟨x, hx, hx'⟩ := (intersects_box_box _ _ hb hQ).mp hbb
    show decide (intersects (.box Q) (.box C.1) = some true) = true
    rw [decide_eq_true_eq]
    show some (intersectsBoxBox Q C.1) = some true
    rw [(intersects_box_box Q C.1 hQ C.2).mpr ⟨x, hx', hsub hx⟩]

/-! ## Property theorem -/

/-- **C52 (partial).** A query `intersects(box)` on a tree of triangles in three dimensions, degenerate or not, calls the callback once for each
triangle for which the test of the library is true; in particular it finds each triangle that has a point in common with the box and no other, among
those for which the one wrong test (C35) gives the right answer. Missing: the other triangles, see `Geometry.intersects_box_triangle_wrong`. -/
theorem box_query_triangles_partial (S : Scene 3) (hprec : 24 ≤ S.prec) (hfits : S.geo.length ≤ 2 ^ 63) (hsort : S.input.Sorted) (ht : S.Triangles)
    (Q : Box ℝ 3) (hQ : Q.Valid) (sched : List ℕ) (hf : S.input.Finished sched) (fuel : ℕ) (hfuel : 2 * S.geo.length ≤ fuel) :
    ∃ calls, Traversal.spatialQuery (S.input.build sched) (S.boxLeafTest Q) (nodeTest (.box Q)) (fun _ => false) fuel = .done calls ∧
      calls.Nodup ∧ (∀ i ∈ calls, i < S.geo.length) ∧
      ∀ i < S.geo.length, ∀ T, toReal (S.at i) = .triangle T →
        (i ∈ calls ↔ intersectsBoxTriangle (S.M : ℝ) Q T = true) ∧
        (WrongTestRight Q T → (i ∈ calls ↔ (T.set ∩ Q.set).Nonempty)) := by
  have hI : S.input.Valid := Morton.morton64_valid 3 (by norm_num) (by norm_num) S.prec hprec S.input _ (fun _ _ => rfl) hfits hsort
  have hst : S.input.stored = List.range S.geo.length := by
    unfold Input.stored
    exact List.map_id _
  have hat : ∀ i < S.geo.length, ∃ T : Triangle ℚ 3, S.at i = .triangle T ∧ ∀ d, |T.a d| ≤ S.M := fun i hi => ht _ (S.at_mem hi)
  have hleaf : ∀ i T, toReal (S.at i) = .triangle T → S.boxLeafTest Q i = intersectsBoxTriangle (S.M : ℝ) Q T := by
    intro i T e
    unfold Scene.boxLeafTest
    rw [e]
  obtain ⟨calls, h1, h2, h3⟩ := Traversal.spatial_query_any S.input hI (S.boxLeafTest Q) (nodeTest (.box Q))
  have hnd : calls.Nodup := by
    obtain ⟨l, hl, hl'⟩ := h2
    rw [hst] at hl'
    exact hl.nodup_iff.mp ((List.nodup_range.filter _).sublist hl')
  have hlt : ∀ i ∈ calls, i < S.geo.length ∧ S.boxLeafTest Q i = true := by
    intro i hi
    have := h2.subset hi
    rw [hst, List.mem_filter, List.mem_range] at this
    exact this
  refine ⟨calls, h1 sched hf fuel hfuel, hnd, fun i hi => (hlt i hi).1, fun i hi T e => ?_⟩
  have hiff : i ∈ calls ↔ intersectsBoxTriangle (S.M : ℝ) Q T = true := by
    constructor
    · intro hm
      rw [← hleaf i T e]
      exact (hlt i hm).2
    · intro hm
      have := (h3 (fun a => decide (a < S.geo.length) && S.boxLeafTest Q a) (fun a ha => by
        rw [Bool.and_eq_true, decide_eq_true_eq] at ha
        refine ⟨ha.2, fun v hv => ?_⟩
        obtain ⟨T', hT', -⟩ := hat a ha.1
        have e' : toReal (S.at a) = .triangle ⟨toRealPt T'.a, toRealPt T'.b, toRealPt T'.c⟩ := by rw [hT']; rfl
        exact box_leaf_monotone S Q hQ a _ e' v hv (by rw [← hleaf a _ e']; exact ha.2))).subset
      apply this
      rw [hst, List.mem_filter, List.mem_range]
      exact ⟨hi, by simp only [hi, decide_true, Bool.true_and]; rw [hleaf i T e]; exact hm⟩
  refine ⟨hiff, fun hw => ?_⟩
  obtain ⟨T', hT', hM⟩ := hat i hi
  rw [hT'] at e
  have e' : T = ⟨toRealPt T'.a, toRealPt T'.b, toRealPt T'.c⟩ := (Geom.triangle.inj e).symm
  rw [hiff]
  refine intersects_box_triangle_exact_partial (S.M : ℝ) Q T hQ (fun d => ?_) hw
  rw [e']
  show |((T'.a d : ℚ) : ℝ)| ≤ (S.M : ℝ)
  exact_mod_cast hM d

/-! ## Non-vacuity -/

/-- Three triangles, the last one degenerate. -/
def exampleTriangles : Scene 3 where
  geo := [.triangle ⟨![0, 0, 0], ![1, 0, 0], ![0, 1, 0]⟩, .triangle ⟨![2, 2, 2], ![3, 2, 3], ![2, 3, 3]⟩, .triangle ⟨![5, 5, 5], ![5, 5, 5], ![6, 6, 5]⟩]
  M := 1000
  prec := 24
  red := .iter (.iter (.iter .init 0) 1) 2
  perm := fun i => i

example : exampleTriangles.Triangles ∧ exampleTriangles.input.Sorted := by
  refine ⟨?_, ?_, ?_⟩
  · intro g hg
    simp only [exampleTriangles, List.mem_cons, List.not_mem_nil, or_false] at hg
    rcases hg with rfl | rfl | rfl
    all_goals exact ⟨_, rfl, fun d => by fin_cases d <;> decide +kernel⟩
  · show ((List.range 3).map (fun i => i)).Perm (List.range 3)
    rw [List.map_id']
  · intro i hi
    have hi' : i + 1 < 3 := hi
    have h01 : exampleTriangles.code 0 ≤ exampleTriangles.code 1 := by decide +kernel
    have h12 : exampleTriangles.code 1 ≤ exampleTriangles.code 2 := by decide +kernel
    rcases (by omega : i = 0 ∨ i = 1) with rfl | rfl
    · exact h01
    · exact h12

/-- For a triangle whose last two vertices are at the same height the wrong test does no harm. -/
example (B : Box ℝ 3) (T : Triangle ℝ 3) (h : T.b 2 = T.c 2) : WrongTestRight B T := by
  unfold WrongTestRight rejectYbcCode rejectYbc
  have : (relative B T.c - relative B T.b) 2 = 0 := by simp [relative, h]
  rw [this]
  simp

/-- Two triangles; the first one has a vertex at the origin. -/
def missedTriangles : Scene 3 where
  geo := [.triangle ⟨![2, -2, 0], ![0, -2, 2], ![0, 0, 0]⟩, .triangle ⟨![5, 5, 5], ![6, 5, 5], ![5, 6, 5]⟩]
  M := 1000
  prec := 24
  red := .iter (.iter .init 0) 1
  perm := fun i => i

lemma missed_sorted : missedTriangles.input.Sorted := by
  refine ⟨?_, ?_⟩
  · show ((List.range 2).map (fun i => i)).Perm (List.range 2)
    rw [List.map_id']
  · intro i hi
    have hi' : i + 1 < 2 := hi
    have h01 : missedTriangles.code 0 ≤ missedTriangles.code 1 := by decide +kernel
    obtain rfl : i = 0 := by omega
    exact h01

/-- **C52, refuted for triangles.** The query with the box [-1,1]³ on a tree of two triangles does not report the first one, which has a vertex at the
centre of the box. -/
theorem box_query_triangle_missed (sched : List ℕ) (hf : missedTriangles.input.Finished sched) (fuel : ℕ) (hfuel : 4 ≤ fuel) :
    let Q : Box ℝ 3 := ⟨![-1, -1, -1], ![1, 1, 1]⟩
    ∃ calls, Traversal.spatialQuery (missedTriangles.input.build sched) (missedTriangles.boxLeafTest Q) (nodeTest (.box Q)) (fun _ => false) fuel = .done calls ∧
      0 ∉ calls ∧ ((toReal (missedTriangles.at 0)).set ∩ Q.set).Nonempty := by
  intro Q
  have hT : missedTriangles.Triangles := by
    intro g hg
    simp only [missedTriangles, List.mem_cons, List.not_mem_nil, or_false] at hg
    rcases hg with rfl | rfl
    all_goals exact ⟨_, rfl, fun d => by fin_cases d <;> decide +kernel⟩
  have hQ : Q.Valid := fun d => by fin_cases d <;> simp [Q]
  obtain ⟨calls, h1, -, -, h4⟩ := box_query_triangles_partial missedTriangles (by decide) (by decide) missed_sorted hT Q hQ sched hf fuel hfuel
  have e : toReal (missedTriangles.at 0) = .triangle ⟨![2, -2, 0], ![0, -2, 2], ![0, 0, 0]⟩ := by
    show Geom.triangle _ = _
    congr 1
    congr 1 <;> (funext d; fin_cases d <;> simp [toRealPt])
  refine ⟨calls, h1, ?_, ?_⟩
  · rw [(h4 0 (by decide) _ e).1]
    show ¬intersectsBoxTriangle ((1000 : ℚ) : ℝ) _ _ = true
    simp [intersectsBoxTriangle, satTests, reject, Q]
  · rw [e]
    exact ⟨![0, 0, 0], (vertex_mem _).2.2, fun d => by fin_cases d <;> simp [Q]⟩

example : ∃ sched, missedTriangles.input.Finished sched := by
  have hI : missedTriangles.input.Valid :=
    Morton.morton64_valid 3 (by norm_num) (by norm_num) missedTriangles.prec (by decide) missedTriangles.input _ (fun _ _ => rfl) (by decide) missed_sorted
  obtain ⟨s, hs⟩ := Construction.exists_complete missedTriangles.input.params (hI.keys (by decide))
  exact ⟨s, fun _ => hs⟩

end ArborX.Euclid
