import Verif.Euclid.Model

/-!
# Lemmas about trees over geometries
-/

namespace ArborX.Euclid

open Geometry BVH

variable {D : ℕ}

/-- Boxes have ordered corners, spheres a radius that is not negative, triangles and tetrahedra are not degenerate. -/
def Regular : Geom ℝ D → Prop
  | .box B => B.Valid
  | .sphere S => 0 ≤ S.radius
  | .triangle T => T.NonDegenerate
  | .tetrahedron T => T.NonDegenerate
  | _ => True

lemma Regular.valid {g : Geom ℝ D} (h : Regular g) : g.Valid := by
  cases g <;> first | exact h | exact trivial

lemma triangle_ab {T : Triangle ℝ D} (h : T.NonDegenerate) : T.a ≠ T.b := by
  intro e
  have := (h 1 (-1) 0 (by norm_num) (fun d => by rw [e]; ring)).1
  norm_num at this

lemma inter_point {p : Pt ℝ D} {s : Set (Pt ℝ D)} : p ∈ s ↔ (({p} : Set (Pt ℝ D)) ∩ s).Nonempty := by
  rw [Set.singleton_inter_nonempty]

/-- **The tests are exact**: two geometries that are not degenerate intersect, according to the library, exactly if they have a common point. -/
theorem intersects_exact {Q g : Geom ℝ D} (hQ : Regular Q) (hg : Regular g) {b : Bool} (h : intersects Q g = some b) :
    b = true ↔ (Q.set ∩ g.set).Nonempty := by
  unfold intersects at h
  split at h
  · cases h; exact intersects_box_box _ _ hQ hg
  · cases h; rw [intersects_point_box]; exact inter_point
  · cases h; rw [intersects_point_box, Set.inter_comm]; exact inter_point
  · cases h; exact intersects_sphere_box _ _ hg
  · cases h; rw [Set.inter_comm]; exact intersects_sphere_box _ _ hQ
  · cases h; exact intersects_sphere_sphere _ _ hQ hg
  · cases h; rw [intersects_sphere_point, Set.inter_comm]; exact inter_point
  · cases h; rw [intersects_sphere_point]; exact inter_point
  · obtain ⟨r, e, hr⟩ := intersects_sphere_triangle_partial _ _ (triangle_ab hg)
    rw [e] at h; cases h; exact hr
  · obtain ⟨r, e, hr⟩ := intersects_sphere_triangle_partial _ _ (triangle_ab hQ)
    rw [e] at h; cases h; rw [Set.inter_comm]; exact hr
  · obtain ⟨r, e, hr⟩ := intersects_point_triangle _ hg _
    rw [e] at h; cases h; rw [hr]; exact inter_point
  · obtain ⟨r, e, hr⟩ := intersects_point_triangle _ hQ _
    rw [e] at h; cases h; rw [hr, Set.inter_comm]; exact inter_point
  · cases h; rw [intersects_point_tetrahedron _ hg]; exact inter_point
  · cases h; rw [intersects_point_tetrahedron _ hQ, Set.inter_comm]; exact inter_point
  · cases h; exact intersects_segment_segment _ _
  · cases h; exact intersects_segment_box _ _ hg
  · cases h; rw [Set.inter_comm]; exact intersects_segment_box _ _ hQ
  · cases h

/-- **The distances are exact.** -/
theorem distance_exact {Q g : Geom ℝ D} (hQ : Regular Q) (hg : Regular g) {r : ℝ} (h : distance Q g = some r) :
    IsDistance Q.set g.set r := by
  unfold distance at h
  split at h
  · cases h; exact distance_point_point _ _
  · cases h; exact distance_point_box _ _ hg
  · cases h; exact (distance_point_box _ _ hQ).symm
  · cases h; exact distance_point_sphere _ _ hg
  · cases h; exact (distance_point_sphere _ _ hQ).symm
  · cases h; exact distance_sphere_sphere _ _ hQ hg
  · obtain ⟨r', e, hr⟩ := distance_point_triangle_partial _ _ (triangle_ab hg)
    rw [e] at h; cases h; exact hr
  · obtain ⟨r', e, hr⟩ := distance_point_triangle_partial _ _ (triangle_ab hQ)
    rw [e] at h; cases h; exact hr.symm
  · obtain ⟨r', e, hr⟩ := distance_point_tetrahedron _ _ hg
    rw [e] at h; cases h; exact hr
  · obtain ⟨r', e, hr⟩ := distance_point_tetrahedron _ _ hQ
    rw [e] at h; cases h; exact hr.symm
  · cases h; exact distance_box_box _ _ hQ hg
  · cases h; exact distance_sphere_box _ _ hQ hg
  · cases h; exact (distance_sphere_box _ _ hg hQ).symm
  · obtain ⟨r', e, hr⟩ := distance_point_segment _ _
    rw [e] at h; cases h; exact hr
  · obtain ⟨r', e, hr⟩ := distance_point_segment _ _
    rw [e] at h; cases h; exact hr.symm
  · cases h

/-- The box of a leaf contains the value. -/
lemma leafBound_spec (M : ℝ) {g : Geom ℝ D} (hg : g.Valid) : ∃ B : VBox D, leafBound M g = (B : Bound D) ∧ g.set ⊆ B.1.set := by
  obtain ⟨H, e, hH, hs, -⟩ := (Box.empty M).expand_spec g hg
  have hv : ((Box.empty M).expand g).Valid := by
    rw [e]; intro d
    exact (min_le_right _ _).trans ((hH d).trans (le_max_right _ _))
  refine ⟨⟨_, hv⟩, dif_pos hv, fun x hx d => ?_⟩
  have := hs hx d
  show ((Box.empty M).expand g).lo d ≤ x d ∧ x d ≤ ((Box.empty M).expand g).hi d
  rw [e]
  exact ⟨(min_le_right _ _).trans this.1, this.2.trans (le_max_right _ _)⟩

lemma leafBound_le {M : ℝ} {g : Geom ℝ D} (hg : g.Valid) {v : Bound D} (h : leafBound M g ≤ v) :
    ∃ C : VBox D, v = (C : Bound D) ∧ g.set ⊆ C.1.set := by
  obtain ⟨B, e, hB⟩ := leafBound_spec M hg
  rw [e] at h
  induction v using WithBot.recBotCoe with
  | bot => exact absurd h (by simp)
  | coe C => exact ⟨C, rfl, hB.trans ((VBox.le_iff B C).mp (WithBot.coe_le_coe.mp h))⟩

/-- What the constructor needs: `sortObjects` has sorted the codes, the number of values is representable, no value is degenerate. -/
structure Scene.Valid (S : Scene D) : Prop where
  dim2 : 2 ≤ D
  dim10 : D ≤ 10
  prec : 24 ≤ S.prec
  fits : S.geo.length ≤ 2 ^ 63
  sorted : S.input.Sorted
  regular : ∀ g ∈ S.geo, Regular (toReal g)

lemma Scene.Valid.input {S : Scene D} (h : S.Valid) : S.input.Valid :=
  Morton.morton64_valid D h.dim2 h.dim10 S.prec h.prec S.input _ (fun _ _ => rfl) h.fits h.sorted

lemma Scene.at_mem (S : Scene D) {i : ℕ} (hi : i < S.geo.length) : S.at i ∈ S.geo := by
  unfold Scene.at
  rw [List.getD_eq_getElem _ _ hi]
  exact List.getElem_mem hi

lemma Scene.Valid.at {S : Scene D} (h : S.Valid) (i : ℕ) : Regular (toReal (S.at i)) := by
  rcases Nat.lt_or_ge i S.geo.length with hi | hi
  · exact h.regular _ (S.at_mem hi)
  · unfold Scene.at
    rw [List.getD_eq_default _ _ hi]
    exact trivial

end ArborX.Euclid
