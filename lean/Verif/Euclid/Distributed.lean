import Verif.Euclid.Theorems
import Verif.Distributed.Nearest

/-!
# Distributed trees of geometries (C61, C62)

`DistributedTree` of points, boxes, spheres, segments, triangles and tetrahedra with the default space-filling curve, and the predicates
`intersects(geometry)` and `nearest(geometry, k)`, on any number of processes. The specification is geometry alone.
-/

namespace ArborX.Euclid

open Geometry BVH

variable {D : ℕ} {T : Type}

/-! ## Model -/

/-- What the constructor of a distributed tree works on (`src/distributed/ArborX_DistributedTree.hpp` 156-250): the scenes of `P` processes, the
schedules of the constructions, and for the copy of the top tree on each process the points whose codes it is sorted by and the permutation that
`sortObjects` computes. In the code the points are the centroids of the boxes of the processes, in the unit cube; they are arbitrary here. -/
structure DScene (D : ℕ) where
  P : ℕ
  scene : ℕ → Scene D
  bsched : ℕ → List ℕ
  prec : ℕ
  topPoint : ℕ → ℕ → ℕ → ℚ
  topPerm : ℕ → ℕ → ℕ
  tsched : ℕ → List ℕ

/-- The value `a.2` of process `a.1`. -/
def DScene.at (S : DScene D) (a : ℕ × ℕ) : Geom ℚ D := if a.1 < S.P then (S.scene a.1).at a.2 else .point 0

/-- The bottom tree of process `t`, as `Scene.input`; the values carry the rank. -/
noncomputable def DScene.bottom (S : DScene D) (t : ℕ) : Input (ℕ × ℕ) (Bound D) 64 where
  n := (S.scene t).geo.length
  values := fun i => (t, i)
  vol := fun a => leafBound (S.scene a.1).M (toReal (S.at a))
  code := (S.scene t).code
  perm := (S.scene t).perm

/-- The distributed tree. -/
noncomputable def DScene.tree (S : DScene D) : Distributed.DTree (ℕ × ℕ) (Bound D) 64 where
  P := S.P
  bottom := S.bottom
  bsched := S.bsched
  topCode := fun r i => Morton.morton64 D S.prec (S.topPoint r i)
  topPerm := S.topPerm
  tsched := S.tsched

/-- The values of all processes are not degenerate, the constructions have finished and the sorting primitive did its job. -/
structure DScene.Valid (S : DScene D) : Prop where
  dim2 : 2 ≤ D
  dim10 : D ≤ 10
  prec : 24 ≤ S.prec
  fits : S.P ≤ 2 ^ 63
  scene : ∀ t < S.P, (S.scene t).Valid ∧ (S.bottom t).Finished (S.bsched t)
  top : ∀ r < S.P, (S.tree.top r).Sorted ∧ (S.tree.top r).Finished (S.tsched r)

/-- The predicate `intersects(Q)` (`src/spatial/detail/ArborX_Predicates.hpp` 95-101). -/
noncomputable def DScene.pred (S : DScene D) (Q : Geom ℝ D) : Distributed.Pred (ℕ × ℕ) (Bound D) where
  pl := fun a => decide (intersects Q (toReal (S.at a)) = some true)
  pv := nodeTest Q

/-- `approx_expand_by_radius` (`src/distributed/detail/ArborX_DistributedTreeNearestHelpers.hpp` 84-155). `up` and `down` are
`nextafter` towards the largest and the smallest finite number. There is none for other geometries. -/
noncomputable def expandByRadius (up down : ℝ → ℝ) : Geom ℝ D → ℝ → Option (Geom ℝ D)
  | .point p, r => some (.sphere ⟨p, r⟩)
  | .box B, r => some (.box ⟨fun d => down (B.lo d - r), fun d => up (B.hi d + r)⟩)
  | .sphere S, r => some (.sphere ⟨S.center, up (S.radius + r)⟩)
  | _, _ => none

/-- The predicate of the second phase (`WithinDistanceFromPredicates`, 170-176) for a volume. An infinite radius reaches every box. -/
noncomputable def withinRadius (up down : ℝ → ℝ) (Q : Geom ℝ D) (R : WithTop ℝ) (v : Bound D) : Bool :=
  WithTop.recTopCoe (WithBot.recBotCoe false (fun _ => true) v)
    (fun r => match expandByRadius up down Q r with
      | some Q' => nodeTest Q' v
      | none => false) R

/-- The predicate `nearest(Q, k)` (`ArborX_Predicates.hpp` 71-76) with that of the second phase. -/
noncomputable def DScene.npred (S : DScene D) (up down : ℝ → ℝ) (Q : Geom ℝ D) (k : ℕ) : Distributed.NPred (ℕ × ℕ) (Bound D) (WithTop ℝ) where
  q :=
    { k := k
      dl := fun a => asDistance (distance Q (toReal (S.at a)))
      dv := WithBot.recBotCoe ⊤ (fun B => asDistance (distance Q (.box B.1)))
      zero := 0
      inf := ⊤
      cap := 64 }
  within := withinRadius up down Q

/-! ## Specification -/

/-- The value `a.2` of process `a.1` exists. -/
def DScene.Has (S : DScene D) (a : ℕ × ℕ) : Prop := a.1 < S.P ∧ a.2 < (S.scene a.1).geo.length

/-- The number of values of all processes. -/
def DScene.size (S : DScene D) : ℕ := ((List.range S.P).map (fun t => (S.scene t).geo.length)).sum

/-- `calls` are the `k` values nearest to `Q` of all processes: distinct, in order of their distance, `min k n` of them, and no value left out is
nearer than one that is not. -/
structure DScene.NearestOf (S : DScene D) (Q : Geom ℝ D) (k : ℕ) (calls : List (ℕ × ℕ)) : Prop where
  nodup : calls.Nodup
  stored : ∀ a ∈ calls, S.Has a
  length : calls.length = min k S.size
  sorted : calls.Pairwise (fun a b => ∀ r s, IsDistance Q.set (toReal (S.at a)).set r → IsDistance Q.set (toReal (S.at b)).set s → r ≤ s)
  nearest : ∀ a ∈ calls, ∀ b, S.Has b → b ∉ calls → ∀ r s, IsDistance Q.set (toReal (S.at a)).set r →
    IsDistance Q.set (toReal (S.at b)).set s → r ≤ s

/-- The library has a test for the query geometry against boxes and against all stored values. -/
def DScene.CanIntersect (S : DScene D) (Q : Geom ℝ D) : Prop :=
  (∀ B : Box ℝ D, (intersects Q (.box B)).isSome) ∧ ∀ a, S.Has a → (intersects Q (toReal (S.at a))).isSome

/-- The library has a distance of the query geometry to boxes and to all stored values. -/
def DScene.HasDistance (S : DScene D) (Q : Geom ℝ D) : Prop :=
  (∀ B : Box ℝ D, (distance Q (.box B)).isSome) ∧ ∀ a, S.Has a → (distance Q (toReal (S.at a))).isSome

/-! ## Lemmas -/

lemma DScene.Valid.at {S : DScene D} (h : S.Valid) (a : ℕ × ℕ) : Regular (toReal (S.at a)) := by
  unfold DScene.at
  split_ifs with ha
  · exact (h.scene _ ha).1.at a.2
  · trivial

lemma DScene.Valid.tree {S : DScene D} (h : S.Valid) : S.tree.Valid where
  bottom := by
    intro t ht
    refine ⟨?_, (h.scene t ht).2⟩
    have := (h.scene t ht).1.input
    exact ⟨this.width, this.fits, ⟨this.sorted.perm, this.sorted.sorted⟩, this.top⟩
  top := by
    intro r hr
    exact ⟨Morton.morton64_valid D h.dim2 h.dim10 S.prec h.prec (S.tree.top r) (S.topPoint r) (fun _ _ => rfl) h.fits (h.top r hr).1, (h.top r hr).2⟩

lemma DScene.mem_stored {S : DScene D} {t : ℕ} {a : ℕ × ℕ} : a ∈ (S.tree.bottom t).stored ↔ a.1 = t ∧ a.2 < (S.scene t).geo.length := by
  show a ∈ (List.range (S.scene t).geo.length).map (fun i => (t, i)) ↔ _
  rw [List.mem_map]
  constructor
  · rintro ⟨i, hi, rfl⟩; exact ⟨rfl, List.mem_range.mp hi⟩
  · rintro ⟨rfl, h⟩; exact ⟨a.2, List.mem_range.mpr h, rfl⟩

lemma DScene.nodup_stored (S : DScene D) (t : ℕ) : (S.tree.bottom t).stored.Nodup := by
  show ((List.range (S.scene t).geo.length).map (fun i => (t, i))).Nodup
  exact List.nodup_range.map (fun i j h => (Prod.mk.inj h).2)

lemma nodeTest_mono {Q : Geom ℝ D} (hQ : Regular Q) (hc : ∀ B : Box ℝ D, (intersects Q (.box B)).isSome) {u v : Bound D} (h : u ≤ v)
    (hu : nodeTest Q u = true) : nodeTest Q v = true := by
  induction u using WithBot.recBotCoe with
  | bot => exact absurd hu (by simp [nodeTest])
  | coe B =>
    induction v using WithBot.recBotCoe with
    | bot => exact absurd h (by simp)
    | coe C =>
      have hBC := (VBox.le_iff B C).mp (WithBot.coe_le_coe.mp h)
      have hu' : intersects Q (.box B.1) = some true := of_decide_eq_true hu
      obtain ⟨x, hx, hx'⟩ := (intersects_exact hQ (g := .box B.1) B.2 hu').mp rfl
      obtain ⟨b, hb⟩ := Option.isSome_iff_exists.mp (hc C.1)
      have := (intersects_exact hQ (g := .box C.1) C.2 hb).mpr ⟨x, hx, hBC hx'⟩
      show decide (intersects Q (.box C.1) = some true) = true
      rw [hb, this]
      exact decide_eq_true rfl

lemma DScene.pred_fits {S : DScene D} (h : S.Valid) {Q : Geom ℝ D} (hQ : Regular Q) (hc : S.CanIntersect Q) (t : ℕ) :
    (S.pred Q).Fits (S.tree.bottom t).vol where
  volumes := fun u v huv hu => nodeTest_mono hQ hc.1 huv hu
  values := by
    intro a v hv ha
    obtain ⟨C, rfl, hC⟩ := leafBound_le (h.at a).valid hv
    have ha' : intersects Q (toReal (S.at a)) = some true := of_decide_eq_true ha
    obtain ⟨x, hx, hx'⟩ := (intersects_exact hQ (h.at a) ha').mp rfl
    obtain ⟨b, hb⟩ := Option.isSome_iff_exists.mp (hc.1 C.1)
    have := (intersects_exact hQ (g := .box C.1) C.2 hb).mpr ⟨x, hx, hC hx'⟩
    show decide (intersects Q (.box C.1) = some true) = true
    rw [hb, this]
    exact decide_eq_true rfl

/-! ## Spatial queries -/

/-- **C61.** Spatial queries `intersects(Q)` on a distributed tree of geometries. On every process the result is the compressed row storage of one
row for each of its queries, in their order. The row of a query consists of what the callback outputs for the geometries of all processes that have
a point in common with `Q`, each once. `E`, `Lt`, `Lb` range over all executions, `user` is the previous content of the views. -/
theorem distributed_spatial_geometry (S : DScene D) (h : S.Valid) (E : Distributed.QEnv) (hE : E.Valid) (Lt Lb : ℕ → Distributed.LEnv)
    (hLt : ∀ r < S.P, (Lt r).Valid) (hLb : ∀ r < S.P, (Lb r).Valid) (fuel : ℕ) (hft : 2 * S.P ≤ fuel)
    (hfb : ∀ r < S.P, 2 * (S.scene r).geo.length ≤ fuel) (cb : Distributed.Pred (ℕ × ℕ) (Bound D) → ℕ × ℕ → List T) (user : ℕ → List T)
    (queries : ℕ → List (Geom ℝ D)) (hq : ∀ s < S.P, ∀ Q ∈ queries s, Regular Q ∧ S.CanIntersect Q) :
    ∃ res, S.tree.spatial E Lt Lb fuel cb user (fun s => (queries s).map S.pred) = some res ∧ ∀ s < S.P, ∃ rows : ℕ → List T,
      Crs.IsCrs (queries s).length rows (res s).1 ((res s).2.map some) ∧
      ∀ i (hi : i < (queries s).length), ∃ hits : List (ℕ × ℕ), hits.Nodup ∧
        (∀ a, a ∈ hits ↔ S.Has a ∧ ((queries s)[i].set ∩ (toReal (S.at a)).set).Nonempty) ∧
        (rows i).Perm (hits.flatMap (cb (S.pred (queries s)[i]))) := by
  obtain ⟨res, h1, h2⟩ := Distributed.distributed_spatial S.tree h.tree E hE Lt Lb hLt hLb fuel hft hfb cb user (fun s => (queries s).map S.pred) (by
    intro s hs q hqm t _
    obtain ⟨Q, hQm, rfl⟩ := List.mem_map.mp hqm
    obtain ⟨hQ, hc⟩ := hq s hs Q hQm
    exact S.pred_fits h hQ hc t)
  refine ⟨res, h1, fun s hs => ?_⟩
  obtain ⟨rows, h3, h4⟩ := h2 s hs
  rw [List.length_map] at h3
  refine ⟨rows, h3, fun i hi => ?_⟩
  obtain ⟨hQ, hc⟩ := hq s hs _ (List.getElem_mem hi)
  have h5 := h4 i (by rw [List.length_map]; exact hi)
  rw [List.getElem_map] at h5
  refine ⟨(List.range S.P).flatMap (fun t => (S.tree.bottom t).stored.filter (S.pred (queries s)[i]).pl), ?_, ?_, ?_⟩
  · rw [List.nodup_flatMap]
    refine ⟨fun t _ => (S.nodup_stored t).filter _, ?_⟩
    refine List.nodup_range.imp (fun {t u} htu => ?_)
    intro a ha hb
    have e1 := (S.mem_stored.mp (List.mem_filter.mp ha).1).1
    have e2 := (S.mem_stored.mp (List.mem_filter.mp hb).1).1
    exact htu (e1.symm.trans e2)
  · intro a
    rw [List.mem_flatMap]
    have key : S.Has a → ((S.pred (queries s)[i]).pl a = true ↔ ((queries s)[i].set ∩ (toReal (S.at a)).set).Nonempty) := by
      intro hs
      obtain ⟨b, hb⟩ := Option.isSome_iff_exists.mp (hc.2 a hs)
      rw [← intersects_exact hQ (h.at a) hb]
      show decide (intersects _ _ = some true) = true ↔ _
      rw [hb, decide_eq_true_eq, Option.some_inj]
    constructor
    · rintro ⟨t, ht, ha⟩
      obtain ⟨ha1, ha2⟩ := List.mem_filter.mp ha
      obtain ⟨rfl, hlt⟩ := S.mem_stored.mp ha1
      have hh : S.Has a := ⟨List.mem_range.mp ht, hlt⟩
      exact ⟨hh, (key hh).mp ha2⟩
    · rintro ⟨hh, hne⟩
      exact ⟨a.1, List.mem_range.mpr hh.1, List.mem_filter.mpr ⟨S.mem_stored.mpr ⟨rfl, hh.2⟩, (key hh).mpr hne⟩⟩
  · rw [List.flatMap_assoc]
    exact h5

/-! ## Nearest queries -/

section nearest
variable {S : DScene D} (h : S.Valid) {up down : ℝ → ℝ} (hup : ∀ x, x ≤ up x) (hdown : ∀ x, down x ≤ x) {Q : Geom ℝ D} (hQ : Regular Q)
  (hd : S.HasDistance Q) (k : ℕ)
include hd

include hQ in
/-- The distance of a box is that of the sets. -/
lemma dv_coe (B : VBox D) : ∃ r : ℝ, (S.npred up down Q k).q.dv (B : Bound D) = (r : WithTop ℝ) ∧ distance Q (.box B.1) = some r ∧
    IsDistance Q.set B.1.set r := by
  obtain ⟨r, hr⟩ := Option.isSome_iff_exists.mp (hd.1 B.1)
  refine ⟨r, ?_, hr, distance_exact hQ (g := .box B.1) B.2 hr⟩
  show asDistance (distance Q (.box B.1)) = _
  rw [hr]; rfl

omit hd in
include h hQ in
lemma dl_cases (a : ℕ × ℕ) : (S.npred up down Q k).q.dl a = ⊤ ∨ ∃ r : ℝ, (S.npred up down Q k).q.dl a = (r : WithTop ℝ) ∧
    IsDistance Q.set (toReal (S.at a)).set r := by
  show asDistance (distance Q (toReal (S.at a))) = ⊤ ∨ ∃ r : ℝ, asDistance (distance Q (toReal (S.at a))) = (r : WithTop ℝ) ∧ _
  cases hi : distance Q (toReal (S.at a)) with
  | none => exact .inl rfl
  | some r => exact .inr ⟨r, rfl, distance_exact hQ (h.at a) hi⟩

include h hQ in
lemma dl_has {a : ℕ × ℕ} (ha : S.Has a) : ∃ r : ℝ, (S.npred up down Q k).q.dl a = (r : WithTop ℝ) ∧ IsDistance Q.set (toReal (S.at a)).set r := by
  obtain ⟨r, hr⟩ := Option.isSome_iff_exists.mp (hd.2 a ha)
  refine ⟨r, ?_, distance_exact hQ (h.at a) hr⟩
  show asDistance (distance Q (toReal (S.at a))) = _
  rw [hr]; rfl

include h hQ in
lemma n_admissible (t : ℕ) : Nearest.Admissible (S.npred up down Q k).q (S.tree.bottom t).vol := by
  intro a v hv
  obtain ⟨C, rfl, hC⟩ := leafBound_le (h.at a).valid hv
  obtain ⟨s, hs, -, hs'⟩ := dv_coe (up := up) (down := down) hQ hd k C
  rcases dl_cases (up := up) (down := down) h hQ k a with e | ⟨r, e, hr⟩
  · rw [e]; exact le_top
  · rw [e, hs, WithTop.coe_le_coe]
    exact distance_lower_bound hr hs' hC

/-- Only points, boxes and balls have a distance to boxes. -/
lemma query_cases : (∃ p, Q = .point p) ∨ (∃ B, Q = .box B) ∨ ∃ B, Q = .sphere B := by
  have := hd.1 ⟨0, 0⟩
  cases Q with
  | point p => exact .inl ⟨p, rfl⟩
  | box B => exact .inr (.inl ⟨B, rfl⟩)
  | sphere B => exact .inr (.inr ⟨B, rfl⟩)
  | _ => simp [distance] at this

include hQ hup hdown in
/-- The geometry of the second phase reaches the boxes within the radius. -/
lemma within_reaches {r s : ℝ} (C : VBox D) (hs : distance Q (.box C.1) = some s) (hsr : s ≤ r) :
    withinRadius up down Q (r : WithTop ℝ) (C : Bound D) = true := by
  show (match expandByRadius up down Q r with | some Q' => nodeTest Q' (C : Bound D) | none => false) = true
  have h0 : 0 ≤ r := (IsDistance.nonneg (distance_exact hQ (g := .box C.1) C.2 hs)).trans hsr
  rcases query_cases hd with ⟨p, rfl⟩ | ⟨B, rfl⟩ | ⟨B, rfl⟩
  · show decide (some (intersectsSphereBox ⟨p, r⟩ C.1) = some true) = true
    have : distancePointBox p C.1 = s := Option.some.inj hs
    simp only [intersectsSphereBox, this]
    simpa using hsr
  · show decide (some (intersectsBoxBox ⟨fun d => down (B.lo d - r), fun d => up (B.hi d + r)⟩ C.1) = some true) = true
    rw [decide_eq_true_eq, Option.some_inj]
    obtain ⟨x, hx, y, hy, e⟩ := (distance_exact hQ (g := .box C.1) C.2 hs).attained
    unfold intersectsBoxBox
    rw [List.all_eq_true]
    intro d _
    have hxy : |x d - y d| ≤ r := by
      have h1 : (x d - y d) ^ 2 ≤ r ^ 2 := by
        have h2 : (x d - y d) ^ 2 ≤ dist2 x y := by
          unfold dist2
          exact Finset.single_le_sum (f := fun d => (x d - y d) ^ 2) (fun _ _ => sq_nonneg _) (Finset.mem_univ d)
        have h3 : dist2 x y ≤ r ^ 2 := by
          have : Geometry.edist x y ≤ r := e.trans_le hsr
          unfold Geometry.edist at this
          exact (Real.sqrt_le_left h0).mp this
        exact h2.trans h3
      exact abs_le_of_sq_le_sq h1 h0
    have hx' := hx d
    have hy' := hy d
    have := hup (B.hi d + r)
    have := hdown (B.lo d - r)
    rw [abs_le] at hxy
    simp only [Bool.not_eq_true', Bool.or_eq_false_iff, decide_eq_false_iff_not, not_lt, gt_iff_lt]
    constructor <;> linarith [hx'.1, hx'.2, hy'.1, hy'.2]
  · show decide (some (intersectsSphereBox ⟨B.center, up (B.radius + r)⟩ C.1) = some true) = true
    have hs' : distanceSphereBox B C.1 = s := Option.some.inj hs
    unfold distanceSphereBox at hs'
    have : distancePointBox B.center C.1 - B.radius ≤ s := hs' ▸ le_max_left _ _
    have h2 := hup (B.radius + r)
    simp only [intersectsSphereBox, decide_eq_true_eq, Option.some_inj]
    linarith

lemma within_mono (R : WithTop ℝ) (u v : Bound D) (huv : u ≤ v) (hu : withinRadius up down Q R u = true) :
    withinRadius up down Q R v = true := by
  induction u using WithBot.recBotCoe with
  | bot =>
    induction R using WithTop.recTopCoe with
    | top => exact absurd hu (by simp [withinRadius])
    | coe r =>
      refine absurd hu ?_
      show ¬ (match expandByRadius up down Q r with | some Q' => nodeTest Q' (⊥ : Bound D) | none => false) = true
      split <;> simp [nodeTest]
  | coe B =>
    induction v using WithBot.recBotCoe with
    | bot => exact absurd huv (by simp)
    | coe C =>
      have hBC := WithBot.coe_le_coe.mp huv
      induction R using WithTop.recTopCoe with
      | top => rfl
      | coe r =>
        have hpb : ∀ p : Pt ℝ D, distancePointBox p C.1 ≤ distancePointBox p B.1 := fun p =>
          distance_lower_bound (distance_point_box p B.1 B.2) (distance_point_box p C.1 C.2) ((VBox.le_iff B C).mp hBC)
        change (match expandByRadius up down Q r with | some Q' => nodeTest Q' (B : Bound D) | none => false) = true at hu
        show (match expandByRadius up down Q r with | some Q' => nodeTest Q' (C : Bound D) | none => false) = true
        rcases query_cases hd with ⟨p, rfl⟩ | ⟨A, rfl⟩ | ⟨A, rfl⟩
        · change decide (some (intersectsSphereBox ⟨p, r⟩ B.1) = some true) = true at hu
          show decide (some (intersectsSphereBox ⟨p, r⟩ C.1) = some true) = true
          simp only [intersectsSphereBox, decide_eq_true_eq, Option.some_inj] at hu ⊢
          exact (hpb p).trans hu
        · change decide (some (intersectsBoxBox _ B.1) = some true) = true at hu
          show decide (some (intersectsBoxBox _ C.1) = some true) = true
          simp only [intersectsBoxBox, decide_eq_true_eq, Option.some_inj, List.all_eq_true, Bool.not_eq_true', Bool.or_eq_false_iff,
            decide_eq_false_iff_not, not_lt, gt_iff_lt] at hu ⊢
          intro d hd'
          obtain ⟨h1, h2⟩ := hu d hd'
          obtain ⟨h3, h4⟩ := hBC d
          exact ⟨h1.trans h4, h3.trans h2⟩
        · change decide (some (intersectsSphereBox ⟨A.center, up (A.radius + r)⟩ B.1) = some true) = true at hu
          show decide (some (intersectsSphereBox ⟨A.center, up (A.radius + r)⟩ C.1) = some true) = true
          simp only [intersectsSphereBox, decide_eq_true_eq, Option.some_inj] at hu ⊢
          exact (hpb _).trans hu

include h hQ in
lemma npred_fits (hb : ∀ t < S.P, Nearest.StackFits (S.scene t).input 64) (ht : ∀ r < S.P, Nearest.StackFits (S.tree.top r) 64) :
    (S.npred up down Q k).Fits S.tree where
  admissible := fun t _ => n_admissible h hQ hd k t
  volumes := by
    intro u v huv
    induction u using WithBot.recBotCoe with
    | bot => exact le_top
    | coe B =>
      induction v using WithBot.recBotCoe with
      | bot => exact absurd huv (by simp)
      | coe C =>
        obtain ⟨r, e1, -, hr⟩ := dv_coe (up := up) (down := down) hQ hd k B
        obtain ⟨s, e2, -, hs⟩ := dv_coe (up := up) (down := down) hQ hd k C
        rw [e1, e2, WithTop.coe_le_coe]
        exact distance_lower_bound hr hs ((VBox.le_iff B C).mp (WithBot.coe_le_coe.mp huv))
  empty := le_rfl
  value_nonneg := by
    intro a
    rcases dl_cases (up := up) (down := down) h hQ k a with e | ⟨r, e, hr⟩
    · rw [e]; exact le_top
    · rw [e]; exact WithTop.coe_le_coe.mpr (IsDistance.nonneg hr)
  volume_nonneg := by
    intro v
    induction v using WithBot.recBotCoe with
    | bot => exact le_top
    | coe C =>
      obtain ⟨s, e, -, hs⟩ := dv_coe (up := up) (down := down) hQ hd k C
      rw [e]; exact WithTop.coe_le_coe.mpr (IsDistance.nonneg hs)
  value_le := fun _ _ _ _ => le_top
  bottom_height := hb
  top_height := ht
  within_mono := fun R u v huv hu => within_mono hd R u v huv hu

include h hQ hup hdown in
lemma npred_reaches : (S.npred up down Q k).Reaches S.tree where
  finite := by
    intro a ha
    obtain ⟨t, ht, hm⟩ := Distributed.mem_all.mp ha
    obtain ⟨rfl, hlt⟩ := S.mem_stored.mp hm
    obtain ⟨r, e, -⟩ := dl_has (up := up) (down := down) h hQ hd k (a := a) ⟨ht, hlt⟩
    rw [e]; exact WithTop.coe_lt_top r
  within := by
    intro t ht a ha R v hv hR
    obtain ⟨C, rfl, hC⟩ := leafBound_le (h.at a).valid hv
    have h1 := n_admissible (up := up) (down := down) h hQ hd k t a (C : Bound D) hv
    obtain ⟨s, e, hs, -⟩ := dv_coe (up := up) (down := down) hQ hd k C
    rw [e] at h1
    induction R using WithTop.recTopCoe with
    | top => rfl
    | coe r => exact within_reaches hup hdown hQ hd C hs (WithTop.coe_le_coe.mp (h1.trans hR))

end nearest

lemma DScene.tree_size (S : DScene D) : S.tree.size = S.size := rfl

lemma DScene.mem_all {S : DScene D} {a : ℕ × ℕ} : a ∈ S.tree.all ↔ S.Has a := by
  rw [Distributed.mem_all]
  constructor
  · rintro ⟨t, ht, hm⟩
    obtain ⟨rfl, hlt⟩ := S.mem_stored.mp hm
    exact ⟨ht, hlt⟩
  · rintro ⟨h1, h2⟩
    exact ⟨a.1, h1, S.mem_stored.mpr ⟨rfl, h2⟩⟩

lemma DScene.nodup_all (S : DScene D) : S.tree.all.Nodup := by
  unfold Distributed.DTree.all
  rw [List.nodup_flatMap]
  refine ⟨fun t _ => S.nodup_stored t, List.nodup_range.imp (fun {t u} htu a ha hb => ?_)⟩
  exact htu ((S.mem_stored.mp ha).1.symm.trans (S.mem_stored.mp hb).1)

/-- **C62 (partial).** Queries `nearest(Q, k)` on a distributed tree of geometries. On every process the result is the compressed row storage of one
row for each of its queries, in their order: what the callback outputs for the `min k n` geometries of all processes nearest to `Q`, in the order of
their Euclidean distances. `E` ranges over all executions, `up` and `down` over all roundings outwards.
Partial: as for C29 the overload without callback aborts on a tree without values in builds with assertions (`hab`), and the stacks of 64 entries are
assumed to be large enough for the trees (`stack_fits_partial` and `top_stack_fits` say when). -/
theorem distributed_nearest_geometry_partial (S : DScene D) (h : S.Valid) (withCallback asserts : Bool)
    (hab : S.size ≠ 0 ∨ withCallback = true ∨ asserts = false) (hb : ∀ t < S.P, Nearest.StackFits (S.scene t).input 64)
    (ht : ∀ r < S.P, Nearest.StackFits (S.tree.top r) 64) (up down : ℝ → ℝ) (hup : ∀ x, x ≤ up x) (hdown : ∀ x, down x ≤ x)
    (E : Distributed.NEnv (WithTop ℝ)) (hE : E.Valid S.P) (fuel : ℕ) (hft : 2 * S.P ≤ fuel)
    (hfb : ∀ r < S.P, 2 * (S.scene r).geo.length ≤ fuel) (cb : Distributed.NPred (ℕ × ℕ) (Bound D) (WithTop ℝ) → ℕ × ℕ → T)
    (queries : ℕ → List (Geom ℝ D × ℕ)) (hq : ∀ s < S.P, ∀ q ∈ queries s, Regular q.1 ∧ S.HasDistance q.1) :
    ∃ res, S.tree.nearest withCallback asserts E fuel cb (fun s => (queries s).map (fun q => S.npred up down q.1 q.2)) = some res ∧
      ∀ s < S.P, ∃ calls : ℕ → List (ℕ × ℕ),
        (∃ rows : ℕ → List T, Crs.IsCrs (queries s).length rows (res s).1 ((res s).2.map some) ∧
          ∀ i (hi : i < (queries s).length), rows i = (calls i).map (cb (S.npred up down (queries s)[i].1 (queries s)[i].2))) ∧
        ∀ i (hi : i < (queries s).length), S.NearestOf (queries s)[i].1 (queries s)[i].2 (calls i) := by
  obtain ⟨res, h1, h2⟩ := Distributed.distributed_nearest_partial S.tree h.tree withCallback asserts hab E hE fuel hft hfb cb
    (fun s => (queries s).map (fun q => S.npred up down q.1 q.2)) (by
      intro s hs q hqm
      obtain ⟨x, hx, rfl⟩ := List.mem_map.mp hqm
      obtain ⟨hQ, hd⟩ := hq s hs x hx
      exact ⟨npred_fits h hQ hd x.2 hb ht, npred_reaches h hup hdown hQ hd x.2⟩)
  refine ⟨res, h1, fun s hs => ?_⟩
  obtain ⟨calls, ⟨rows, h3, h4⟩, h5⟩ := h2 s hs
  rw [List.length_map] at h3
  refine ⟨calls, ⟨rows, h3, fun i hi => ?_⟩, fun i hi => ?_⟩
  · have := h4 i (by rw [List.length_map]; exact hi)
    rwa [List.getElem_map] at this
  · obtain ⟨hQ, hd⟩ := hq s hs _ (List.getElem_mem hi)
    have := h5 i (by rw [List.length_map]; exact hi)
    rw [List.getElem_map] at this
    obtain ⟨⟨om, p1, p2, -, -, p5, -⟩, hlen⟩ := this
    have hnd : (calls i ++ om).Nodup := p1.nodup_iff.mpr S.nodup_all
    have hmem : ∀ a ∈ calls i ++ om, S.Has a := fun a ha => S.mem_all.mp (p1.mem_iff.mp ha)
    have hle : ∀ a b, S.Has a → S.Has b → (S.npred up down (queries s)[i].1 (queries s)[i].2).q.dl a ≤
        (S.npred up down (queries s)[i].1 (queries s)[i].2).q.dl b → ∀ r s', IsDistance (queries s)[i].1.set (toReal (S.at a)).set r →
        IsDistance (queries s)[i].1.set (toReal (S.at b)).set s' → r ≤ s' := by
      intro a b ha hb hab r s' hr hs'
      obtain ⟨x, e1, hx⟩ := dl_has (up := up) (down := down) h hQ hd (queries s)[i].2 ha
      obtain ⟨y, e2, hy⟩ := dl_has (up := up) (down := down) h hQ hd (queries s)[i].2 hb
      rw [e1, e2, WithTop.coe_le_coe] at hab
      rw [IsDistance.unique hr hx, IsDistance.unique hs' hy]
      exact hab
    refine ⟨(List.nodup_append.mp hnd).1, fun a ha => hmem a (List.mem_append_left _ ha), hlen, ?_, ?_⟩
    · refine List.Pairwise.imp_of_mem (fun {a b} ha hb hab => ?_) p2
      exact hle a b (hmem a (List.mem_append_left _ ha)) (hmem b (List.mem_append_left _ hb)) hab
    · intro a ha b hb hbn
      have hbo : b ∈ om := (List.mem_append.mp (p1.mem_iff.mpr (S.mem_all.mpr hb))).resolve_left hbn
      exact hle a b (hmem a (List.mem_append_left _ ha)) hb (p5 a ha b hbo)

/-- **C62.** The stacks suffice for the top tree up to 129 processes. -/
theorem top_stack_fits (S : DScene D) (hP : S.P ≤ 129) (r : ℕ) : Nearest.StackFits (S.tree.top r) 64 :=
  Nearest.stack_suffices_small (S.tree.top r) (by norm_num) hP

/-! ## Non-vacuity -/

/-- No values. -/
def emptyScene : Scene 2 where
  geo := []
  M := 1000
  prec := 24
  red := .init
  perm := fun i => i

theorem emptyScene_valid : emptyScene.Valid where
  dim2 := le_rfl
  dim10 := by norm_num
  prec := le_rfl
  fits := by decide
  sorted := ⟨by decide, fun i hi => absurd hi (by show ¬ i + 1 < 0; omega)⟩
  regular := by intro g hg; simp [emptyScene] at hg

/-- Three processes, the second of which has no values. -/
def exampleScenes (t : ℕ) : Scene 2 := if t = 1 then emptyScene else exampleScene

lemma finished_exists {α V : Type} {w : ℕ} [SemilatticeSup V] [OrderBot V] (I : Input α V w) (h : I.Valid) : ∃ s, I.Finished s := by
  by_cases hn : 2 ≤ I.n
  · obtain ⟨s, hs⟩ := Construction.exists_complete I.params (h.keys hn)
    exact ⟨s, fun _ => hs⟩
  · exact ⟨[], fun h2 => absurd h2 hn⟩

theorem exampleDScene : ∃ S : DScene 2, S.Valid ∧ S.P = 3 ∧ S.scene = exampleScenes := by
  have hsc : ∀ t, (exampleScenes t).Valid := by
    intro t; unfold exampleScenes; split_ifs
    · exact emptyScene_valid
    · exact exampleScene_valid
  let S0 : DScene 2 := ⟨3, exampleScenes, fun _ => [], 24, fun _ _ _ => 0, fun _ i => i, fun _ => []⟩
  have hb : ∀ t, ∃ s, (S0.bottom t).Finished s := by
    intro t
    have := (hsc t).input
    exact finished_exists (S0.bottom t) ⟨this.width, this.fits, ⟨this.sorted.perm, this.sorted.sorted⟩, this.top⟩
  choose bs hbs using hb
  let S1 : DScene 2 := ⟨3, exampleScenes, bs, 24, fun _ _ _ => 0, fun _ i => i, fun _ => []⟩
  have hs : ∀ r, (S1.tree.top r).Sorted := fun r => ⟨by
    show ((List.range 3).map (fun i => i)).Perm (List.range 3)
    rw [List.map_id'], fun i _ => le_rfl⟩
  have ht : ∀ r, ∃ s, (S1.tree.top r).Finished s := fun r => finished_exists _
    (Morton.morton64_valid 2 le_rfl (by norm_num) 24 le_rfl (S1.tree.top r) (S1.topPoint r) (fun _ _ => rfl) (show 3 ≤ 2 ^ 63 by norm_num) (hs r))
  choose ts hts using ht
  exact ⟨⟨3, exampleScenes, bs, 24, fun _ _ _ => 0, fun _ i => i, ts⟩,
    ⟨le_rfl, by norm_num, le_rfl, show 3 ≤ 2 ^ 63 by norm_num, fun t _ => ⟨hsc t, hbs t⟩, fun r _ => ⟨hs r, hts r⟩⟩, rfl, rfl⟩

/-- The hypotheses on the queries and the stacks hold for a ball and `exampleDScene`. -/
example (S : DScene 2) (hP : S.P = 3) (hS : S.scene = exampleScenes) : S.size = 6 ∧
    S.CanIntersect (.sphere ⟨![0, 0], 1⟩) ∧ S.HasDistance (.sphere ⟨![0, 0], 1⟩) ∧ Regular (.sphere ⟨![0, 0], 1⟩ : Geom ℝ 2) ∧
    (∀ t < S.P, Nearest.StackFits (S.scene t).input 64) ∧ ∀ r < S.P, Nearest.StackFits (S.tree.top r) 64 := by
  have hat : ∀ a, S.Has a → S.at a ∈ exampleScene.geo := by
    intro a ha
    unfold DScene.at
    rw [if_pos ha.1]
    have := (S.scene a.1).at_mem ha.2
    rw [hS] at this ⊢
    unfold exampleScenes at this ⊢
    split_ifs at this ⊢ with h1
    · simp [emptyScene] at this
    · exact this
  have hlen : ∀ t, (exampleScenes t).geo.length ≤ 3 := by
    intro t; unfold exampleScenes; split_ifs <;> decide
  refine ⟨?_, ⟨fun B => rfl, fun a ha => ?_⟩, ⟨fun B => rfl, fun a ha => ?_⟩, zero_le_one, ?_, fun r _ => top_stack_fits S (by omega) r⟩
  · unfold DScene.size
    rw [hP, hS]
    decide
  · have := hat a ha
    simp only [exampleScene, List.mem_cons, List.not_mem_nil, or_false] at this
    rcases this with h | h | h <;> rw [h] <;> rfl
  · have := hat a ha
    simp only [exampleScene, List.mem_cons, List.not_mem_nil, or_false] at this
    rcases this with h | h | h <;> rw [h] <;> rfl
  · intro t _
    rw [hS]
    refine Nearest.stack_suffices_small _ (by norm_num) ?_
    have : (exampleScenes t).input.n = (exampleScenes t).geo.length := rfl
    have := hlen t
    omega

/-- The roundings exist. -/
example : ∃ up down : ℝ → ℝ, (∀ x, x ≤ up x) ∧ (∀ x, down x ≤ x) := ⟨fun x => x + 1, fun x => x - 1, fun x => by linarith, fun x => by linarith⟩

end ArborX.Euclid
