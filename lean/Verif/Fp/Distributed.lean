import Verif.Fp.Theorems
import Verif.Fp.Next
import Verif.Distributed.Nearest

/-!
# Distributed queries in floating-point arithmetic (C69, C70)

`DistributedTree` of points and boxes on any number of processes with rounded distances. `F` is the arithmetic, in particular `Ieee.float` and
`Ieee.double` with and without fused multiply-adds.
-/

namespace ArborX.Fp

open Geometry BVH Euclid

variable {D : ℕ} {T : Type}

/-! ## Model -/

/-- What the constructor of a distributed tree works on (`src/distributed/ArborX_DistributedTree.hpp` 156-250): the scenes of `P` processes, the
schedules of the constructions, and for the copy of the top tree on each process the codes and the permutation that `sortObjects` computes. -/
structure DScene (D : ℕ) where
  P : ℕ
  scene : ℕ → Scene D
  bsched : ℕ → List ℕ
  topCode : ℕ → ℕ → BitVec 64
  topPerm : ℕ → ℕ → ℕ
  tsched : ℕ → List ℕ

/-- The value `a.2` of process `a.1`. -/
noncomputable def DScene.at (S : DScene D) (a : ℕ × ℕ) : Geom ℝ D := if a.1 < S.P then (S.scene a.1).at a.2 else .point 0

/-- The bottom tree of process `t`, as `Scene.input`; the values carry the rank. -/
noncomputable def DScene.bottom (S : DScene D) (t : ℕ) : Input (ℕ × ℕ) (Bound D) 64 where
  n := (S.scene t).geo.length
  values := fun i => (t, i)
  vol := fun a => leafBound (S.scene a.1).M (S.at a)
  code := (S.scene t).code
  perm := (S.scene t).perm

/-- The distributed tree. -/
noncomputable def DScene.tree (S : DScene D) : Distributed.DTree (ℕ × ℕ) (Bound D) 64 where
  P := S.P
  bottom := S.bottom
  bsched := S.bsched
  topCode := S.topCode
  topPerm := S.topPerm
  tsched := S.tsched

/-- The values of all processes are points and boxes with ordered corners, the constructions have finished and the sorting primitive did its job. -/
structure DScene.Valid (S : DScene D) : Prop where
  fits : S.P ≤ 2 ^ 63
  scene : ∀ t < S.P, (S.scene t).Valid ∧ (S.bottom t).Finished (S.bsched t)
  top : ∀ r < S.P, (S.tree.top r).Sorted ∧ (S.tree.top r).Finished (S.tsched r)
  codes : ∀ r < S.P, ∀ i < S.P, (S.topCode r i).toNat < 2 ^ 63

/-- The predicate `intersects(Q)` (`src/spatial/detail/ArborX_Predicates.hpp` 95-101). -/
noncomputable def DScene.pred (S : DScene D) (F : Format) (Q : Geom ℝ D) : Distributed.Pred (ℕ × ℕ) (Bound D) where
  pl := fun a => decide (F.intersects Q (S.at a) = some true)
  pv := nodeTest F Q

/-- `approx_expand_by_radius` for boxes (`src/distributed/detail/ArborX_DistributedTreeNearestHelpers.hpp` 99-121). `up x` is
`nextafter(x, finite_max)`; `nextafter(lo - r, finite_min)` is its mirror image. -/
noncomputable def Format.expandBox (F : Format) (up : EReal → ℝ) (B : Box ℝ D) (r : EReal) : Box ℝ D where
  lo d := -up (F.add (-B.lo d) r)
  hi d := up (F.add (B.hi d) r)

/-- The predicate of the second phase, `intersects(approx_expand_by_radius(Q, R))` (84-145, 170-180), for a volume. -/
noncomputable def Format.within (F : Format) (up : EReal → ℝ) (Q : Geom ℝ D) (R : EReal) : Bound D → Bool :=
  WithBot.recBotCoe false (fun C => match Q with
    | .point p => decide (F.distPointBox p C.1 ≤ R)
    | .sphere S => decide (F.distPointBox S.center C.1 ≤ up (F.add S.radius R))
    | .box B => intersectsBoxBox (F.expandBox up B R) C.1
    | _ => false)

/-- The predicate `nearest(Q, k)` (`ArborX_Predicates.hpp` 71-76) with that of the second phase. -/
noncomputable def DScene.npred (S : DScene D) (F : Format) (up : EReal → ℝ) (Q : Geom ℝ D) (k : ℕ) :
    Distributed.NPred (ℕ × ℕ) (Bound D) EReal where
  q :=
    { k := k
      dl := fun a => asDistance (F.distance Q (S.at a))
      dv := WithBot.recBotCoe ⊤ (fun B => asDistance (F.distance Q (.box B.1)))
      zero := 0
      inf := ⊤
      cap := 64 }
  within := F.within up Q

/-! ## Specification -/

/-- The value `a.2` of process `a.1` exists. -/
def DScene.Has (S : DScene D) (a : ℕ × ℕ) : Prop := a.1 < S.P ∧ a.2 < (S.scene a.1).geo.length

/-- The number of values of all processes. -/
def DScene.size (S : DScene D) : ℕ := ((List.range S.P).map (fun t => (S.scene t).geo.length)).sum

/-- `calls` are `min k n` different values of all processes, in the order of their computed distances to `Q`, and no value left out has a smaller
computed distance than one that is not. -/
structure DScene.NearestOf (S : DScene D) (F : Format) (Q : Geom ℝ D) (k : ℕ) (calls : List (ℕ × ℕ)) : Prop where
  nodup : calls.Nodup
  stored : ∀ a ∈ calls, S.Has a
  length : calls.length = min k S.size
  sorted : calls.Pairwise (fun a b => ∀ r s, F.distance Q (S.at a) = some r → F.distance Q (S.at b) = some s → r ≤ s)
  nearest : ∀ a ∈ calls, ∀ b, S.Has b → b ∉ calls → ∀ r s, F.distance Q (S.at a) = some r → F.distance Q (S.at b) = some s → r ≤ s

/-! ## Lemmas -/

lemma DScene.Valid.at {S : DScene D} (h : S.Valid) (a : ℕ × ℕ) : Simple (S.at a) := by
  unfold DScene.at
  split_ifs with ha
  · exact (h.scene _ ha).1.at a.2
  · trivial

lemma DScene.Valid.tree {S : DScene D} (h : S.Valid) : S.tree.Valid where
  bottom := by
    intro t ht
    refine ⟨?_, (h.scene t ht).2⟩
    have := (h.scene t ht).1.input
    exact ⟨this.width, this.fits, ⟨this.sorted.perm, this.sorted.sorted⟩, this.top⟩
  top := by
    intro r hr
    exact ⟨⟨by norm_num, h.fits, (h.top r hr).1, h.codes r hr⟩, (h.top r hr).2⟩

lemma DScene.mem_stored {S : DScene D} {t : ℕ} {a : ℕ × ℕ} : a ∈ (S.tree.bottom t).stored ↔ a.1 = t ∧ a.2 < (S.scene t).geo.length := by
  show a ∈ (List.range (S.scene t).geo.length).map (fun i => (t, i)) ↔ _
  rw [List.mem_map]
  constructor
  · rintro ⟨i, hi, rfl⟩; exact ⟨rfl, List.mem_range.mp hi⟩
  · rintro ⟨rfl, h⟩; exact ⟨a.2, List.mem_range.mpr h, rfl⟩

lemma DScene.nodup_stored (S : DScene D) (t : ℕ) : (S.tree.bottom t).stored.Nodup := by
  show ((List.range (S.scene t).geo.length).map (fun i => (t, i))).Nodup
  exact List.nodup_range.map (fun i j h => (Prod.mk.inj h).2)

lemma DScene.tree_size (S : DScene D) : S.tree.size = S.size := rfl

lemma DScene.mem_all {S : DScene D} {a : ℕ × ℕ} : a ∈ S.tree.all ↔ S.Has a := by
  rw [Distributed.mem_all]
  constructor
  · rintro ⟨t, ht, hm⟩
    obtain ⟨rfl, hlt⟩ := S.mem_stored.mp hm
    exact ⟨ht, hlt⟩
  · rintro ⟨h1, h2⟩
    exact ⟨a.1, h1, S.mem_stored.mpr ⟨rfl, h2⟩⟩

lemma DScene.nodup_all (S : DScene D) : S.tree.all.Nodup := by
  unfold Distributed.DTree.all
  rw [List.nodup_flatMap]
  refine ⟨fun t _ => S.nodup_stored t, List.nodup_range.imp (fun {t u} htu a ha hb => ?_)⟩
  exact htu ((S.mem_stored.mp ha).1.symm.trans (S.mem_stored.mp hb).1)

lemma nodeTest_mono (F : Format) {Q : Geom ℝ D} (hQ : SimpleQuery Q) {u v : Bound D} (h : u ≤ v) (hu : nodeTest F Q u = true) :
    nodeTest F Q v = true := by
  induction u using WithBot.recBotCoe with
  | bot => exact absurd hu (by simp [nodeTest])
  | coe B =>
    induction v using WithBot.recBotCoe with
    | bot => exact absurd h (by simp)
    | coe C =>
      exact decide_eq_true (intersects_mono F hQ (g := .box B.1) B.2 ((VBox.le_iff B C).mp (WithBot.coe_le_coe.mp h)) (of_decide_eq_true hu))

lemma DScene.pred_fits {S : DScene D} (h : S.Valid) (F : Format) {Q : Geom ℝ D} (hQ : SimpleQuery Q) (t : ℕ) :
    (S.pred F Q).Fits (S.tree.bottom t).vol where
  volumes := fun u v huv hu => nodeTest_mono F hQ huv hu
  values := by
    intro a v hv ha
    obtain ⟨C, rfl, hC⟩ := leafBound_le (h.at a).valid hv
    exact decide_eq_true (intersects_mono F hQ (h.at a) hC (of_decide_eq_true ha))

/-! ## Spatial queries -/

/-- **C69.** Spatial queries `intersects(Q)`, `Q` a point, a box or a ball, on a distributed tree of points and boxes, in floating-point arithmetic. On
every process the result is the compressed row storage of one row for each of its queries, in their order. The row of a query consists of what the
callback outputs for the values of all processes that the test of the library accepts when it is applied to the value itself, each once: neither the
rounded tests on the boxes of the processes nor those on the boxes of the trees hide one. `E`, `Lt`, `Lb` range over all executions. -/
theorem distributed_spatial_float (S : DScene D) (h : S.Valid) (F : Format) (E : Distributed.QEnv) (hE : E.Valid) (Lt Lb : ℕ → Distributed.LEnv)
    (hLt : ∀ r < S.P, (Lt r).Valid) (hLb : ∀ r < S.P, (Lb r).Valid) (fuel : ℕ) (hft : 2 * S.P ≤ fuel)
    (hfb : ∀ r < S.P, 2 * (S.scene r).geo.length ≤ fuel) (cb : Distributed.Pred (ℕ × ℕ) (Bound D) → ℕ × ℕ → List T) (user : ℕ → List T)
    (queries : ℕ → List (Geom ℝ D)) (hq : ∀ s < S.P, ∀ Q ∈ queries s, SimpleQuery Q) :
    ∃ res, S.tree.spatial E Lt Lb fuel cb user (fun s => (queries s).map (S.pred F)) = some res ∧ ∀ s < S.P, ∃ rows : ℕ → List T,
      Crs.IsCrs (queries s).length rows (res s).1 ((res s).2.map some) ∧
      ∀ i (hi : i < (queries s).length), ∃ hits : List (ℕ × ℕ), hits.Nodup ∧
        (∀ a, a ∈ hits ↔ S.Has a ∧ F.intersects (queries s)[i] (S.at a) = some true) ∧
        (rows i).Perm (hits.flatMap (cb (S.pred F (queries s)[i]))) := by
  obtain ⟨res, h1, h2⟩ := Distributed.distributed_spatial S.tree h.tree E hE Lt Lb hLt hLb fuel hft hfb cb user (fun s => (queries s).map (S.pred F)) (by
    intro s hs q hqm t _
    obtain ⟨Q, hQm, rfl⟩ := List.mem_map.mp hqm
    exact S.pred_fits h F (hq s hs Q hQm) t)
  refine ⟨res, h1, fun s hs => ?_⟩
  obtain ⟨rows, h3, h4⟩ := h2 s hs
  rw [List.length_map] at h3
  refine ⟨rows, h3, fun i hi => ?_⟩
  have h5 := h4 i (by rw [List.length_map]; exact hi)
  rw [List.getElem_map] at h5
  refine ⟨(List.range S.P).flatMap (fun t => (S.tree.bottom t).stored.filter (S.pred F (queries s)[i]).pl), ?_, ?_, ?_⟩
  · rw [List.nodup_flatMap]
    refine ⟨fun t _ => (S.nodup_stored t).filter _, ?_⟩
    refine List.nodup_range.imp (fun {t u} htu => ?_)
    intro a ha hb
    have e1 := (S.mem_stored.mp (List.mem_filter.mp ha).1).1
    have e2 := (S.mem_stored.mp (List.mem_filter.mp hb).1).1
    exact htu (e1.symm.trans e2)
  · intro a
    rw [List.mem_flatMap]
    have key : (S.pred F (queries s)[i]).pl a = true ↔ F.intersects (queries s)[i] (S.at a) = some true := decide_eq_true_iff
    constructor
    · rintro ⟨t, ht, ha⟩
      obtain ⟨ha1, ha2⟩ := List.mem_filter.mp ha
      obtain ⟨rfl, hlt⟩ := S.mem_stored.mp ha1
      exact ⟨⟨List.mem_range.mp ht, hlt⟩, key.mp ha2⟩
    · rintro ⟨hh, hne⟩
      exact ⟨a.1, List.mem_range.mpr hh.1, List.mem_filter.mpr ⟨S.mem_stored.mpr ⟨rfl, hh.2⟩, key.mpr hne⟩⟩
  · rw [List.flatMap_assoc]
    exact h5

/-! ## Nearest queries -/

lemma within_mono (F : Format) (up : EReal → ℝ) (Q : Geom ℝ D) (R : EReal) {u v : Bound D} (huv : u ≤ v) (hu : F.within up Q R u = true) :
    F.within up Q R v = true := by
  induction u using WithBot.recBotCoe with
  | bot => exact absurd hu (by simp [Format.within])
  | coe B =>
    induction v using WithBot.recBotCoe with
    | bot => exact absurd huv (by simp)
    | coe C =>
      have hBC := WithBot.coe_le_coe.mp huv
      have hset := (VBox.le_iff B C).mp hBC
      cases Q with
      | point p => exact decide_eq_true ((F.distPointBox_mono p B.2 hset).trans (of_decide_eq_true hu))
      | sphere A => exact decide_eq_true ((F.distPointBox_mono A.center B.2 hset).trans (of_decide_eq_true hu))
      | box A =>
        change intersectsBoxBox (F.expandBox up A R) B.1 = true at hu
        show intersectsBoxBox (F.expandBox up A R) C.1 = true
        simp only [intersectsBoxBox, List.all_eq_true, Bool.not_eq_true', Bool.or_eq_false_iff,
          decide_eq_false_iff_not, not_lt, gt_iff_lt] at hu ⊢
        intro d hd'
        obtain ⟨h1, h2⟩ := hu d hd'
        obtain ⟨h3, h4⟩ := hBC d
        exact ⟨h1.trans h4, h3.trans h2⟩
      | _ => exact absurd hu (by simp [Format.within])

lemma npred_fits {S : DScene D} (h : S.Valid) (F : Format) (up : EReal → ℝ) {Q : Geom ℝ D} (hQ : SimpleQuery Q) (k : ℕ)
    (hb : ∀ t < S.P, Nearest.StackFits (S.scene t).input 64) (ht : ∀ r < S.P, Nearest.StackFits (S.tree.top r) 64) :
    (S.npred F up Q k).Fits S.tree where
  admissible := by
    intro t _ a v hv
    obtain ⟨C, rfl, hC⟩ := leafBound_le (h.at a).valid hv
    obtain ⟨s, e1, -, h2⟩ := distance_mono F hQ (h.at a)
    obtain ⟨r, e2, hr⟩ := h2 C.1 hC
    show asDistance (F.distance Q (.box C.1)) ≤ asDistance (F.distance Q (S.at a))
    rw [e1, e2]
    exact hr
  volumes := by
    intro u v huv
    induction u using WithBot.recBotCoe with
    | bot => exact le_top
    | coe B =>
      induction v using WithBot.recBotCoe with
      | bot => exact absurd huv (by simp)
      | coe C =>
        obtain ⟨s, e1, -, h2⟩ := distance_mono F hQ (g := .box B.1) B.2
        obtain ⟨r, e2, hr⟩ := h2 C.1 ((VBox.le_iff B C).mp (WithBot.coe_le_coe.mp huv))
        show asDistance (F.distance Q (.box C.1)) ≤ asDistance (F.distance Q (.box B.1))
        rw [e1, e2]
        exact hr
  empty := le_rfl
  value_nonneg := by
    intro a
    obtain ⟨s, e, h0, -⟩ := distance_mono F hQ (h.at a)
    show (0 : EReal) ≤ asDistance (F.distance Q (S.at a))
    rw [e]; exact h0
  volume_nonneg := by
    intro v
    induction v using WithBot.recBotCoe with
    | bot => exact le_top
    | coe C =>
      obtain ⟨s, e, h0, -⟩ := distance_mono F hQ (g := .box C.1) C.2
      show (0 : EReal) ≤ asDistance (F.distance Q (.box C.1))
      rw [e]; exact h0
  value_le := fun _ _ _ _ => le_top
  bottom_height := hb
  top_height := ht
  within_mono := fun R u v huv hu => within_mono F up Q R huv hu

lemma distPointBox_num (F : Format) (p : Pt ℝ D) (B : Box ℝ D) {x : ℝ} (h : F.distPointBox p B = x) : F.Num x := by
  unfold Format.distPointBox Format.distPoint Format.norm Format.sqrt at h
  split_ifs at h
  · exact absurd h.symm (EReal.coe_ne_top x)
  · exact F.idem _ _ h

/-- The expanded ball reaches the boxes within the radius, although the distance, its sum with the radius of the ball and the comparison are rounded. -/
lemma sphere_reaches {F : Format} {M : ℝ} {up : EReal → ℝ} (hn : F.IsNext M up) (hsp : F.Spaced) {A : Sphere ℝ D} (hA : 0 ≤ A.radius) (B : Box ℝ D)
    {R : EReal} (hfin : F.distSphereBox A B < ⊤) (hR : F.distSphereBox A B ≤ R) : F.distPointBox A.center B ≤ up (F.add A.radius R) := by
  have hd0 : 0 ≤ F.distPointBox A.center B := F.distPoint_nonneg _ _
  unfold Format.distSphereBox at hfin hR
  -- the distance of the centre is a number of the type
  induction hd : F.distPointBox A.center B using EReal.rec with
  | bot => rw [hd] at hd0; simp at hd0
  | top => rw [hd] at hfin; simp [Format.sub] at hfin
  | coe d =>
    rw [hd] at hfin hR hd0
    have hd0 : 0 ≤ d := EReal.coe_nonneg.mp hd0
    have hdn := distPointBox_num F _ _ hd
    have hsub : F.sub (d : EReal) A.radius = F.rnd (d - A.radius) := by
      unfold Format.sub
      rw [if_neg (EReal.coe_ne_top d), EReal.toReal_coe]
    rw [hsub] at hfin hR
    -- so is that of the ball
    obtain ⟨r, hr1, hr2, hr3⟩ : ∃ r : ℝ, max (F.rnd (d - A.radius)) 0 = (r : EReal) ∧ 0 ≤ r ∧ F.Num r := by
      rcases le_total (F.rnd (d - A.radius)) 0 with hle | hle
      · exact ⟨0, by rw [max_eq_right hle]; rfl, le_rfl, Ieee.num_zero F⟩
      · rw [max_eq_left hle] at hfin ⊢
        induction hx : F.rnd (d - A.radius) using EReal.rec with
        | bot => rw [hx] at hle; simp at hle
        | top => rw [hx] at hfin; simp at hfin
        | coe y => rw [hx] at hle; exact ⟨y, rfl, EReal.coe_nonneg.mp hle, F.idem _ _ hx⟩
    rw [hr1] at hR
    have hle : F.rnd (d - A.radius) ≤ (r : EReal) := hr1 ▸ le_max_left _ _
    have hs0 : 0 ≤ A.radius + r := add_nonneg hA hr2
    have hdy : d ≤ up (F.rnd (A.radius + r)) := by
      obtain ⟨hy1, hy2⟩ := hn.le_up hs0
      rcases hy2 with hy2 | hy2
      · by_contra hc
        have h1 := hsp r _ d hr3 hy1 hdn hr2 (by linarith) (not_le.mp hc)
        have h2 := F.mono (show r + (d - up (F.rnd (A.radius + r))) ≤ d - A.radius by linarith)
        exact absurd (h1.trans_le (h2.trans hle)) (lt_irrefl _)
      · rw [hy2]; exact hn.largest d hdn
    refine EReal.coe_le_coe_iff.mpr (hdy.trans ?_)
    unfold Format.add
    induction R using EReal.rec with
    | bot => simp at hR
    | top => rw [if_pos rfl, hn.top]; exact hn.largest _ (hn.le_up hs0).1
    | coe x =>
      rw [if_neg (EReal.coe_ne_top x), EReal.toReal_coe]
      exact hn.mono hs0 (by linarith [EReal.coe_le_coe_iff.mp hR])

/-- Points, and balls of a radius that is not negative. -/
def Expandable : Geom ℝ D → Prop
  | .point _ => True
  | .sphere A => 0 ≤ A.radius
  | _ => False

lemma Expandable.simple {Q : Geom ℝ D} (h : Expandable Q) : SimpleQuery Q := by
  cases Q <;> first | exact trivial | exact h.elim

lemma npred_reaches {S : DScene D} (h : S.Valid) {F : Format} {M : ℝ} {up : EReal → ℝ} (hn : F.IsNext M up) (hsp : F.Spaced) {Q : Geom ℝ D}
    (hQ : Expandable Q) (k : ℕ) (hfin : ∀ a, S.Has a → ∀ r, F.distance Q (S.at a) = some r → r < ⊤) : (S.npred F up Q k).Reaches S.tree := by
  have fin : ∀ a ∈ S.tree.all, asDistance (F.distance Q (S.at a)) < ⊤ := by
    intro a ha
    obtain ⟨s, e, -, -⟩ := distance_mono F hQ.simple (h.at a)
    rw [e]
    exact hfin a (S.mem_all.mp ha) s e
  refine ⟨fin, ?_⟩
  intro t ht a ha R v hv hR
  obtain ⟨C, rfl, hC⟩ := leafBound_le (h.at a).valid hv
  have hlt := fin a (Distributed.mem_all.mpr ⟨t, ht, ha⟩)
  obtain ⟨s, e1, -, h2⟩ := distance_mono F hQ.simple (h.at a)
  obtain ⟨r, e2, hr⟩ := h2 C.1 hC
  change asDistance (F.distance Q (S.at a)) ≤ R at hR
  rw [e1] at hR hlt
  have hrR : r ≤ R := hr.trans hR
  have hr' : r < ⊤ := lt_of_le_of_lt hr hlt
  show F.within up Q R (C : Bound D) = true
  cases Q with
  | point p =>
    refine decide_eq_true ?_
    rw [Option.some_inj.mp e2]
    exact hrR
  | sphere A =>
    have e : F.distSphereBox A C.1 = r := Option.some_inj.mp e2
    rw [← e] at hrR hr'
    exact decide_eq_true (sphere_reaches hn hsp hQ C.1 hr' hrR)
  | _ => exact hQ.elim

/-- Distributed nearest queries whose second phase reaches what it must. -/
lemma distributed_nearest_reaches (S : DScene D) (h : S.Valid) (F : Format) (up : EReal → ℝ)
    (withCallback asserts : Bool) (hab : S.size ≠ 0 ∨ withCallback = true ∨ asserts = false)
    (hb : ∀ t < S.P, Nearest.StackFits (S.scene t).input 64) (ht : ∀ r < S.P, Nearest.StackFits (S.tree.top r) 64)
    (E : Distributed.NEnv EReal) (hE : E.Valid S.P) (fuel : ℕ) (hft : 2 * S.P ≤ fuel)
    (hfb : ∀ r < S.P, 2 * (S.scene r).geo.length ≤ fuel) (cb : Distributed.NPred (ℕ × ℕ) (Bound D) EReal → ℕ × ℕ → T)
    (queries : ℕ → List (Geom ℝ D × ℕ))
    (hq : ∀ s < S.P, ∀ q ∈ queries s, SimpleQuery q.1 ∧ (S.npred F up q.1 q.2).Reaches S.tree) :
    ∃ res, S.tree.nearest withCallback asserts E fuel cb (fun s => (queries s).map (fun q => S.npred F up q.1 q.2)) = some res ∧
      ∀ s < S.P, ∃ calls : ℕ → List (ℕ × ℕ),
        (∃ rows : ℕ → List T, Crs.IsCrs (queries s).length rows (res s).1 ((res s).2.map some) ∧
          ∀ i (hi : i < (queries s).length), rows i = (calls i).map (cb (S.npred F up (queries s)[i].1 (queries s)[i].2))) ∧
        ∀ i (hi : i < (queries s).length), S.NearestOf F (queries s)[i].1 (queries s)[i].2 (calls i) := by
  obtain ⟨res, h1, h2⟩ := Distributed.distributed_nearest_partial S.tree h.tree withCallback asserts hab E hE fuel hft hfb cb
    (fun s => (queries s).map (fun q => S.npred F up q.1 q.2)) (by
      intro s hs q hqm
      obtain ⟨x, hx, rfl⟩ := List.mem_map.mp hqm
      obtain ⟨hQ, hr⟩ := hq s hs x hx
      exact ⟨npred_fits h F up hQ x.2 hb ht, hr⟩)
  refine ⟨res, h1, fun s hs => ?_⟩
  obtain ⟨calls, ⟨rows, h3, h4⟩, h5⟩ := h2 s hs
  rw [List.length_map] at h3
  refine ⟨calls, ⟨rows, h3, fun i hi => ?_⟩, fun i hi => ?_⟩
  · have := h4 i (by rw [List.length_map]; exact hi)
    rwa [List.getElem_map] at this
  · have := h5 i (by rw [List.length_map]; exact hi)
    rw [List.getElem_map] at this
    obtain ⟨⟨om, p1, p2, -, -, p5, -⟩, hlen⟩ := this
    have hnd : (calls i ++ om).Nodup := p1.nodup_iff.mpr S.nodup_all
    have hmem : ∀ a ∈ calls i ++ om, S.Has a := fun a ha => S.mem_all.mp (p1.mem_iff.mp ha)
    have hle : ∀ a b, (S.npred F up (queries s)[i].1 (queries s)[i].2).q.dl a ≤ (S.npred F up (queries s)[i].1 (queries s)[i].2).q.dl b →
        ∀ r s', F.distance (queries s)[i].1 (S.at a) = some r → F.distance (queries s)[i].1 (S.at b) = some s' → r ≤ s' := by
      intro a b hab r s' hr hs'
      change asDistance (F.distance (queries s)[i].1 (S.at a)) ≤ asDistance (F.distance (queries s)[i].1 (S.at b)) at hab
      rw [hr, hs'] at hab
      exact hab
    refine ⟨(List.nodup_append.mp hnd).1, fun a ha => hmem a (List.mem_append_left _ ha), hlen, p2.imp (fun {a b} hab => hle a b hab), ?_⟩
    intro a ha b hb hbn
    have hbo : b ∈ om := (List.mem_append.mp (p1.mem_iff.mpr (S.mem_all.mpr hb))).resolve_left hbn
    exact hle a b (p5 a ha b hbo)

/-- **C70 (partial).** Queries `nearest(Q, k)`, `Q` a point or a ball, on a distributed tree of points and boxes, in floating-point arithmetic, at
distances that do not overflow. On every process the result is the compressed row storage of one row for each of its queries, in their order: what the
callback outputs for `min k n` values of all processes, in the order of their computed distances, such that no value left out on any process has a smaller
computed distance. `E` ranges over all executions.
Partial: the full statement includes boxes as query geometry, for which it is false, see `box_query_lost`; moreover, as for C29, the overload without
callback aborts on a tree without values in builds with assertions (`hab`), and the stacks are assumed to be large enough for the trees. -/
theorem distributed_nearest_float_partial (S : DScene D) (h : S.Valid) (F : Format) (M : ℝ) (up : EReal → ℝ) (hn : F.IsNext M up) (hsp : F.Spaced)
    (withCallback asserts : Bool) (hab : S.size ≠ 0 ∨ withCallback = true ∨ asserts = false)
    (hb : ∀ t < S.P, Nearest.StackFits (S.scene t).input 64) (ht : ∀ r < S.P, Nearest.StackFits (S.tree.top r) 64)
    (E : Distributed.NEnv EReal) (hE : E.Valid S.P) (fuel : ℕ) (hft : 2 * S.P ≤ fuel)
    (hfb : ∀ r < S.P, 2 * (S.scene r).geo.length ≤ fuel) (cb : Distributed.NPred (ℕ × ℕ) (Bound D) EReal → ℕ × ℕ → T)
    (queries : ℕ → List (Geom ℝ D × ℕ))
    (hq : ∀ s < S.P, ∀ q ∈ queries s, Expandable q.1 ∧ ∀ a, S.Has a → ∀ r, F.distance q.1 (S.at a) = some r → r < ⊤) :
    ∃ res, S.tree.nearest withCallback asserts E fuel cb (fun s => (queries s).map (fun q => S.npred F up q.1 q.2)) = some res ∧
      ∀ s < S.P, ∃ calls : ℕ → List (ℕ × ℕ),
        (∃ rows : ℕ → List T, Crs.IsCrs (queries s).length rows (res s).1 ((res s).2.map some) ∧
          ∀ i (hi : i < (queries s).length), rows i = (calls i).map (cb (S.npred F up (queries s)[i].1 (queries s)[i].2))) ∧
        ∀ i (hi : i < (queries s).length), S.NearestOf F (queries s)[i].1 (queries s)[i].2 (calls i) :=
  distributed_nearest_reaches S h F up withCallback asserts hab hb ht E hE fuel hft hfb cb queries
    fun s hs q hqm => ⟨(hq s hs q hqm).1.simple, npred_reaches h hn hsp (hq s hs q hqm).1 q.2 (hq s hs q hqm).2⟩

end ArborX.Fp
