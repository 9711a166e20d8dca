import Verif.Fp.CloudAccuracy
import Verif.Fp.Distributed
import Verif.DistDbscan.Defect
import Verif.DistDbscan.Lost

/-!
# The distributed DBSCAN on points in floating-point arithmetic (C73)

`Verif/DistDbscan/` takes the geometry and the local clustering as given. Here both are those of the library: the distances are computed with
rounding, and the local clustering is FDBSCAN on the own points and the ghosts.
-/

namespace ArborX.Fp

open Geometry BVH Euclid Dbscan DistDbscan

variable {D : ℕ}

/-! ## Model -/

/-- The tests of `dbscan(comm, ...)` (`src/cluster/ArborX_DistributedDBSCAN.hpp` 74-77, `src/cluster/detail/ArborX_DistributedDBSCANHelpers.hpp` 195-300)
for points of a floating-point type: points within `eps`, points within the forwarding radius of a box, boxes within the forwarding radius. -/
noncomputable def placed (F : Format) (P : ℕ) (points : ℕ → List (Pt ℝ D)) (eps radius : ℝ) (minPts : ℕ) : DistDbscan.In (Pt ℝ D) (Bound D) where
  P := P
  points := points
  near p q := ballTest F eps p q
  hit p v := nodeTest F (.sphere ⟨p, radius⟩) v
  close u v := WithBot.recBotCoe false (fun B => WithBot.recBotCoe false (fun C => decide (F.distBox B.1 C.1 ≤ radius)) v) u
  boxOf p := (ptBox p : Bound D)
  minPts := minPts

/-- What one call of the local `dbscan` depends on besides its arguments: the tree construction, the division of the loop into chunks, the schedules. -/
structure Call where
  M : ℝ
  code : ℕ → BitVec 64
  perm : ℕ → ℕ
  chunks : List (List ℕ)
  serial : Bool
  schedB : List ℕ
  schedU : List ℕ
  schedF : List ℕ
  fuel : ℕ

/-- The points as input of the local clustering. -/
def Call.cloud (c : Call) (pts : List (Pt ℝ D)) : Cloud D := ⟨pts, c.M, c.code, c.perm⟩

/-- The local clustering (`ArborX_DistributedDBSCAN.hpp` 82-86) with FDBSCAN (`src/cluster/ArborX_DBSCAN.hpp` 219-327, 489-522). -/
noncomputable def Call.dbscan (c : Call) (F : Format) (eps : ℝ) (minPts : ℕ) (star : Bool) (pts : List (Pt ℝ D)) : Option (List ℤ) :=
  match ((c.cloud pts).dbscan F eps minPts star c.chunks c.serial).fdbscan c.fuel c.schedB c.schedU c.schedF with
  | .labels l => some l
  | _ => none

/-! ## Specification -/

/-- The call runs to the end: sorted codes, every point in one chunk, the construction and the kernels finish. -/
structure Call.Valid (c : Call) (F : Format) (eps : ℝ) (minPts : ℕ) (star : Bool) (pts : List (Pt ℝ D)) : Prop where
  cloud : (c.cloud pts).Valid
  chunks : c.chunks.flatten.Perm (List.range pts.length)
  serial : c.serial = true → c.chunks.length ≤ 1
  built : (c.cloud pts).scene.input.Finished c.schedB
  fuel : 2 * pts.length ≤ c.fuel
  done : ((c.cloud pts).dbscan F eps minPts star c.chunks c.serial).fdbscan c.fuel c.schedB c.schedU c.schedF ≠ .running

/-- The local clusterings of an execution are runs of FDBSCAN. -/
def Calls (F : Format) (eps : ℝ) (minPts : ℕ) (star : Bool) {w : ℕ} (A : DistDbscan.In (Pt ℝ D) (Bound D)) (E : XEnv (Pt ℝ D) w) : Prop :=
  ∀ r < A.P, ∀ pts : List (Pt ℝ D), pts.length ≤ A.all.length → ∃ c : Call, c.Valid F eps minPts star pts ∧ E.dbscan r pts = c.dbscan F eps minPts star pts

/-- The forwarding radius reaches two steps: this is what `2 eps` is for, and the triangle inequality would give it without rounding. -/
def Reaches (F : Format) (eps radius : ℝ) (pts : List (Pt ℝ D)) : Prop :=
  ∀ p ∈ pts, ∀ q ∈ pts, ∀ x ∈ pts, F.distPoint p q ≤ eps → F.distPoint q x ≤ eps → F.distPoint p x ≤ radius

/-- Points `i` and `j` have a computed distance of at most `eps`. -/
noncomputable def withinOf (F : Format) (eps : ℝ) (pts : List (Pt ℝ D)) (i j : ℕ) : Bool := decide (F.distPoint (pts.getD i 0) (pts.getD j 0) ≤ eps)

/-- Numbers without rounding. -/
noncomputable def exact : Format where
  rnd x := x
  mono _ _ h := EReal.coe_le_coe_iff.mpr h
  neg x := EReal.coe_neg x
  idem _ _ _ := rfl
  fma := false

/-! ## Lemmas -/

lemma canonical_congr_near {n minPts : ℕ} {near near' : ℕ → ℕ → Bool} (h : ∀ i < n, ∀ j < n, near i j = near' i j) {lab : ℕ → ℤ}
    (H : Canonical n near minPts lab) : Canonical n near' minPts lab := by
  intro i hi hc
  obtain ⟨r, h1, h2, h3, h4, h5⟩ := H i hi ((core_congr h hi).mpr hc)
  refine ⟨r, h1, h2, (core_congr h h2).mp h3, ?_, fun j hj hcj hch => h5 j hj ((core_congr h hj).mpr hcj) ?_⟩
  · unfold Chained at *; rw [← linked_congr h]; exact h4
  · unfold Chained at *; rw [linked_congr h]; exact hch

lemma canonical_congr {n minPts : ℕ} {near : ℕ → ℕ → Bool} {f g : ℕ → ℤ} (h : ∀ i < n, g i = f i) (H : Canonical n near minPts f) :
    Canonical n near minPts g := by
  intro i hi hc
  rw [h i hi]
  exact H i hi hc

lemma clustering_congr_near {star : Bool} {n minPts : ℕ} {near near' : ℕ → ℕ → Bool} (h : ∀ i < n, ∀ j < n, near i j = near' i j) {lab : ℕ → ℤ}
    (H : IsClustering star n near minPts lab) : IsClustering star n near' minPts lab := by
  unfold IsClustering at *
  split_ifs at * with hs
  · exact IsDBSCANStar.congr_near h H
  · exact IsDBSCAN.congr_near h H

lemma anchor_congr {n minPts : ℕ} {near near' : ℕ → ℕ → Bool} (h : ∀ i < n, ∀ j < n, near i j = near' i j) {g b : ℕ} (hg : g < n) :
    Views.Anchor n near minPts g b ↔ Views.Anchor n near' minPts g b := by
  unfold Views.Anchor
  refine and_congr_right fun hb => ?_
  rw [core_congr h hb, core_congr h hg, h g hg b hb]

lemma Format.step_eq (F : Format) (hf : F.fma = false) {s x t u v : ℝ} (h1 : F.rnd x = t) (h2 : F.rnd (t * t) = u) (h3 : F.rnd (s + u) = v) :
    F.step (s : EReal) (some x) = v := by
  show F.madd s (F.rnd x) = v
  unfold Format.madd
  rw [h1, if_neg (by simp), hf, if_neg (by simp), EReal.toReal_coe, EReal.toReal_coe, h2, if_neg (by simp), EReal.toReal_coe, h3]

lemma exact_distPoint (p q : Pt ℝ D) : exact.distPoint p q = (Geometry.edist p q : ℝ) := by
  have hfold : ∀ (l : List (Fin D)) (s : ℝ), l.foldl (fun s d => exact.step s (some (q d - p d))) (s : EReal) =
      ((s + (l.map (fun d => (p d - q d) ^ 2)).sum : ℝ) : EReal) := by
    intro l
    induction l with
    | nil => intro s; simp
    | cons d l ih =>
      intro s
      rw [List.foldl_cons]
      have hstep : exact.step (s : EReal) (some (q d - p d)) = ((s + (p d - q d) ^ 2 : ℝ) : EReal) := by
        have h : exact.step (s : EReal) (some (q d - p d)) = ((s + (q d - p d) * (q d - p d) : ℝ) : EReal) :=
          exact.step_eq rfl (t := q d - p d) rfl (u := (q d - p d) * (q d - p d)) rfl rfl
        rw [h]
        congr 1
        ring
      rw [hstep, ih, List.map_cons, List.sum_cons]
      congr 1
      ring
  unfold Format.distPoint Format.norm
  rw [← EReal.coe_zero, hfold]
  unfold Format.sqrt
  rw [if_neg (by simp), EReal.toReal_coe, zero_add, ← Fin.sum_univ_def]
  rfl

lemma withinOf_eq (F : Format) (eps : ℝ) (pts : List (Pt ℝ D)) {i j : ℕ} (hi : i < pts.length) (hj : j < pts.length) :
    nearOf (ballTest F eps) pts i j = withinOf F eps pts i j := by
  unfold withinOf
  rw [nearOf_some (List.getElem?_eq_getElem hi) (List.getElem?_eq_getElem hj), ballTest_eq]
  simp [List.getD_eq_getElem?_getD, hi, hj]

variable {F : Format} {P : ℕ} {points : ℕ → List (Pt ℝ D)} {eps radius : ℝ} {minPts : ℕ} {star : Bool}

lemma placed_base (h0 : 0 ≤ eps) (h1 : eps ≤ radius) : (placed F P points eps radius minPts).Base where
  symm p q := by
    show ballTest F eps p q = ballTest F eps q p
    rw [ballTest_eq, ballTest_eq, F.distPoint_comm]
  refl p := by
    show ballTest F eps p p = true
    rw [ballTest_eq, F.distPoint_self]
    exact decide_eq_true (EReal.coe_nonneg.mpr h0)
  hit_mono p u v huv h := nodeTest_mono F (Q := .sphere ⟨p, radius⟩) trivial huv h
  close p u v hp h := by
    induction u using WithBot.recBotCoe with
    | bot => exact absurd h (by simp [placed, nodeTest])
    | coe B =>
      induction v using WithBot.recBotCoe with
      | bot => exact absurd hp (by simp [placed])
      | coe C =>
        have hm : p ∈ C.1.set := mem_of_ptBox_le hp
        have h : decide (F.intersects (.sphere ⟨p, radius⟩) (.box B.1) = some true) = true := h
        simp only [Format.intersects, Option.some_inj, decide_eq_true_eq] at h
        exact decide_eq_true ((F.distBox_le B.2 hm).trans h)
  one p q v hpq hq := by
    have hpq : ballTest F eps p q = true := hpq
    rw [ballTest_eq, decide_eq_true_eq] at hpq
    induction v using WithBot.recBotCoe with
    | bot => exact absurd hq (by simp [placed])
    | coe C =>
      have hm : q ∈ C.1.set := mem_of_ptBox_le hq
      show decide (F.intersects (.sphere ⟨p, radius⟩) (.box C.1) = some true) = true
      simp only [Format.intersects, Option.some_inj, decide_eq_true_eq]
      exact (F.distPointBox_le p C.1 hm).trans (hpq.trans (EReal.coe_le_coe_iff.mpr h1))

lemma placed_geometry (h0 : 0 ≤ eps) (h1 : eps ≤ radius) (h2 : minPts ≠ 2 → Reaches F eps radius (placed F P points eps radius minPts).all) :
    (placed F P points eps radius minPts).Geometry where
  toBase := placed_base h0 h1
  two hne p hp q hq x hx v hpq hqx hv := by
    have hpq : ballTest F eps p q = true := hpq
    have hqx : ballTest F eps q x = true := hqx
    rw [ballTest_eq, decide_eq_true_eq] at hpq hqx
    have hr := h2 hne p hp q hq x hx hpq hqx
    induction v using WithBot.recBotCoe with
    | bot => exact absurd hv (by simp [placed])
    | coe C =>
      have hm : x ∈ C.1.set := mem_of_ptBox_le hv
      show decide (F.intersects (.sphere ⟨p, radius⟩) (.box C.1) = some true) = true
      simp only [Format.intersects, Option.some_inj, decide_eq_true_eq]
      exact (F.distPointBox_le p C.1 hm).trans hr

lemma Call.dbscan_spec {c : Call} {pts : List (Pt ℝ D)} (heps : 0 < eps) (hmin : 2 ≤ minPts) (hc : c.Valid F eps minPts star pts) :
    ∃ l, c.dbscan F eps minPts star pts = some l ∧ l.length = pts.length ∧
      IsClustering star pts.length (nearOf (ballTest F eps) pts) minPts (labelAt l) ∧ Canonical pts.length (nearOf (ballTest F eps) pts) minPts (labelAt l) := by
  rcases dbscan_float (c.cloud pts) hc.cloud F eps heps minPts hmin c.chunks hc.chunks c.serial hc.serial star c.schedB hc.built c.fuel hc.fuel
    c.schedU c.schedF with h | ⟨l, h1, h2, h3, h4, h5⟩
  · exact absurd h hc.done
  · have hn : ∀ i < pts.length, ∀ j < pts.length, (c.cloud pts).within F eps i j = nearOf (ballTest F eps) pts i j := by
      intro i hi j hj
      rw [withinOf_eq F eps pts hi hj]
      rfl
    have hl : ∀ i < pts.length, labelAt l i = labelOf l i := by
      intro i hi
      unfold labelAt labelOf
      have : i < l.length := by rw [h2]; exact hi
      simp [List.getD_eq_getElem?_getD, this]
    refine ⟨l, ?_, h2, ?_, canonical_congr hl (canonical_congr_near hn h5)⟩
    · unfold Call.dbscan
      rw [h1]
    · unfold IsClustering
      cases star with
      | true => exact IsDBSCANStar.congr hl (IsDBSCANStar.congr_near hn (h4 rfl))
      | false => exact IsDBSCAN.congr hl (IsDBSCAN.congr_near hn (h3 rfl))

lemma Calls.local {w : ℕ} {E : XEnv (Pt ℝ D) w} (heps : 0 < eps) (hmin : 2 ≤ minPts)
    (h : Calls F eps minPts star (placed F P points eps radius minPts) E) : E.Local (placed F P points eps radius minPts) star := by
  intro r hr pts hl
  obtain ⟨c, hc, e⟩ := h r hr pts hl
  rw [e]
  exact Call.dbscan_spec heps hmin hc

/-! ## Property theorems -/

/-- **C73 (partial).** Distributed DBSCAN on points in floating-point arithmetic, with FDBSCAN on every process: if the forwarding radius reaches two steps
(or `core_min_size = 2`), then for every number of processes, distribution of the points and execution without the race of C49, the function ends and the
points labelled -1 are exactly those that are noise among the points of all processes, for the neighbourhoods "computed distance at most `eps`". Points
with the same other label belong to the same cluster.

Partial: the forwarding radius that the code chooses need not reach two steps (`distributed_dbscan_float_defect`), and points of one cluster may
have different labels (`distributed_dbscan_defect`). -/
theorem distributed_dbscan_float_sound_partial {w : ℕ} (F : Format) (P : ℕ) (points : ℕ → List (Pt ℝ D)) (eps radius : ℝ) (heps : 0 < eps) (hr : eps ≤ radius)
    (minPts : ℕ) (hmin : 2 ≤ minPts) (star : Bool) (hreach : minPts ≠ 2 → Reaches F eps radius ((List.range P).flatMap points))
    (E : XEnv (Pt ℝ D) w) (hE : E.Valid (placed F P points eps radius minPts)) (hL : Calls F eps minPts star (placed F P points eps radius minPts) E)
    (hc : ∀ r n, InOrder (E.csched r n)) (queryFuel : ℕ) (hq : 2 * P ≤ queryFuel) :
    ∃ N, ∀ fuel ≥ N, ∃ res, (placed F P points eps radius minPts).dbscan E queryFuel fuel = some res ∧ (∀ r < P, (res r).length = (points r).length) ∧
      let pts := (List.range P).flatMap points
      let lab := labelAt ((List.range P).flatMap res)
      (∀ g < pts.length, lab g = -1 ↔ ¬ Core pts.length (withinOf F eps pts) minPts g ∧
        (star = true ∨ ¬ NearCore pts.length (withinOf F eps pts) minPts g)) ∧
      (∀ g < pts.length, Core pts.length (withinOf F eps pts) minPts g → 0 ≤ lab g) ∧
      ∀ g < pts.length, ∀ h < pts.length, lab g ≠ -1 → lab g = lab h →
        ∃ b b', Views.Anchor pts.length (withinOf F eps pts) minPts g b ∧ Views.Anchor pts.length (withinOf F eps pts) minPts h b' ∧
          Chained pts.length (withinOf F eps pts) minPts b b' := by
  obtain ⟨N, h⟩ := distributed_dbscan_sound_partial (placed F P points eps radius minPts) (placed_geometry heps.le hr hreach) hmin star E hE
    (hL.local heps hmin) hc queryFuel hq
  refine ⟨N, fun fuel hf => ?_⟩
  obtain ⟨res, h1, h2, h3, h4, h5⟩ := h fuel hf
  have hn : ∀ i < ((List.range P).flatMap points).length, ∀ j < ((List.range P).flatMap points).length,
      nearOf (placed F P points eps radius minPts).near (placed F P points eps radius minPts).all i j =
        withinOf F eps ((List.range P).flatMap points) i j := fun i hi j hj => withinOf_eq F eps _ hi hj
  refine ⟨res, h1, h2, ?_, ?_, ?_⟩
  · intro g hg
    rw [← core_congr hn hg, ← nearCore_congr hn hg]
    exact h3 g hg
  · intro g hg hcg
    exact h4 g hg ((core_congr hn hg).mpr hcg)
  · intro g hg k hk hne e
    obtain ⟨b, b', a1, a2, a3⟩ := h5 g hg k hk hne e
    refine ⟨b, b', (anchor_congr hn hg).mp a1, (anchor_congr hn hk).mp a2, ?_⟩
    unfold Chained at *
    rw [← linked_congr hn]
    exact a3

/-- **C73 (partial).** If in addition every cluster has at most three labels before the merge, then the result is a DBSCAN (DBSCAN*) clustering of the
points of all processes for the computed distances.

Partial: see `distributed_dbscan_float_sound_partial`. -/
theorem distributed_dbscan_float_partial {w : ℕ} (F : Format) (P : ℕ) (points : ℕ → List (Pt ℝ D)) (eps radius : ℝ) (heps : 0 < eps) (hr : eps ≤ radius)
    (minPts : ℕ) (hmin : 2 ≤ minPts) (star : Bool) (hreach : minPts ≠ 2 → Reaches F eps radius ((List.range P).flatMap points))
    (E : XEnv (Pt ℝ D) w) (hE : E.Valid (placed F P points eps radius minPts)) (hL : Calls F eps minPts star (placed F P points eps radius minPts) E)
    (hc : ∀ r n, InOrder (E.csched r n)) (queryFuel : ℕ) (hq : 2 * P ≤ queryFuel) (hfew : (placed F P points eps radius minPts).FewLabels E queryFuel) :
    ∃ N, ∀ fuel ≥ N, ∃ res, (placed F P points eps radius minPts).dbscan E queryFuel fuel = some res ∧ (∀ r < P, (res r).length = (points r).length) ∧
      IsClustering star ((List.range P).flatMap points).length (withinOf F eps ((List.range P).flatMap points)) minPts
        (labelAt ((List.range P).flatMap res)) := by
  obtain ⟨N, h⟩ := distributed_dbscan_partial (placed F P points eps radius minPts) (placed_geometry heps.le hr hreach) hmin star E hE
    (hL.local heps hmin) hc queryFuel hq hfew
  refine ⟨N, fun fuel hf => ?_⟩
  obtain ⟨res, h1, h2, h3⟩ := h fuel hf
  exact ⟨res, h1, h2, clustering_congr_near (fun i hi j hj => withinOf_eq F eps _ hi hj) h3⟩

/-- **C73.** Without rounding the computed distances are the Euclidean ones, and a forwarding radius of at least `2 eps` reaches two steps. -/
theorem exact_reaches (eps radius : ℝ) (h : 2 * eps ≤ radius) (pts : List (Pt ℝ D)) :
    (∀ p q : Pt ℝ D, exact.distPoint p q = (Geometry.edist p q : ℝ)) ∧ Reaches exact eps radius pts := by
  have hd := exact_distPoint (D := D)
  refine ⟨hd, fun p _ q _ x _ h1 h2 => ?_⟩
  rw [hd, EReal.coe_le_coe_iff] at *
  have := Geometry.edist_triangle p q x
  linarith

end ArborX.Fp
