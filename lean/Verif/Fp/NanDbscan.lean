import Verif.Fp.Nan
import Verif.Fp.NanLimits
import Verif.Fp.Cloud
import Verif.Fp.Examples
import Verif.Fp.DistDbscan
import Verif.Dbscan.Ignored
import Verif.Dbscan.Weak

/-!
# Property theorems: clustering of points with NaN and infinite coordinates (C93)
-/

namespace ArborX.Fp

open Geometry BVH Nearest

variable {D : ℕ}

/-! ## Model -/

/-- The points given to `dbscan`, with any coordinates (see `Cloud`). -/
structure NCloud (D : ℕ) where
  pts : List (Fin D → Num)
  M : ℝ
  code : ℕ → BitVec 64
  perm : ℕ → ℕ

/-- The tree is built on the points with their indices (`src/cluster/ArborX_DBSCAN.hpp` 273-274). -/
def NCloud.scene (A : NCloud D) : NScene D := ⟨A.pts.map .point, A.M, A.code, A.perm⟩

/-- Point `i`. -/
def NCloud.pt (A : NCloud D) (i : ℕ) : Fin D → Num := A.pts.getD i (fun _ => none)

/-- `dbscan(space, points, eps, core_min_size)` (`src/cluster/ArborX_DBSCAN.hpp` 219-327, 489-522) as `Cloud.dbscan`. -/
noncomputable def NCloud.dbscan (A : NCloud D) (F : Format) (eps : ℝ) (minPts : ℕ) (star : Bool) (chunks : List (List ℕ)) (serial : Bool) :
    Dbscan.In (NBound D A.M) 64 where
  n := A.pts.length
  near i j := F.nintersects (.sphere (A.pt i) (some (eps : EReal))) (.point (A.pt j))
  pv i v := A.scene.nodeTest F (.sphere (A.pt i) (some (eps : EReal))) v
  vol := A.scene.input.vol
  code := A.code
  perm := A.perm
  minPts := minPts
  star := star
  chunks := chunks
  serial := serial

/-! ## Specification -/

/-- A point whose coordinates are numbers: neither NaN nor infinite. -/
def Finite (p : Fin D → Num) : Prop := ∀ d, ∃ x : ℝ, p d = some (x : EReal)

open Classical in
/-- Points `i` and `j` have finite coordinates and their computed distance is at most `r`. -/
noncomputable def NCloud.within (A : NCloud D) (F : Format) (r : ℝ) (i j : ℕ) : Bool :=
  decide (∃ p q : Pt ℝ D, A.pt i = (fun d => some (p d : EReal)) ∧ A.pt j = (fun d => some (q d : EReal)) ∧ F.distPoint p q ≤ r)

/-! ## Lemmas -/

lemma NCloud.within_iff (A : NCloud D) (F : Format) (r : ℝ) (i j : ℕ) : A.within F r i j = true ↔
    ∃ p q : Pt ℝ D, A.pt i = (fun d => some (p d : EReal)) ∧ A.pt j = (fun d => some (q d : EReal)) ∧ F.distPoint p q ≤ r := by
  classical
  unfold NCloud.within
  rw [decide_eq_true_iff]

lemma NCloud.at_eq (A : NCloud D) (i : ℕ) : A.scene.at i = .point (A.pt i) := by
  unfold NScene.at NCloud.scene NCloud.pt
  simp only [List.getD_eq_getElem?_getD, List.getElem?_map]
  cases A.pts[i]? <;> rfl

lemma NCloud.dbscan_near (A : NCloud D) (F : Format) (eps : ℝ) (minPts : ℕ) (star : Bool) (chunks : List (List ℕ)) (serial : Bool) :
    (A.dbscan F eps minPts star chunks serial).near = A.within F eps := by
  funext i j
  show nanLe (F.ndist (A.pt i) (A.pt j)) (some (eps : EReal)) = _
  rw [Bool.eq_iff_iff, A.within_iff]
  constructor
  · intro h
    cases hd : F.ndist (A.pt i) (A.pt j) with
    | none => rw [hd] at h; simp [nanLe] at h
    | some r =>
      have hr : r ≤ (eps : EReal) := by rw [hd] at h; simpa [nanLe] using h
      obtain ⟨p, q, hp, hq⟩ := ndist_finite hd (hr.trans_lt (EReal.coe_lt_top eps))
      refine ⟨p, q, hp, hq, ?_⟩
      rw [hp, hq, ndist_coe, Option.some_inj] at hd
      rw [hd]; exact hr
  · rintro ⟨p, q, hp, hq, h⟩
    rw [hp, hq, ndist_coe]
    simpa [nanLe] using h

section

variable (A : NCloud D) (hA : A.scene.Valid) (F : Format) (eps : ℝ) (heps : 0 < eps) (minPts : ℕ) (hmin : 2 ≤ minPts)
  (chunks : List (List ℕ)) (hchunks : chunks.flatten.Perm (List.range A.pts.length)) (serial : Bool) (hserial : serial = true → chunks.length ≤ 1)

lemma NCloud.dbscan_tree (star : Bool) : (A.dbscan F eps minPts star chunks serial).tree = A.scene.input := by
  have : A.scene.input.n = A.pts.length := by simp [NScene.input, NCloud.scene]
  unfold Dbscan.In.tree NCloud.dbscan
  rw [← this]
  rfl

include hA heps hmin hchunks hserial

lemma NCloud.dbscan_valid (star : Bool) : (A.dbscan F eps minPts star chunks serial).Valid where
  tree := by rw [A.dbscan_tree]; exact hA.input
  symm i j := by
    rw [A.dbscan_near]
    rw [Bool.eq_iff_iff, A.within_iff, A.within_iff]
    constructor <;> rintro ⟨p, q, hp, hq, h⟩ <;> exact ⟨q, p, hq, hp, by rw [F.distPoint_comm]; exact h⟩
  refl i j h := by
    rw [A.dbscan_near] at h ⊢
    rw [A.within_iff] at h ⊢
    obtain ⟨p, q, hp, -, -⟩ := h
    exact ⟨p, p, hp, hp, by rw [F.distPoint_self]; exact EReal.coe_nonneg.mpr heps.le⟩
  mono i j v hv h := by
    have hn : (A.dbscan F eps minPts star chunks serial).near i j = true := h
    rw [A.dbscan_near] at hn
    rw [A.within_iff] at hn
    obtain ⟨p, q, -, hq, -⟩ := hn
    refine nintersects_mono (Q := .sphere (A.pt i) (some (eps : EReal))) (g := .point (A.pt j)) (.inl ?_) ?_ ?_ h
    · rw [ne_eq, Option.some_inj]; exact EReal.coe_ne_top eps
    · intro d; exact ⟨_, congrFun hq d⟩
    · rw [← A.at_eq]; exact hv
  minPts := hmin
  chunks := hchunks
  serial := hserial

/-! ## Property theorems -/

/-- **C93.** `dbscan` on points with any coordinates, NaN and infinities included (FDBSCAN, `eps > 0` finite, `core_min_size ≥ 2`), whatever the
schedules and the Morton codes of the points: no out-of-bounds access, and when the kernels have finished the labels are a DBSCAN (or DBSCAN*)
clustering for the neighbourhoods "both points are finite and their computed distance is at most `eps`"; all other points are noise. -/
theorem dbscan_nan (star : Bool) (schedB : List ℕ) (hB : A.scene.input.Finished schedB) (fuel : ℕ) (hfuel : 2 * A.pts.length ≤ fuel)
    (schedU schedF : List ℕ) :
    (A.dbscan F eps minPts star chunks serial).fdbscan fuel schedB schedU schedF = .running ∨
    ∃ l, (A.dbscan F eps minPts star chunks serial).fdbscan fuel schedB schedU schedF = .labels l ∧ l.length = A.pts.length ∧
      (star = false → Dbscan.IsDBSCAN A.pts.length (A.within F eps) minPts (Dbscan.labelOf l)) ∧
      (star = true → Dbscan.IsDBSCANStar A.pts.length (A.within F eps) minPts (Dbscan.labelOf l)) ∧
      Dbscan.Canonical A.pts.length (A.within F eps) minPts (Dbscan.labelOf l) ∧
      ∀ i (hi : i < A.pts.length), ¬ Finite A.pts[i] → Dbscan.labelOf l i = -1 := by
  have hV := A.dbscan_valid hA F eps heps minPts hmin chunks hchunks serial hserial star
  have hnear := A.dbscan_near F eps minPts star chunks serial
  have hnone : ∀ i (hi : i < A.pts.length), ¬ Finite A.pts[i] → ∀ k, A.within F eps i k = false := by
    intro i hi hf k
    rw [← Bool.not_eq_true, A.within_iff]
    rintro ⟨p, q, hp, -, -⟩
    refine hf fun d => ⟨p d, ?_⟩
    have : A.pt i = A.pts[i] := by unfold NCloud.pt; rw [List.getD_eq_getElem _ _ hi]
    rw [← this, hp]
  have hno : ∀ i (hi : i < A.pts.length), ¬ Finite A.pts[i] →
      ¬ Dbscan.Core A.pts.length (A.within F eps) minPts i ∧ ¬ Dbscan.NearCore A.pts.length (A.within F eps) minPts i := by
    intro i hi hf
    constructor
    · unfold Dbscan.Core
      have : (List.range A.pts.length).filter (A.within F eps i) = [] := by
        rw [List.filter_eq_nil_iff]
        intro k _; rw [hnone i hi hf k]; simp
      rw [this, List.length_nil]; omega
    · rintro ⟨k, -, -, h⟩
      rw [hnone i hi hf k] at h; simp at h
  cases star with
  | false =>
    rcases Dbscan.fdbscan_correct (A.dbscan F eps minPts false chunks serial) hV schedB (by rw [A.dbscan_tree]; exact hB) fuel hfuel rfl schedU schedF with h | ⟨l, h1, h2, h3, h4⟩
    · exact .inl h
    · rw [hnear] at h3 h4
      exact .inr ⟨l, h1, h2, fun _ => h3, fun h => by simp at h, h4, fun i hi hf => h3.noise i hi (hno i hi hf).1 (hno i hi hf).2⟩
  | true =>
    rcases Dbscan.fdbscan_star_correct (A.dbscan F eps minPts true chunks serial) hV schedB (by rw [A.dbscan_tree]; exact hB) fuel hfuel rfl schedU schedF with h | ⟨l, h1, h2, h3, h4⟩
    · exact .inl h
    · rw [hnear] at h3 h4
      exact .inr ⟨l, h1, h2, fun h => by simp at h, fun _ => h3, h4, fun i hi hf => h3.noise i hi (hno i hi hf).1⟩

/-- **C93 (termination).** -/
theorem dbscan_nan_terminates (star : Bool) (schedB : List ℕ) (hB : A.scene.input.Finished schedB) (fuel : ℕ) (hfuel : 2 * A.pts.length ≤ fuel) :
    ∃ steps : ℕ → ℕ, ∀ schedU schedF : List ℕ, (∀ c < chunks.length, steps c ≤ schedU.count c) →
      (∀ i < A.pts.length, A.pts.length + 5 ≤ schedF.count i) →
      (A.dbscan F eps minPts star chunks serial).fdbscan fuel schedB schedU schedF ≠ .running :=
  ⟨_, fun schedU schedF hU hF => Dbscan.fdbscan_terminates (A.dbscan F eps minPts star chunks serial)
    (A.dbscan_valid hA F eps heps minPts hmin chunks hchunks serial hserial star) schedB (by rw [A.dbscan_tree]; exact hB) fuel hfuel schedU schedF hU hF⟩

end

/-- **C93.** Points with a NaN or an infinite coordinate do not influence the clusters of the others: `f 0 < f 1 < …` are the positions of the finite
points, `B` consists of these points. Whatever the schedules, the trees and the distribution over the threads of the two calls, the label of a core
point of `A` is the position of the label which it has in `B`, and the same points are noise. -/
theorem dbscan_nan_ignored (A : NCloud D) (hA : A.scene.Valid) (B : Cloud D) (hB : B.Valid) (f : ℕ → ℕ)
    (hf : ∀ j < B.pts.length, f j < A.pts.length ∧ A.pts.getD (f j) (fun _ => none) = fun d => some ((B.pts.getD j 0) d : EReal))
    (hmono : ∀ j < B.pts.length, ∀ k < B.pts.length, j < k → f j < f k)
    (hall : ∀ i (hi : i < A.pts.length), Finite A.pts[i] → ∃ j < B.pts.length, f j = i)
    (F : Format) (eps : ℝ) (heps : 0 < eps) (minPts : ℕ) (hmin : 2 ≤ minPts) (star : Bool)
    (chunksA : List (List ℕ)) (hchunksA : chunksA.flatten.Perm (List.range A.pts.length)) (serialA : Bool) (hserialA : serialA = true → chunksA.length ≤ 1)
    (chunksB : List (List ℕ)) (hchunksB : chunksB.flatten.Perm (List.range B.pts.length)) (serialB : Bool) (hserialB : serialB = true → chunksB.length ≤ 1)
    (schedA : List ℕ) (hsA : A.scene.input.Finished schedA) (schedB : List ℕ) (hsB : B.scene.input.Finished schedB)
    (fuelA : ℕ) (hfuelA : 2 * A.pts.length ≤ fuelA) (fuelB : ℕ) (hfuelB : 2 * B.pts.length ≤ fuelB) (schedUA schedFA schedUB schedFB : List ℕ)
    (lA lB : List ℤ) (hlA : (A.dbscan F eps minPts star chunksA serialA).fdbscan fuelA schedA schedUA schedFA = .labels lA)
    (hlB : (B.dbscan F eps minPts star chunksB serialB).fdbscan fuelB schedB schedUB schedFB = .labels lB) :
    (∀ j < B.pts.length, Dbscan.Core B.pts.length (B.within F eps) minPts j →
      ∃ r < B.pts.length, Dbscan.labelOf lB j = r ∧ Dbscan.labelOf lA (f j) = f r) ∧
    (∀ j < B.pts.length, Dbscan.labelOf lA (f j) = -1 ↔ Dbscan.labelOf lB j = -1) := by
  have E : Dbscan.Embedded A.pts.length (A.within F eps) B.pts.length (B.within F eps) f := by
    refine ⟨fun j hj => (hf j hj).1, hmono, ?_, ?_⟩
    · intro j hj k hk
      unfold Cloud.within Cloud.dist
      rw [Bool.eq_iff_iff, A.within_iff, decide_eq_true_eq]
      have ej : A.pt (f j) = fun d => some ((B.pt j) d : EReal) := (hf j hj).2
      have ek : A.pt (f k) = fun d => some ((B.pt k) d : EReal) := (hf k hk).2
      constructor
      · rintro ⟨p, q, hp, hq, h⟩
        have e1 : B.pt j = p := by
          funext d
          have := congrFun (ej.symm.trans hp) d
          rw [Option.some_inj, EReal.coe_eq_coe_iff] at this
          exact this
        have e2 : B.pt k = q := by
          funext d
          have := congrFun (ek.symm.trans hq) d
          rw [Option.some_inj, EReal.coe_eq_coe_iff] at this
          exact this
        rw [e1, e2]; exact h
      · intro h
        exact ⟨_, _, ej, ek, h⟩
    · rintro i hi ⟨k, hk, h⟩
      refine hall i hi fun d => ?_
      have : A.pt i = A.pts[i] := by unfold NCloud.pt; rw [List.getD_eq_getElem _ _ hi]
      rw [← this]
      rw [A.within_iff, A.within_iff] at h
      rcases h with ⟨p, q, hp, hq, -⟩ | ⟨p, q, hp, hq, -⟩
      · exact ⟨p d, congrFun hp d⟩
      · exact ⟨q d, congrFun hq d⟩
  obtain ⟨a1, a2, a3⟩ : (star = false → Dbscan.IsDBSCAN A.pts.length (A.within F eps) minPts (Dbscan.labelOf lA)) ∧
      (star = true → Dbscan.IsDBSCANStar A.pts.length (A.within F eps) minPts (Dbscan.labelOf lA)) ∧
      Dbscan.Canonical A.pts.length (A.within F eps) minPts (Dbscan.labelOf lA) := by
    rcases dbscan_nan A hA F eps heps minPts hmin chunksA hchunksA serialA hserialA star schedA hsA fuelA hfuelA schedUA schedFA with h | ⟨l, h, -, h2, h3, h4, -⟩
    · rw [h] at hlA; cases hlA
    · rw [h] at hlA
      cases hlA
      exact ⟨h2, h3, h4⟩
  obtain ⟨b1, b2, b3⟩ : (star = false → Dbscan.IsDBSCAN B.pts.length (B.within F eps) minPts (Dbscan.labelOf lB)) ∧
      (star = true → Dbscan.IsDBSCANStar B.pts.length (B.within F eps) minPts (Dbscan.labelOf lB)) ∧
      Dbscan.Canonical B.pts.length (B.within F eps) minPts (Dbscan.labelOf lB) := by
    rcases dbscan_float B hB F eps heps minPts hmin chunksB hchunksB serialB hserialB star schedB hsB fuelB hfuelB schedUB schedFB with h | ⟨l, h, -, h2, h3, h4⟩
    · rw [h] at hlB; cases hlB
    · rw [h] at hlB
      cases hlB
      exact ⟨h2, h3, h4⟩
  refine ⟨fun j hj hc => E.canonical a3 b3 hj hc, fun j hj => ?_⟩
  cases star with
  | false => exact E.noise (a1 rfl) (b1 rfl) hj
  | true => exact E.noise_star (a2 rfl) (b2 rfl) hj

/-! ## Non-vacuity -/

/-- The points NaN, 0, infinity, 1 and 10 on a line. -/
noncomputable def nanCloud : NCloud 1 :=
  ⟨[fun _ => none, fun _ => some ((0 : ℝ) : EReal), fun _ => some ⊤, fun _ => some ((1 : ℝ) : EReal), fun _ => some ((10 : ℝ) : EReal)], 100,
    fun _ => 0, fun i => i⟩

lemma nanCloud_valid : nanCloud.scene.Valid where
  fits := by show 5 ≤ 2 ^ 63; norm_num
  sorted := by
    refine ⟨?_, ?_⟩
    · show ((List.range 5).map fun i => i).Perm (List.range 5)
      rw [List.map_id']
    · intro i hi
      exact le_rfl
  top := by intro i hi; show ((0 : BitVec 64)).toNat < 2 ^ 63; simp

lemma nanCloud_within (i j : ℕ) (hi : i < 5) (hj : j < 5) :
    nanCloud.within Fp.exact 2 i j = decide ((i = 1 ∨ i = 3) ∧ (j = 1 ∨ j = 3) ∨ i = 4 ∧ j = 4) := by
  have hc : ∀ x y : ℝ, Fp.exact.distPoint (fun _ : Fin 1 => x) (fun _ => y) = ((|x - y| : ℝ) : EReal) := by
    intro x y
    rw [exact_distPoint]
    congr 1
    simp [Geometry.edist, Geometry.dist2, Real.sqrt_sq_eq_abs, ← pow_two]
  have hw : ∀ i j : ℕ, nanCloud.within Fp.exact 2 i j = true ↔ ∃ x y : ℝ, nanCloud.pt i 0 = some (x : EReal) ∧ nanCloud.pt j 0 = some (y : EReal) ∧ |x - y| ≤ 2 := by
    intro i j
    rw [nanCloud.within_iff]
    constructor
    · rintro ⟨p, q, hp, hq, h⟩
      refine ⟨p 0, q 0, congrFun hp 0, congrFun hq 0, ?_⟩
      have e1 : p = fun _ => p 0 := by funext d; rw [Subsingleton.elim d 0]
      have e2 : q = fun _ => q 0 := by funext d; rw [Subsingleton.elim d 0]
      rw [e1, e2, hc, EReal.coe_le_coe_iff] at h
      exact h
    · rintro ⟨x, y, hx, hy, h⟩
      refine ⟨fun _ => x, fun _ => y, ?_, ?_, ?_⟩
      · funext d; rw [Subsingleton.elim d 0]; exact hx
      · funext d; rw [Subsingleton.elim d 0]; exact hy
      · rw [hc, EReal.coe_le_coe_iff]; exact h
  have hp : ∀ i < 5, ∀ x : ℝ, nanCloud.pt i 0 = some (x : EReal) ↔ (i = 1 ∧ x = 0) ∨ (i = 3 ∧ x = 1) ∨ (i = 4 ∧ x = 10) := by
    intro i hi x
    interval_cases i
    · simp [NCloud.pt, nanCloud]
    · show some ((0 : ℝ) : EReal) = some (x : EReal) ↔ _
      rw [Option.some_inj, EReal.coe_eq_coe_iff]; simp [eq_comm]
    · simp [NCloud.pt, nanCloud, eq_comm]
    · show some ((1 : ℝ) : EReal) = some (x : EReal) ↔ _
      rw [Option.some_inj, EReal.coe_eq_coe_iff]; simp [eq_comm]
    · show some ((10 : ℝ) : EReal) = some (x : EReal) ↔ _
      rw [Option.some_inj, EReal.coe_eq_coe_iff]; simp [eq_comm]
  rw [Bool.eq_iff_iff, hw, decide_eq_true_eq]
  simp only [hp i hi, hp j hj]
  constructor
  · rintro ⟨x, y, (⟨rfl, rfl⟩ | ⟨rfl, rfl⟩ | ⟨rfl, rfl⟩), (⟨rfl, rfl⟩ | ⟨rfl, rfl⟩ | ⟨rfl, rfl⟩), h⟩ <;> first | decide | (exfalso; rw [abs_le] at h; norm_num at h)
  · rintro (⟨(rfl | rfl), (rfl | rfl)⟩ | ⟨rfl, rfl⟩)
    · exact ⟨0, 0, by simp, by simp, by norm_num⟩
    · exact ⟨0, 1, by simp, by simp, by norm_num⟩
    · exact ⟨1, 0, by simp, by simp, by norm_num⟩
    · exact ⟨1, 1, by simp, by simp, by norm_num⟩
    · exact ⟨10, 10, by simp, by simp, by norm_num⟩

/-- With radius 2 and at least two points in a neighbourhood, 0 and 1 form a cluster and the other three points are noise. -/
example : ∃ schedB schedU schedF l, (nanCloud.dbscan Fp.exact 2 2 false [[2, 0, 4], [1, 3]] false).fdbscan 10 schedB schedU schedF = .labels l ∧
    Dbscan.labelOf l 0 = -1 ∧ Dbscan.labelOf l 1 = 1 ∧ Dbscan.labelOf l 2 = -1 ∧ Dbscan.labelOf l 3 = 1 ∧ Dbscan.labelOf l 4 = -1 := by
  obtain ⟨schedB, hB⟩ := Construction.exists_complete nanCloud.scene.input.params (nanCloud_valid.input.keys (by show 2 ≤ 5; norm_num))
  have hch : ([[2, 0, 4], [1, 3]] : List (List ℕ)).flatten.Perm (List.range nanCloud.pts.length) := by
    show ([[2, 0, 4], [1, 3]] : List (List ℕ)).flatten.Perm (List.range 5)
    decide
  obtain ⟨steps, hsteps⟩ := dbscan_nan_terminates nanCloud nanCloud_valid Fp.exact 2 (by norm_num) 2 (by norm_num) _ hch false
    (by simp) false schedB (fun _ => hB) 10 (by show 10 ≤ 10; norm_num)
  obtain ⟨schedU, hU⟩ := Euclid.exists_counts 2 steps
  obtain ⟨schedF, hF⟩ := Euclid.exists_counts 5 (fun _ => 10)
  rcases dbscan_nan nanCloud nanCloud_valid Fp.exact 2 (by norm_num) 2 (by norm_num) _ hch false (by simp) false
    schedB (fun _ => hB) 10 (by show 10 ≤ 10; norm_num) schedU schedF with h | ⟨l, h, -, hD, -, hcan, hbad⟩
  · exact absurd h (hsteps schedU schedF hU hF)
  have hD := hD rfl
  have hfilter : ∀ i < 5, (List.range 5).filter (nanCloud.within Fp.exact 2 i) =
      (List.range 5).filter (fun j => decide ((i = 1 ∨ i = 3) ∧ (j = 1 ∨ j = 3) ∨ i = 4 ∧ j = 4)) := by
    intro i hi
    exact List.filter_congr (fun j hj => nanCloud_within i j hi (List.mem_range.mp hj))
  have c1 : Dbscan.Core 5 (nanCloud.within Fp.exact 2) 2 1 := by unfold Dbscan.Core; rw [hfilter 1 (by norm_num)]; decide
  have c3 : Dbscan.Core 5 (nanCloud.within Fp.exact 2) 2 3 := by unfold Dbscan.Core; rw [hfilter 3 (by norm_num)]; decide
  have c0 : ¬ Dbscan.Core 5 (nanCloud.within Fp.exact 2) 2 0 := by unfold Dbscan.Core; rw [hfilter 0 (by norm_num)]; decide
  have c4 : ¬ Dbscan.Core 5 (nanCloud.within Fp.exact 2) 2 4 := by unfold Dbscan.Core; rw [hfilter 4 (by norm_num)]; decide
  have e1 : Dbscan.labelOf l 1 = 1 := by
    obtain ⟨r, e, hr, hrc, hch, hmin⟩ := hcan 1 (by show 1 < 5; norm_num) c1
    have h1 := hmin 1 (by show 1 < 5; norm_num) c1 .refl
    have h0 : r ≠ 0 := by rintro rfl; exact c0 hrc
    rw [e]; have : r = 1 := by omega
    rw [this]; rfl
  refine ⟨schedB, schedU, schedF, l, h, hbad 0 (by show 0 < 5; norm_num) (fun hf => ?_), e1, hbad 2 (by show 2 < 5; norm_num) (fun hf => ?_), ?_, ?_⟩
  · obtain ⟨x, hx⟩ := hf 0; cases hx
  · obtain ⟨x, hx⟩ := hf 0
    have : (⊤ : EReal) = x := Option.some_inj.mp hx
    exact EReal.coe_ne_top x this.symm
  · rw [← e1]
    refine (hD.clusters 3 (by show 3 < 5; norm_num) 1 (by show 1 < 5; norm_num) c3 c1).mpr (.single ⟨by show 3 < 5; norm_num, by show 1 < 5; norm_num, c3, c1, ?_⟩)
    rw [nanCloud_within 3 1 (by norm_num) (by norm_num)]; decide
  · refine hD.noise 4 (by show 4 < 5; norm_num) c4 ?_
    rintro ⟨j, hj, hjc, hn⟩
    have hj5 : j < 5 := hj
    rw [nanCloud_within 4 j (by norm_num) hj5] at hn
    simp at hn
    rw [hn] at hjc
    exact c4 hjc

end ArborX.Fp
