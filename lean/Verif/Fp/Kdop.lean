import Verif.Geometry.Kdop
import Verif.Fp.Theorems

/-!
# Trees with k-DOPs as bounding volumes, in floating-point arithmetic (C81)

`BoundingVolumeHierarchy<MemorySpace, Value, IndexableGetter, KDOP<DIM, k>>` (`src/spatial/ArborX_LinearBVH.hpp` 171-255) on points, boxes and
k-DOPs, and queries `intersects(geometry)`. The projections on the directions of a k-DOP are rounded sums, which can overflow.
-/

namespace ArborX.Fp

open Geometry BVH

/-! ## Model -/

variable {f : Family}

/-- `s += x` for finite `x`; `s` may have overflowed. -/
noncomputable def Format.addTo (F : Format) (s : EReal) (x : ℝ) : EReal :=
  if s = ⊤ then ⊤ else if s = ⊥ then ⊥ else F.rnd (s.toReal + x)

/-- `proj_i` (`src/geometry/algorithms/ArborX_Expand.hpp` 136-141, `ArborX_Intersects.hpp` 340-343). The directions consist of 0, 1 and -1, so the
products are exact, fused or not. -/
noncomputable def Format.proj (F : Format) (p : Pt ℝ f.dim) (i : Fin f.n) : EReal :=
  match List.finRange f.dim with
  | [] => 0
  | d0 :: ds => ds.foldl (fun s d => F.addTo s (p d * f.directions i d)) ((p d0 * f.directions i d0 : ℝ) : EReal)

/-- Default constructor (`src/geometry/ArborX_KDOP.hpp` 159-168). -/
noncomputable def kempty (M : ℝ) : Kdop EReal f := ⟨fun _ => M, fun _ => -M⟩

/-- `expand(KDOP, Point)` (`ArborX_Expand.hpp` 127-147). -/
noncomputable def Format.kexpandPoint (F : Format) (k : Kdop EReal f) (p : Pt ℝ f.dim) : Kdop EReal f :=
  ⟨fun i => min (k.lo i) (F.proj p i), fun i => max (k.hi i) (F.proj p i)⟩

/-- `expand(KDOP, KDOP)` (110-125). -/
noncomputable def kjoin (k l : Kdop EReal f) : Kdop EReal f :=
  ⟨fun i => min (k.lo i) (l.lo i), fun i => max (k.hi i) (l.hi i)⟩

/-- `expand(KDOP, Box)` (149-206). -/
noncomputable def Format.kexpandBox (F : Format) (k : Kdop EReal f) (B : Box ℝ f.dim) : Kdop EReal f :=
  if ∃ d, B.lo d > B.hi d then k else (f.corners B).foldl F.kexpandPoint k

/-- Values and queries of such a tree. -/
inductive KG (f : Family) where
  | point (p : Pt ℝ f.dim)
  | box (B : Box ℝ f.dim)
  | kdop (k : Kdop EReal f)

/-- Dispatch of `expand(KDOP &, Geometry const &)` (26-36). -/
noncomputable def Format.kexpand (F : Format) (k : Kdop EReal f) : KG f → Kdop EReal f
  | .point p => F.kexpandPoint k p
  | .box B => F.kexpandBox k B
  | .kdop l => kjoin k l

/-- `intersects(Point, KDOP)` (`ArborX_Intersects.hpp` 331-349). -/
noncomputable def Format.pointHits (F : Format) (p : Pt ℝ f.dim) (k : Kdop EReal f) : Bool :=
  (List.finRange f.n).all (fun i => !(decide (F.proj p i < k.lo i) || decide (F.proj p i > k.hi i)))

/-- `intersects(KDOP, KDOP)` (350-367). -/
noncomputable def kdopHits (k l : Kdop EReal f) : Bool :=
  (List.finRange f.n).all (fun i => !(decide (l.hi i < k.lo i) || decide (l.lo i > k.hi i)))

/-- `intersects(geometry, geometry)` with the reversal of arguments of `ArborX_ReverseDispatch.hpp` 31-46: box-box and point-box (50-79), k-DOP-box
(320-329) and those above. `M` is the largest finite number. There is no test of two points. -/
noncomputable def Format.khits (F : Format) (M : ℝ) : KG f → KG f → Option Bool
  | .box B, .box C => some (intersectsBoxBox B C)
  | .point p, .box B => some (intersectsPointBox p B)
  | .box B, .point p => some (intersectsPointBox p B)
  | .kdop k, .box B => some (kdopHits k (F.kexpandBox (kempty M) B))
  | .box B, .kdop k => some (kdopHits k (F.kexpandBox (kempty M) B))
  | .point p, .kdop k => some (F.pointHits p k)
  | .kdop k, .point p => some (F.pointHits p k)
  | .kdop k, .kdop l => some (kdopHits k l)
  | .point _, .point _ => none

/-- The values of the type `KDOP` reachable from the empty one by expansion. -/
structure KVol (M : ℝ) (f : Family) where
  k : Kdop EReal f
  lo : ∀ i, k.lo i ≤ M
  hi : ∀ i, -(M : EReal) ≤ k.hi i

variable {M : ℝ}

@[ext] lemma KVol.ext {u v : KVol M f} (h : u.k = v.k) : u = v := by
  cases u; cases v; cases h; rfl

instance : PartialOrder (KVol M f) where
  le u v := ∀ i, v.k.lo i ≤ u.k.lo i ∧ u.k.hi i ≤ v.k.hi i
  le_refl _ := fun _ => ⟨le_rfl, le_rfl⟩
  le_trans _ _ _ h1 h2 := fun i => ⟨(h2 i).1.trans (h1 i).1, (h1 i).2.trans (h2 i).2⟩
  le_antisymm u v h1 h2 := KVol.ext (Kdop.ext (funext fun i => le_antisymm (h2 i).1 (h1 i).1) (funext fun i => le_antisymm (h1 i).2 (h2 i).2))

/-- The least upper bound is what `expand(KDOP, KDOP)` computes. -/
noncomputable instance : SemilatticeSup (KVol M f) where
  sup u v := ⟨kjoin u.k v.k, fun i => (min_le_left _ _).trans (u.lo i), fun i => (u.hi i).trans (le_max_left _ _)⟩
  le_sup_left _ _ := fun _ => ⟨min_le_left _ _, le_max_left _ _⟩
  le_sup_right _ _ := fun _ => ⟨min_le_right _ _, le_max_right _ _⟩
  sup_le _ _ _ h1 h2 := fun i => ⟨le_min (h1 i).1 (h2 i).1, max_le (h1 i).2 (h2 i).2⟩

/-- The least element is the empty k-DOP. -/
noncomputable instance : OrderBot (KVol M f) where
  bot := ⟨kempty M, fun _ => le_rfl, fun _ => le_rfl⟩
  bot_le u := fun i => ⟨u.lo i, u.hi i⟩

/-! ## Lemmas -/

lemma Format.addTo_mono (F : Format) {s s' : EReal} {x x' : ℝ} (hs : s ≤ s') (hx : x ≤ x') : F.addTo s x ≤ F.addTo s' x' := by
  unfold Format.addTo
  by_cases h1 : s' = ⊤
  · rw [if_pos h1]; exact le_top
  rw [if_neg h1]
  have h2 : s ≠ ⊤ := fun e => h1 (top_le_iff.mp (e ▸ hs))
  rw [if_neg h2]
  by_cases h3 : s = ⊥
  · rw [if_pos h3]; exact bot_le
  rw [if_neg h3]
  have h4 : s' ≠ ⊥ := fun e => h3 (le_bot_iff.mp (e ▸ hs))
  rw [if_neg h4]
  exact F.mono (add_le_add (EReal.toReal_le_toReal hs h3 h1) hx)

lemma Format.proj_mono (F : Format) {p q : Pt ℝ f.dim} {i : Fin f.n} (h : ∀ d, p d * f.directions i d ≤ q d * f.directions i d) :
    F.proj p i ≤ F.proj q i := by
  unfold Format.proj
  generalize List.finRange f.dim = l
  cases l with
  | nil => exact le_rfl
  | cons d0 ds =>
    dsimp only
    have key : ∀ (ds : List (Fin f.dim)) (s s' : EReal), s ≤ s' →
        ds.foldl (fun s d => F.addTo s (p d * f.directions i d)) s ≤ ds.foldl (fun s d => F.addTo s (q d * f.directions i d)) s' := by
      intro ds
      induction ds with
      | nil => exact fun _ _ h => h
      | cons d ds ih => exact fun s s' hs => ih _ _ (F.addTo_mono hs (h d))
    exact key ds _ _ (EReal.coe_le_coe_iff.mpr (h d0))

/-- The rounded projection of a point of a box is between the rounded projections of two corners. -/
lemma Format.proj_between (F : Format) (B : Box ℝ f.dim) (x : Pt ℝ f.dim) (hx : x ∈ B.set) (i : Fin f.n) :
    (∃ c ∈ f.corners B, F.proj c i ≤ F.proj x i) ∧ ∃ c ∈ f.corners B, F.proj x i ≤ F.proj c i := by
  constructor
  · refine ⟨_, mem_corners B (fun d => decide (f.directions (K := ℝ) i d < 0)), F.proj_mono fun d => ?_⟩
    simp only [decide_eq_true_iff]
    split_ifs with h
    · exact mul_le_mul_of_nonpos_right (hx d).2 h.le
    · exact mul_le_mul_of_nonneg_right (hx d).1 (not_lt.mp h)
  · refine ⟨_, mem_corners B (fun d => decide (0 < f.directions (K := ℝ) i d)), F.proj_mono fun d => ?_⟩
    simp only [decide_eq_true_iff]
    split_ifs with h
    · exact mul_le_mul_of_nonneg_right (hx d).2 h.le
    · exact mul_le_mul_of_nonpos_right (hx d).1 (not_lt.mp h)

lemma Format.foldl_kexpand (F : Format) (l : List (Pt ℝ f.dim)) (k : Kdop EReal f) (i : Fin f.n) :
    ((l.foldl F.kexpandPoint k).lo i ≤ k.lo i ∧ k.hi i ≤ (l.foldl F.kexpandPoint k).hi i) ∧
    ∀ p ∈ l, (l.foldl F.kexpandPoint k).lo i ≤ F.proj p i ∧ F.proj p i ≤ (l.foldl F.kexpandPoint k).hi i := by
  induction l generalizing k with
  | nil => exact ⟨⟨le_rfl, le_rfl⟩, fun p hp => absurd hp (by simp)⟩
  | cons q l ih =>
    obtain ⟨h1, h2⟩ := ih (F.kexpandPoint k q)
    rw [List.foldl_cons]
    refine ⟨⟨h1.1.trans (min_le_left _ _), (le_max_left _ _).trans h1.2⟩, fun p hp => ?_⟩
    rcases List.mem_cons.mp hp with rfl | hp
    · exact ⟨h1.1.trans (min_le_right _ _), (le_max_right _ _).trans h1.2⟩
    · exact h2 p hp

/-- Expansion widens. -/
lemma Format.le_kexpand (F : Format) (k : Kdop EReal f) (g : KG f) (i : Fin f.n) :
    (F.kexpand k g).lo i ≤ k.lo i ∧ k.hi i ≤ (F.kexpand k g).hi i := by
  cases g with
  | point p => exact ⟨min_le_left _ _, le_max_left _ _⟩
  | box B =>
    simp only [Format.kexpand, Format.kexpandBox]
    split_ifs
    · exact ⟨le_rfl, le_rfl⟩
    · exact (F.foldl_kexpand _ _ i).1
  | kdop l => exact ⟨min_le_left _ _, le_max_left _ _⟩

/-- The projections of the points of a box are in its k-DOP. -/
lemma Format.mem_kexpandBox (F : Format) (k : Kdop EReal f) (B : Box ℝ f.dim) {x : Pt ℝ f.dim} (hx : x ∈ B.set) (i : Fin f.n) :
    (F.kexpandBox k B).lo i ≤ F.proj x i ∧ F.proj x i ≤ (F.kexpandBox k B).hi i := by
  unfold Format.kexpandBox
  rw [if_neg (fun ⟨d, hd⟩ => absurd ((hx d).1.trans (hx d).2) (not_le.mpr hd))]
  obtain ⟨⟨c, hc, h1⟩, c', hc', h2⟩ := F.proj_between B x hx i
  have hh := (F.foldl_kexpand (f.corners B) k i).2
  exact ⟨(hh c hc).1.trans h1, h2.trans (hh c' hc').2⟩

lemma Format.pointHits_iff (F : Format) (p : Pt ℝ f.dim) (k : Kdop EReal f) :
    F.pointHits p k = true ↔ ∀ i, k.lo i ≤ F.proj p i ∧ F.proj p i ≤ k.hi i := by
  unfold Format.pointHits
  rw [List.all_eq_true]
  simp only [List.mem_finRange, true_implies, Bool.not_eq_true', Bool.or_eq_false_iff, decide_eq_false_iff_not, not_lt, gt_iff_lt]

lemma kdopHits_iff (k l : Kdop EReal f) : kdopHits k l = true ↔ ∀ i, k.lo i ≤ l.hi i ∧ l.lo i ≤ k.hi i := by
  unfold kdopHits
  rw [List.all_eq_true]
  simp only [List.mem_finRange, true_implies, Bool.not_eq_true', Bool.or_eq_false_iff, decide_eq_false_iff_not, not_lt, gt_iff_lt]

/-! ## The tree -/

/-- What the constructor of the tree works on, as `Scene`: the codes come from whatever space-filling curve and arithmetic. -/
structure KScene (f : Family) where
  geo : List (KG f)
  M : ℝ
  code : ℕ → BitVec 64
  perm : ℕ → ℕ

/-- The value `i`. -/
def KScene.at (S : KScene f) (i : ℕ) : KG f := S.geo.getD i (.point fun _ => 0)

/-- The bounding volume of a leaf: `expand(BoundingVolume{}, geometry)` (`src/spatial/detail/ArborX_TreeConstruction.hpp` 60-62, 198-206). -/
noncomputable def Format.leafKdop (F : Format) (M : ℝ) (g : KG f) : KVol M f :=
  ⟨F.kexpand (kempty M) g, fun i => (F.le_kexpand (kempty M) g i).1, fun i => (F.le_kexpand (kempty M) g i).2⟩

/-- The input of the construction (`src/spatial/ArborX_LinearBVH.hpp` 171-255), values represented by their index. -/
noncomputable def KScene.input (S : KScene f) (F : Format) : Input ℕ (KVol S.M f) 64 where
  n := S.geo.length
  values := fun i => i
  vol := fun i => F.leafKdop S.M (S.at i)
  code := S.code
  perm := S.perm

/-- `Intersects::operator()` (`src/spatial/detail/ArborX_Predicates.hpp` 95-101) on a leaf. -/
noncomputable def KScene.leafTest (S : KScene f) (F : Format) (Q : KG f) (i : ℕ) : Bool := decide (F.khits S.M Q (S.at i) = some true)

/-- The same on an internal node. -/
noncomputable def Format.knodeTest (F : Format) (Q : KG f) (v : KVol M f) : Bool := decide (F.khits M Q (.kdop v.k) = some true)

/-- Boxes have ordered corners. -/
def KG.Valid : KG f → Prop
  | .box B => B.Valid
  | _ => True

/-- The input of the construction is as `sortObjects` leaves it, and no box is inverted. -/
structure KScene.Valid (S : KScene f) (F : Format) : Prop where
  input : (S.input F).Valid
  valid : ∀ g ∈ S.geo, g.Valid

lemma KScene.Valid.at {S : KScene f} {F : Format} (h : S.Valid F) (i : ℕ) : (S.at i).Valid := by
  unfold KScene.at
  rcases Nat.lt_or_ge i S.geo.length with hi | hi
  · rw [List.getD_eq_getElem _ _ hi]; exact h.valid _ (List.getElem_mem hi)
  · rw [List.getD_eq_default _ _ hi]; exact trivial

/-- A value that intersects the query is found in every k-DOP above its leaf. -/
lemma Format.khits_mono (F : Format) {Q g : KG f} (hQ : Q.Valid) (hg : g.Valid) (ht : F.khits M Q g = some true) {v : KVol M f}
    (hv : F.leafKdop M g ≤ v) : F.khits M Q (.kdop v.k) = some true := by
  have hle : ∀ i, v.k.lo i ≤ (F.kexpand (kempty M) g).lo i ∧ (F.kexpand (kempty M) g).hi i ≤ v.k.hi i := hv
  -- a point of the value
  have hpt : ∀ {p : Pt ℝ f.dim}, g = .point p → ∀ i, v.k.lo i ≤ F.proj p i ∧ F.proj p i ≤ v.k.hi i := by
    rintro p rfl i
    exact ⟨(hle i).1.trans (min_le_right _ _), (le_max_right _ _).trans (hle i).2⟩
  have hbx : ∀ {B : Box ℝ f.dim}, g = .box B → ∀ x ∈ B.set, ∀ i, v.k.lo i ≤ F.proj x i ∧ F.proj x i ≤ v.k.hi i := by
    rintro B rfl x hx i
    have := F.mem_kexpandBox (kempty M) B hx i
    exact ⟨(hle i).1.trans this.1, this.2.trans (hle i).2⟩
  have hkd : ∀ {l : Kdop EReal f}, g = .kdop l → ∀ i, v.k.lo i ≤ l.lo i ∧ l.hi i ≤ v.k.hi i := by
    rintro l rfl i
    exact ⟨(hle i).1.trans (min_le_right _ _), (le_max_right _ _).trans (hle i).2⟩
  cases Q with
  | point p =>
    simp only [Format.khits, Option.some_inj]
    rw [F.pointHits_iff]
    cases g with
    | point q => simp [Format.khits] at ht
    | box B =>
      simp only [Format.khits, Option.some_inj] at ht
      exact hbx rfl p ((intersects_point_box p B).mp ht)
    | kdop l =>
      simp only [Format.khits, Option.some_inj] at ht
      rw [F.pointHits_iff] at ht
      exact fun i => ⟨(hkd rfl i).1.trans (ht i).1, (ht i).2.trans (hkd rfl i).2⟩
  | box B =>
    simp only [Format.khits, Option.some_inj]
    rw [kdopHits_iff]
    cases g with
    | point q =>
      simp only [Format.khits, Option.some_inj] at ht
      have hq := (intersects_point_box q B).mp ht
      exact fun i => ⟨(hpt rfl i).1.trans (F.mem_kexpandBox _ B hq i).2, (F.mem_kexpandBox _ B hq i).1.trans (hpt rfl i).2⟩
    | box C =>
      simp only [Format.khits, Option.some_inj] at ht
      obtain ⟨x, hx, hx'⟩ := (intersects_box_box B C hQ hg).mp ht
      exact fun i => ⟨(hbx rfl x hx' i).1.trans (F.mem_kexpandBox _ B hx i).2, (F.mem_kexpandBox _ B hx i).1.trans (hbx rfl x hx' i).2⟩
    | kdop l =>
      simp only [Format.khits, Option.some_inj] at ht
      rw [kdopHits_iff] at ht
      exact fun i => ⟨(hkd rfl i).1.trans (ht i).1, (ht i).2.trans (hkd rfl i).2⟩
  | kdop k =>
    simp only [Format.khits, Option.some_inj]
    rw [kdopHits_iff]
    cases g with
    | point q =>
      simp only [Format.khits, Option.some_inj] at ht
      rw [F.pointHits_iff] at ht
      exact fun i => ⟨(ht i).1.trans (hpt rfl i).2, (hpt rfl i).1.trans (ht i).2⟩
    | box C =>
      simp only [Format.khits, Option.some_inj] at ht
      rw [kdopHits_iff] at ht
      exact fun i => ⟨(ht i).1.trans (hle i).2, (hle i).1.trans (ht i).2⟩
    | kdop l =>
      simp only [Format.khits, Option.some_inj] at ht
      rw [kdopHits_iff] at ht
      exact fun i => ⟨(ht i).1.trans (hkd rfl i).2, (hkd rfl i).1.trans (ht i).2⟩

lemma KScene.monotone {S : KScene f} {F : Format} (h : S.Valid F) {Q : KG f} (hQ : Q.Valid) :
    Traversal.Monotone (S.input F).vol (S.leafTest F Q) (F.knodeTest Q) := by
  intro i v hv ht
  unfold Format.knodeTest
  unfold KScene.leafTest at ht
  exact decide_eq_true (F.khits_mono hQ (h.at i) (of_decide_eq_true ht) hv)

/-! ## Property theorems -/

/-- **C81.** A spatial query on a tree with k-DOPs as bounding volumes, built under any schedule, calls the callback exactly once for each stored
value that intersects the query according to `intersects`, and for no other, in every arithmetic: rounding of projections never loses a value. -/
theorem spatial_query_kdop (S : KScene f) (F : Format) (h : S.Valid F) (Q : KG f) (hQ : Q.Valid) (sched : List ℕ)
    (hf : (S.input F).Finished sched) (fuel : ℕ) (hfuel : 2 * S.geo.length ≤ fuel) :
    ∃ calls, Traversal.spatialQuery ((S.input F).build sched) (S.leafTest F Q) (F.knodeTest Q) (fun _ => false) fuel = .done calls ∧
      calls.Nodup ∧ ∀ i, i ∈ calls ↔ i < S.geo.length ∧ F.khits S.M Q (S.at i) = some true := by
  obtain ⟨calls, h1, h2⟩ := Traversal.spatial_query_exact (S.input F) h.input (S.leafTest F Q) (F.knodeTest Q) (S.monotone h hQ) sched hf fuel hfuel
  have hst : (S.input F).stored = List.range S.geo.length := by
    unfold Input.stored
    exact List.map_id _
  rw [hst] at h2
  refine ⟨calls, h1, h2.nodup_iff.mpr (List.nodup_range.filter _), fun i => ?_⟩
  rw [h2.mem_iff, List.mem_filter, List.mem_range]
  exact and_congr_right (fun _ => decide_eq_true_iff)

/-- The points of a point or a box. -/
def KG.points : KG f → Set (Pt ℝ f.dim)
  | .point p => {p}
  | .box B => B.set
  | .kdop _ => ∅

/-- **C81.** For points and boxes the answer is exact although the volumes of the tree are rounded: a query with a box on a tree with k-DOPs
returns the stored points and boxes which have a point in common with it. -/
theorem box_query_kdop (S : KScene f) (F : Format) (h : S.Valid F) (hs : ∀ g ∈ S.geo, ∀ k, g ≠ .kdop k) (B : Box ℝ f.dim) (hB : B.Valid)
    (sched : List ℕ) (hf : (S.input F).Finished sched) (fuel : ℕ) (hfuel : 2 * S.geo.length ≤ fuel) :
    ∃ calls, Traversal.spatialQuery ((S.input F).build sched) (S.leafTest F (.box B)) (F.knodeTest (.box B)) (fun _ => false) fuel = .done calls ∧
      calls.Nodup ∧ ∀ i, i ∈ calls ↔ i < S.geo.length ∧ (B.set ∩ (S.at i).points).Nonempty := by
  obtain ⟨calls, h1, h2, h3⟩ := spatial_query_kdop S F h (.box B) hB sched hf fuel hfuel
  refine ⟨calls, h1, h2, fun i => (h3 i).trans (and_congr_right fun hi => ?_)⟩
  have hmem : S.at i ∈ S.geo := by
    unfold KScene.at; rw [List.getD_eq_getElem _ _ hi]; exact List.getElem_mem hi
  have hv := h.at i
  have hk := hs _ hmem
  generalize S.at i = g at hv hk
  cases g with
  | point p =>
    simp only [Format.khits, Option.some_inj, KG.points]
    rw [intersects_point_box, Set.inter_singleton_nonempty]
  | box C =>
    simp only [Format.khits, Option.some_inj, KG.points]
    exact intersects_box_box B C hB hv
  | kdop k => exact absurd rfl (hk k)

/-- Arithmetic without rounding. -/
def Format.exact : Format where
  rnd := fun x => (x : EReal)
  mono := EReal.coe_strictMono.monotone
  neg := fun x => EReal.coe_neg x
  idem := fun _ _ h => by rw [← h]
  fma := false

/-- A k-DOP of real numbers. -/
def toE (k : Kdop ℝ f) : Kdop EReal f := ⟨fun i => (k.lo i : EReal), fun i => (k.hi i : EReal)⟩

lemma proj_exact (p : Pt ℝ f.dim) (i : Fin f.n) : Format.exact.proj p i = ((∑ d, p d * f.directions i d : ℝ) : EReal) := by
  have key : ∀ (ds : List (Fin f.dim)) (s : ℝ),
      ds.foldl (fun s d => Format.exact.addTo s (p d * f.directions i d)) (s : EReal)
        = ((s + (ds.map (fun d => p d * f.directions i d)).sum : ℝ) : EReal) := by
    intro ds
    induction ds with
    | nil => intro s; simp
    | cons d ds ih =>
      intro s
      have : Format.exact.addTo (s : EReal) (p d * f.directions i d) = ((s + p d * f.directions i d : ℝ) : EReal) := by
        unfold Format.addTo
        rw [if_neg (EReal.coe_ne_top s), if_neg (EReal.coe_ne_bot s)]
        rfl
      rw [List.foldl_cons, this, ih, List.map_cons, List.sum_cons, add_assoc]
  have hsum : ∑ d, p d * f.directions i d = ((List.finRange f.dim).map (fun d => p d * f.directions i d)).sum := by
    rw [← List.ofFn_eq_map, List.sum_ofFn]
  rw [hsum]
  unfold Format.proj
  generalize List.finRange f.dim = l
  cases l with
  | nil => simp
  | cons d0 ds => dsimp only; rw [key, List.map_cons, List.sum_cons]

/-- **C81.** In exact arithmetic a query with a k-DOP returns exactly the stored points in it. -/
theorem kdop_query_points (S : KScene f) (h : S.Valid Format.exact) (pt : ℕ → Pt ℝ f.dim) (hs : ∀ i < S.geo.length, S.at i = .point (pt i))
    (k : Kdop ℝ f) (sched : List ℕ) (hf : (S.input Format.exact).Finished sched) (fuel : ℕ) (hfuel : 2 * S.geo.length ≤ fuel) :
    ∃ calls, Traversal.spatialQuery ((S.input Format.exact).build sched) (S.leafTest Format.exact (.kdop (toE k)))
        (Format.exact.knodeTest (.kdop (toE k))) (fun _ => false) fuel = .done calls ∧
      calls.Nodup ∧ ∀ i, i ∈ calls ↔ i < S.geo.length ∧ pt i ∈ k.set := by
  obtain ⟨calls, h1, h2, h3⟩ := spatial_query_kdop S Format.exact h (.kdop (toE k)) trivial sched hf fuel hfuel
  refine ⟨calls, h1, h2, fun i => (h3 i).trans (and_congr_right fun hi => ?_)⟩
  rw [hs i hi]
  simp only [Format.khits, Option.some_inj]
  rw [Format.pointHits_iff]
  refine forall_congr' fun j => ?_
  rw [proj_exact]
  exact and_congr EReal.coe_le_coe_iff EReal.coe_le_coe_iff

/-! ## Non-vacuity: two points and a box, with octagons -/

def exampleK : KScene .d2k8 where
  geo := [.point ![0, 0], .box ⟨![1, 1], ![2, 3]⟩, .point ![3, 4]]
  M := 1000
  code := fun i => BitVec.ofNat 64 i
  perm := fun i => i

theorem exampleK_valid (F : Format) : exampleK.Valid F := by
  refine ⟨⟨by decide, ?_, ⟨?_, ?_⟩, ?_⟩, ?_⟩
  · show (3 : ℕ) ≤ 2 ^ 63; norm_num
  · show (List.map (fun i => i) (List.range 3)).Perm (List.range 3); decide
  · intro i hi
    have : i + 1 < 3 := hi
    show (BitVec.ofNat 64 i).toNat ≤ (BitVec.ofNat 64 (i + 1)).toNat
    have : i = 0 ∨ i = 1 := by omega
    rcases this with rfl | rfl <;> decide
  · show ∀ i < 3, (BitVec.ofNat 64 i).toNat < 2 ^ 63
    intro i hi
    rw [BitVec.toNat_ofNat]
    exact (Nat.mod_le _ _).trans_lt (by omega)
  · intro g hg
    simp only [exampleK, List.mem_cons, List.not_mem_nil, or_false] at hg
    rcases hg with rfl | rfl | rfl
    · trivial
    · intro d; fin_cases d <;> simp
    · trivial

example : ∃ sched, (exampleK.input Format.exact).Finished sched := by
  obtain ⟨s, hs⟩ := Construction.exists_complete _ ((exampleK_valid Format.exact).input.keys (by decide))
  exact ⟨s, fun _ => hs⟩

end ArborX.Fp
