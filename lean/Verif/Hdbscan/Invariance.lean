import Verif.Hdbscan.Cut
import Verif.Hdbscan.Unique
import Verif.Boruvka.Unique
import Verif.Fp.DistDbscan
import Mathlib.Data.Set.Function

/-!
# Clusterings and trees only depend on the pairwise distances (C90)

Two calls on two sets of points, such that a renumbering takes the distances of the second set to those of the first: the same points in a different
order, moved, rotated or reflected. The trees, the schedules and the codes of the two calls have nothing to do with each other.
-/

namespace ArborX

/-! ## Specification -/

/-- `σ` numbers `n` points in a different way. -/
def Renumbering (n : ℕ) (σ : ℕ → ℕ) : Prop := Set.BijOn σ (Set.Iio n) (Set.Iio n)

/-! ## Lemmas -/

lemma Renumbering.lt {n : ℕ} {σ : ℕ → ℕ} (h : Renumbering n σ) {i : ℕ} (hi : i < n) : σ i < n := h.mapsTo hi

lemma Renumbering.inj {n : ℕ} {σ : ℕ → ℕ} (h : Renumbering n σ) {i j : ℕ} (hi : i < n) (hj : j < n) (e : σ i = σ j) : i = j := h.injOn hi hj e

lemma Renumbering.inverse {n : ℕ} {σ : ℕ → ℕ} (h : Renumbering n σ) :
    ∃ τ, Renumbering n τ ∧ (∀ i < n, τ (σ i) = i) ∧ ∀ i < n, σ (τ i) = i := by
  classical
  have hs : ∀ j, ∃ i, j < n → i < n ∧ σ i = j := by
    intro j
    by_cases hj : j < n
    · obtain ⟨i, hi, e⟩ := h.surjOn (show j ∈ Set.Iio n from hj)
      exact ⟨i, fun _ => ⟨hi, e⟩⟩
    · exact ⟨0, fun h => absurd h hj⟩
  choose τ hτ using hs
  have hl : ∀ i < n, τ (σ i) = i := fun i hi => h.inj (hτ _ (h.lt hi)).1 hi (hτ _ (h.lt hi)).2
  refine ⟨τ, ⟨fun j hj => (hτ j hj).1, fun a ha b hb e => ?_, fun i hi => ⟨σ i, h.lt hi, hl i hi⟩⟩, hl, fun j hj => (hτ j hj).2⟩
  rw [← (hτ a ha).2, ← (hτ b hb).2, e]

lemma Renumbering.perm {n : ℕ} {σ : ℕ → ℕ} (h : Renumbering n σ) : ((List.range n).map σ).Perm (List.range n) := by
  rw [List.perm_ext_iff_of_nodup]
  · intro j
    rw [List.mem_map, List.mem_range]
    constructor
    · rintro ⟨i, hi, rfl⟩
      exact h.lt (List.mem_range.mp hi)
    · intro hj
      obtain ⟨i, hi, e⟩ := h.surjOn (show j ∈ Set.Iio n from hj)
      exact ⟨i, List.mem_range.mpr hi, e⟩
  · exact List.nodup_range.map_on fun a ha b hb e => h.inj (List.mem_range.mp ha) (List.mem_range.mp hb) e
  · exact List.nodup_range

/-- Counting does not depend on the numbering. -/
lemma Renumbering.countP {n : ℕ} {σ : ℕ → ℕ} (h : Renumbering n σ) {p p' : ℕ → Bool} (hp : ∀ i < n, p' i = p (σ i)) :
    (List.range n).countP p' = (List.range n).countP p := by
  rw [← h.perm.countP_eq (p := p), List.countP_map]
  exact List.countP_congr fun i hi => by rw [hp i (List.mem_range.mp hi)]; rfl

namespace Dbscan

variable {n m : ℕ} {σ : ℕ → ℕ} {near near' : ℕ → ℕ → Bool}

lemma core_renumber (h : Renumbering n σ) (hn : ∀ i < n, ∀ j < n, near' i j = near (σ i) (σ j)) {i : ℕ} (hi : i < n) :
    Core n near' m i ↔ Core n near m (σ i) := by
  unfold Core
  rw [← List.countP_eq_length_filter, ← List.countP_eq_length_filter, h.countP fun j hj => hn i hi j hj]

lemma chained_renumber_mp (h : Renumbering n σ) (hn : ∀ i < n, ∀ j < n, near' i j = near (σ i) (σ j)) {i j : ℕ} (hc : Chained n near' m i j) :
    Chained n near m (σ i) (σ j) := by
  induction hc with
  | refl => exact .refl
  | tail _ hl ih =>
    obtain ⟨h1, h2, h3, h4, h5⟩ := hl
    exact .tail ih ⟨h.lt h1, h.lt h2, (core_renumber h hn h1).mp h3, (core_renumber h hn h2).mp h4, by rw [← hn _ h1 _ h2]; exact h5⟩

lemma chained_renumber (h : Renumbering n σ) (hn : ∀ i < n, ∀ j < n, near' i j = near (σ i) (σ j)) {i j : ℕ} (hi : i < n) (hj : j < n) :
    Chained n near' m i j ↔ Chained n near m (σ i) (σ j) := by
  refine ⟨chained_renumber_mp h hn, fun hc => ?_⟩
  obtain ⟨τ, hτ, h1, h2⟩ := h.inverse
  have := chained_renumber_mp (near := near') (near' := near) hτ
    (fun a ha b hb => by rw [hn _ (hτ.lt ha) _ (hτ.lt hb), h2 a ha, h2 b hb]) hc
  rwa [h1 i hi, h1 j hj] at this

lemma nearCore_renumber (h : Renumbering n σ) (hn : ∀ i < n, ∀ j < n, near' i j = near (σ i) (σ j)) {i : ℕ} (hi : i < n) :
    NearCore n near' m i ↔ NearCore n near m (σ i) := by
  constructor
  · rintro ⟨j, hj, hc, hij⟩
    exact ⟨σ j, h.lt hj, (core_renumber h hn hj).mp hc, by rw [← hn i hi j hj]; exact hij⟩
  · rintro ⟨j, hj, hc, hij⟩
    obtain ⟨a, ha, rfl⟩ := h.surjOn (show j ∈ Set.Iio n from hj)
    exact ⟨a, ha, (core_renumber h hn ha).mpr hc, by rw [hn i hi a ha]; exact hij⟩

lemma IsDBSCANStar.core_iff {lab : ℕ → ℤ} (h : IsDBSCANStar n near m lab) {i : ℕ} (hi : i < n) : 0 ≤ lab i ↔ Core n near m i := by
  refine ⟨fun h0 => ?_, h.core i hi⟩
  by_contra hc
  rw [h.noise i hi hc] at h0
  exact absurd h0 (by norm_num)

lemma IsDBSCAN.cluster_iff {lab : ℕ → ℤ} (h : IsDBSCAN n near m lab) {i : ℕ} (hi : i < n) :
    0 ≤ lab i ↔ Core n near m i ∨ NearCore n near m i := by
  constructor
  · intro h0
    by_contra hc
    rw [not_or] at hc
    rw [h.noise i hi hc.1 hc.2] at h0
    exact absurd h0 (by norm_num)
  · intro hc
    by_cases hi' : Core n near m i
    · exact h.core i hi hi'
    · obtain ⟨j, hj, hjc, -, e⟩ := h.border i hi hi' (hc.resolve_left hi')
      rw [e]; exact h.core j hj hjc

/-- The clusters of DBSCAN* do not depend on the numbering. -/
lemma star_renumber {lab lab' : ℕ → ℤ} (h : Renumbering n σ) (hn : ∀ i < n, ∀ j < n, near' i j = near (σ i) (σ j)) (hl : IsDBSCANStar n near m lab)
    (hl' : IsDBSCANStar n near' m lab') :
    (∀ u < n, 0 ≤ lab' u ↔ 0 ≤ lab (σ u)) ∧ ∀ u < n, ∀ v < n, lab' u = lab' v ↔ lab (σ u) = lab (σ v) := by
  have h0 : ∀ u < n, 0 ≤ lab' u ↔ 0 ≤ lab (σ u) := fun u hu => by
    rw [hl'.core_iff hu, hl.core_iff (h.lt hu), core_renumber h hn hu]
  refine ⟨h0, fun u hu v hv => ?_⟩
  by_cases cu : Core n near' m u
  · by_cases cv : Core n near' m v
    · rw [hl'.clusters u hu v hv cu cv, hl.clusters _ (h.lt hu) _ (h.lt hv) ((core_renumber h hn hu).mp cu) ((core_renumber h hn hv).mp cv),
        chained_renumber h hn hu hv]
    · have e1 := hl'.noise v hv cv
      have e2 := hl.noise _ (h.lt hv) (fun c => cv ((core_renumber h hn hv).mpr c))
      have e3 := hl'.core u hu cu
      have e4 := hl.core _ (h.lt hu) ((core_renumber h hn hu).mp cu)
      rw [e1, e2]
      constructor <;> intro e <;> omega
  · have e1 := hl'.noise u hu cu
    have e2 := hl.noise _ (h.lt hu) (fun c => cu ((core_renumber h hn hu).mpr c))
    rw [e1, e2]
    by_cases cv : Core n near' m v
    · have e3 := hl'.core v hv cv
      have e4 := hl.core _ (h.lt hv) ((core_renumber h hn hv).mp cv)
      constructor <;> intro e <;> omega
    · rw [hl'.noise v hv cv, hl.noise _ (h.lt hv) (fun c => cv ((core_renumber h hn hv).mpr c))]

/-- Neither do those of DBSCAN, as far as core points are concerned. -/
lemma dbscan_renumber {lab lab' : ℕ → ℤ} (h : Renumbering n σ) (hn : ∀ i < n, ∀ j < n, near' i j = near (σ i) (σ j)) (hl : IsDBSCAN n near m lab)
    (hl' : IsDBSCAN n near' m lab') :
    (∀ u < n, 0 ≤ lab' u ↔ 0 ≤ lab (σ u)) ∧ ∀ u < n, ∀ v < n, Core n near m (σ u) → Core n near m (σ v) → (lab' u = lab' v ↔ lab (σ u) = lab (σ v)) := by
  refine ⟨fun u hu => ?_, fun u hu v hv cu cv => ?_⟩
  · rw [hl'.cluster_iff hu, hl.cluster_iff (h.lt hu), core_renumber h hn hu, nearCore_renumber h hn hu]
  · rw [hl'.clusters u hu v hv ((core_renumber h hn hu).mpr cu) ((core_renumber h hn hv).mpr cv), hl.clusters _ (h.lt hu) _ (h.lt hv) cu cv,
      chained_renumber h hn hu hv]

end Dbscan

namespace Mst

variable {W : Type} [LinearOrder W] {n k : ℕ} {σ : ℕ → ℕ} {d d' : ℕ → ℕ → W}

lemma isCore_renumber (h : Renumbering n σ) (hd : ∀ i < n, ∀ j < n, d' i j = d (σ i) (σ j)) {p : ℕ} (hp : p < n) {r : W} (hc : IsCore d' n k p r) :
    IsCore d n k (σ p) r := by
  have hw : ∀ t, within d' n p t = within d n (σ p) t := by
    intro t
    unfold within
    exact h.countP fun q hq => by rw [hd p hp q hq]
  exact ⟨by rw [← hw]; exact hc.enough, fun t ht => by rw [← hw]; exact hc.least t ht⟩

/-- Mutual reachability distances do not depend on the numbering. -/
lemma mutualReach_renumber (h : Renumbering n σ) (hd : ∀ i < n, ∀ j < n, d' i j = d (σ i) (σ j)) {core core' : ℕ → W}
    (hc : ∀ p < n, IsCore d n k p (core p)) (hc' : ∀ p < n, IsCore d' n k p (core' p)) {i j : ℕ} (hi : i < n) (hj : j < n) :
    mutualReach d' core' i j = mutualReach d core (σ i) (σ j) := by
  unfold mutualReach
  rw [hd i hi j hj, Boruvka.core_unique (isCore_renumber h hd hi (hc' i hi)) (hc _ (h.lt hi)),
    Boruvka.core_unique (isCore_renumber h hd hj (hc' j hj)) (hc _ (h.lt hj))]

lemma conn_map {E : List (ℕ × ℕ)} (f : ℕ → ℕ) {u v : ℕ} (c : Graph.Conn E u v) : Graph.Conn (E.map (fun e => (f e.1, f e.2))) (f u) (f v) := by
  induction c with
  | rel a b h => exact .edge (List.mem_map.mpr ⟨_, h, rfl⟩)
  | refl a => exact .refl _ _
  | symm a b _ ih => exact ih.symm
  | trans a b c _ _ ih1 ih2 => exact ih1.trans ih2

lemma connects_map (h : Renumbering n σ) {E : List (ℕ × ℕ)} (hc : Graph.Connects n E) : Graph.Connects n (E.map (fun e => (σ e.1, σ e.2))) := by
  intro u hu v hv
  obtain ⟨a, ha, rfl⟩ := h.surjOn (show u ∈ Set.Iio n from hu)
  obtain ⟨b, hb, rfl⟩ := h.surjOn (show v ∈ Set.Iio n from hv)
  exact conn_map σ (hc a ha b hb)

/-- A renumbered minimum spanning tree is one. -/
lemma IsMst.renumber (h : Renumbering n σ) (hd : ∀ i < n, ∀ j < n, d' i j = d (σ i) (σ j)) {E : List (WeightedEdge W)} (hE : IsMst n d' E) :
    IsMst n d (E.map (fun e => ⟨σ e.source, σ e.target, e.weight⟩)) := by
  have hr : ∀ e ∈ E, e.source < n ∧ e.target < n := fun e he => hE.tree.range _ (List.mem_map.mpr ⟨e, he, rfl⟩)
  have hmap : (E.map (fun e => (⟨σ e.source, σ e.target, e.weight⟩ : WeightedEdge W))).map (fun e => (e.source, e.target)) =
      (E.map (fun e => (e.source, e.target))).map (fun e => (σ e.1, σ e.2)) := by
    rw [List.map_map, List.map_map]; rfl
  constructor
  · intro e he
    obtain ⟨f, hf, rfl⟩ := List.mem_map.mp he
    obtain ⟨h1, h2⟩ := hE.weights f hf
    obtain ⟨h3, h4⟩ := hr f hf
    exact ⟨fun e => h1 (h.inj h3 h4 e), by rw [← hd _ h3 _ h4]; exact h2⟩
  · rw [hmap]
    refine ⟨fun e he => ?_, by rw [List.length_map]; exact hE.tree.length, connects_map h hE.tree.connects⟩
    obtain ⟨f, hf, rfl⟩ := List.mem_map.mp he
    exact ⟨h.lt (hE.tree.range f hf).1, h.lt (hE.tree.range f hf).2⟩
  · intro T hT hc K _ _ _ val hm h0
    obtain ⟨τ, hτ, h1, h2⟩ := h.inverse
    have := hE.minimal (T.map (fun e => (τ e.1, τ e.2))) (fun e he => by
      obtain ⟨f, hf, rfl⟩ := List.mem_map.mp he
      exact ⟨hτ.lt (hT f hf).1, hτ.lt (hT f hf).2⟩) (connects_map hτ hc) K val hm h0
    rw [List.map_map] at this ⊢
    refine le_trans this (le_of_eq (congrArg List.sum (List.map_congr_left fun e he => ?_)))
    show val (d' (τ e.1) (τ e.2)) = val (d e.1 e.2)
    rw [hd _ (hτ.lt (hT e he).1) _ (hτ.lt (hT e he).2), h2 _ (hT e he).1, h2 _ (hT e he).2]

/-- If the weights are distinct, then the weights of a tree determine its edges. -/
lemma IsMst.edges_perm (hdist : ∀ p < n, ∀ q < n, ∀ p' < n, ∀ q' < n, p ≠ q → p' ≠ q' → d p q = d p' q' → s(p, q) = s(p', q'))
    {E F : List (WeightedEdge W)} (hE : IsMst n d E) (hF : IsMst n d F) (h : (E.map (·.weight)).Perm (F.map (·.weight))) :
    (E.map Boruvka.undirected).Perm (F.map Boruvka.undirected) := by
  classical
  have hs : ∀ w, ∃ e : Sym2 ℕ, ∀ p < n, ∀ q < n, p ≠ q → d p q = w → s(p, q) = e := by
    intro w
    by_cases hw : ∃ p < n, ∃ q < n, p ≠ q ∧ d p q = w
    · obtain ⟨p, hp, q, hq, hpq, e⟩ := hw
      exact ⟨s(p, q), fun p' hp' q' hq' hpq' e' => hdist p' hp' q' hq' p hp q hq hpq' hpq (e'.trans e.symm)⟩
    · exact ⟨s(0, 0), fun p hp q hq hpq e => absurd ⟨p, hp, q, hq, hpq, e⟩ hw⟩
  choose g hg using hs
  have key : ∀ {E : List (WeightedEdge W)}, IsMst n d E → E.map Boruvka.undirected = (E.map (·.weight)).map (fun w => (g w, w)) := by
    intro E hE
    rw [List.map_map]
    refine List.map_congr_left fun e he => ?_
    obtain ⟨h1, h2⟩ := hE.weights e he
    obtain ⟨h3, h4⟩ := hE.tree.range _ (List.mem_map.mpr ⟨e, he, rfl⟩)
    show (s(e.source, e.target), e.weight) = (g e.weight, e.weight)
    rw [hg e.weight e.source h3 e.target h4 h1 h2.symm]
  rw [key hE, key hF]
  exact h.map _

end Mst

namespace Hdbscan

open Boruvka
open Dendrogram (Above)
open Mst (IsCore mutualReach)
open BVH (Input)

variable {W : Type} [LinearOrder W] {n k : ℕ} {σ : ℕ → ℕ} {d d' : ℕ → ℕ → W}

lemma linked_renumber_mp (h : Renumbering n σ) (hd : ∀ i < n, ∀ j < n, d' i j = d (σ i) (σ j)) {t : W} {u v : ℕ} (hl : Linked n d' t u v) :
    Linked n d t (σ u) (σ v) := by
  induction hl with
  | rel a b hab => exact .rel _ _ ⟨h.lt hab.1, h.lt hab.2.1, by rw [← hd _ hab.1 _ hab.2.1]; exact hab.2.2⟩
  | refl a => exact .refl _
  | symm a b _ ih => exact .symm _ _ ih
  | trans a b c _ _ ih1 ih2 => exact .trans _ _ _ ih1 ih2

lemma linked_renumber (h : Renumbering n σ) (hd : ∀ i < n, ∀ j < n, d' i j = d (σ i) (σ j)) {t : W} {u v : ℕ} (hu : u < n) (hv : v < n) :
    Linked n d' t u v ↔ Linked n d t (σ u) (σ v) := by
  refine ⟨linked_renumber_mp h hd, fun hl => ?_⟩
  obtain ⟨τ, hτ, h1, h2⟩ := h.inverse
  have := linked_renumber_mp (d := d') (d' := d) hτ (fun a ha b hb => by rw [hd _ (hτ.lt ha) _ (hτ.lt hb), h2 a ha, h2 b hb]) hl
  rwa [h1 u hu, h1 v hv] at this

/-- The number of clusters at a height does not depend on the numbering. -/
lemma clusters_renumber (h : Renumbering n σ) (hd : ∀ i < n, ∀ j < n, d' i j = d (σ i) (σ j)) (t : W) :
    Nat.card (Quot (fun a b : Fin n => Linked n d' t a b)) = Nat.card (Quot (fun a b : Fin n => Linked n d t a b)) := by
  obtain ⟨τ, hτ, h1, h2⟩ := h.inverse
  let e : Fin n ≃ Fin n := ⟨fun i => ⟨σ i, h.lt i.2⟩, fun i => ⟨τ i, hτ.lt i.2⟩, fun i => Fin.ext (h1 i i.2), fun i => Fin.ext (h2 i i.2)⟩
  exact Nat.card_congr (Quot.congr e fun a b => linked_renumber h hd a.2 b.2)

/-- The heights of dendrograms of renumbered points agree up to their order, and so do the clusters at each height. -/
lemma IsDendrogram.renumber (hn : 2 ≤ n) (h : Renumbering n σ) (hd : ∀ i < n, ∀ j < n, d' i j = d (σ i) (σ j)) {par par' : ℕ → Option ℤ}
    {height height' : ℕ → Option W} (H : IsDendrogram n d par height) (H' : IsDendrogram n d' par' height') :
    ((List.range (n - 1)).map height).Perm ((List.range (n - 1)).map height') ∧
    ∀ u < n, ∀ v < n, u ≠ v → ∀ t, Merged n par' height' t u v ↔ Merged n par height t (σ u) (σ v) := by
  refine ⟨?_, fun u hu v hv huv t => ?_⟩
  · refine heights_perm_of_card H H' fun t => ?_
    have h1 := H.count hn t
    have h2 := H'.count hn t
    rw [clusters_renumber h hd t] at h2
    omega
  · unfold Merged
    rw [← H'.linkage u hu v hv huv t, ← H.linkage _ (h.lt hu) _ (h.lt hv) (fun e => huv (h.inj hu hv e)) t]
    exact linked_renumber h hd hu hv

end Hdbscan

end ArborX
