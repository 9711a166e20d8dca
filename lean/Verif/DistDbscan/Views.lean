import Verif.Dbscan.Spec
import Mathlib.Logic.Relation
import Mathlib.Data.List.Nodup
import Mathlib.Data.List.Perm.Subperm

/-!
# Clusterings of views of a set of points

`N` points are distributed over processes; process `r` sees the points `ι r 0, ι r 1, ...`, among them its own points and their
neighbours, and clusters what it sees. This file relates the labels it finds to the clusters of all points.
-/

namespace ArborX.DistDbscan

open Dbscan

/-- A clustering in the sense of DBSCAN or of DBSCAN*. -/
def IsClustering (star : Bool) (n : ℕ) (near : ℕ → ℕ → Bool) (minPts : ℕ) (lab : ℕ → ℤ) : Prop :=
  if star then IsDBSCANStar n near minPts lab else IsDBSCAN n near minPts lab

/-- What the processes see and which labels they find. -/
structure Views (N : ℕ) (near : ℕ → ℕ → Bool) (minPts : ℕ) (star : Bool) (P : ℕ) (own : ℕ → ℕ) (m : ℕ → ℕ) (ι : ℕ → ℕ → ℕ)
    (lab : ℕ → ℕ → ℤ) : Prop where
  symm : ∀ i j, near i j = near j i
  refl : ∀ i, near i i = true
  two : 2 ≤ minPts
  lt : ∀ r, ∀ i < m r, ι r i < N
  inj : ∀ r, ∀ i < m r, ∀ j < m r, ι r i = ι r j → i = j
  seesOwn : ∀ g < N, ∃ i < m (own g), ι (own g) i = g
  one : ∀ g < N, ∀ h < N, near g h = true → ∃ j < m (own g), ι (own g) j = h
  hops : minPts ≠ 2 → ∀ g < N, ∀ h < N, ∀ k < N, near g h = true → near h k = true → ∃ j < m (own g), ι (own g) j = k
  owner : ∀ g < N, own g < P
  clustering : ∀ r < P, IsClustering star (m r) (fun i j => near (ι r i) (ι r j)) minPts (lab r)
  canonical : ∀ r < P, Canonical (m r) (fun i j => near (ι r i) (ι r j)) minPts (lab r)

/-- The label as the index of a point among all points. -/
def glob (ι : ℕ → ℕ → ℕ) (lab : ℕ → ℕ → ℤ) (r i : ℕ) : ℤ := if lab r i = -1 then -1 else (ι r (lab r i).toNat : ℤ)

variable {N : ℕ} {near : ℕ → ℕ → Bool} {minPts : ℕ} {star : Bool} {P : ℕ} {own m : ℕ → ℕ} {ι : ℕ → ℕ → ℕ} {lab : ℕ → ℕ → ℤ}

namespace Views

lemma chained_symm (W : Views N near minPts star P own m ι lab) {i j : ℕ} (h : Chained N near minPts i j) : Chained N near minPts j i := by
  induction h with
  | refl => exact .refl
  | tail _ h ih =>
    obtain ⟨h1, h2, h3, h4, h5⟩ := h
    exact Relation.ReflTransGen.head ⟨h2, h1, h4, h3, by rw [W.symm]; exact h5⟩ ih

lemma core_mono (W : Views N near minPts star P own m ι lab) {r i : ℕ}
    (h : Core (m r) (fun i j => near (ι r i) (ι r j)) minPts i) : Core N near minPts (ι r i) := by
  unfold Core at *
  refine le_trans h ?_
  rw [← List.length_map (f := ι r)]
  apply List.Subperm.length_le
  apply List.subperm_of_subset
  · apply List.Nodup.map_on
    · intro x hx y hy hxy
      have hx := List.mem_range.mp (List.mem_filter.mp hx).1
      have hy := List.mem_range.mp (List.mem_filter.mp hy).1
      exact W.inj r x hx y hy hxy
    · exact List.nodup_range.filter _
  · intro x hx
    obtain ⟨j, hj, rfl⟩ := List.mem_map.mp hx
    have := List.mem_filter.mp hj
    exact List.mem_filter.mpr ⟨List.mem_range.mpr (W.lt r j (List.mem_range.mp this.1)), this.2⟩

/-- A point all neighbours of which are seen. -/
lemma core_of_seen {r i : ℕ} (hs : ∀ k < N, near (ι r i) k = true → ∃ j < m r, ι r j = k) (h : Core N near minPts (ι r i)) :
    Core (m r) (fun i j => near (ι r i) (ι r j)) minPts i := by
  unfold Core at *
  refine le_trans h ?_
  rw [← List.length_map (f := ι r) (as := (List.range (m r)).filter _)]
  apply List.Subperm.length_le
  apply List.subperm_of_subset
  · exact List.nodup_range.filter _
  · intro x hx
    have hx := List.mem_filter.mp hx
    obtain ⟨j, hj, rfl⟩ := hs x (List.mem_range.mp hx.1) hx.2
    exact List.mem_map.mpr ⟨j, List.mem_filter.mpr ⟨List.mem_range.mpr hj, hx.2⟩, rfl⟩

/-- Core points near an own point are core points of the view. -/
lemma core_near (W : Views N near minPts star P own m ι lab) {g : ℕ} (hg : g < N) {j : ℕ} (hj : j < m (own g))
    (hn : near g (ι (own g) j) = true) (h : Core N near minPts (ι (own g) j)) :
    Core (m (own g)) (fun i j => near (ι (own g) i) (ι (own g) j)) minPts j := by
  by_cases h2 : minPts = 2
  · by_cases he : ι (own g) j = g
    · refine core_of_seen (fun k hk hnk => W.one g hg k hk ?_) h
      rw [he] at hnk; exact hnk
    · obtain ⟨i, hi, hig⟩ := W.seesOwn g hg
      have hij : i ≠ j := fun e => he (by rw [← e]; exact hig)
      unfold Core
      rw [h2]
      have : ([i, j] : List ℕ).length ≤ ((List.range (m (own g))).filter (fun k => near (ι (own g) j) (ι (own g) k))).length := by
        apply List.Subperm.length_le
        apply List.subperm_of_subset
        · simp [hij]
        · intro x hx
          rcases List.mem_cons.mp hx with rfl | hx
          · refine List.mem_filter.mpr ⟨List.mem_range.mpr hi, ?_⟩
            rw [hig, W.symm]; exact hn
          · rw [List.mem_singleton.mp hx]
            exact List.mem_filter.mpr ⟨List.mem_range.mpr hj, W.refl _⟩
      exact this
  · exact core_of_seen (fun k hk hnk => W.hops h2 g hg _ (W.lt _ _ hj) k hk hn hnk) h

lemma core_own (W : Views N near minPts star P own m ι lab) {g : ℕ} (hg : g < N) {i : ℕ} (hi : i < m (own g)) (he : ι (own g) i = g)
    (h : Core N near minPts g) : Core (m (own g)) (fun i j => near (ι (own g) i) (ι (own g) j)) minPts i :=
  W.core_near hg hi (by rw [he]; exact W.refl _) (by rw [he]; exact h)

lemma chained_mono (W : Views N near minPts star P own m ι lab) {r i j : ℕ}
    (h : Chained (m r) (fun i j => near (ι r i) (ι r j)) minPts i j) : Chained N near minPts (ι r i) (ι r j) := by
  induction h with
  | refl => exact .refl
  | tail _ h ih =>
    obtain ⟨h1, h2, h3, h4, h5⟩ := h
    exact ih.tail ⟨W.lt _ _ h1, W.lt _ _ h2, W.core_mono h3, W.core_mono h4, h5⟩

/-- The label of a core point of the view. -/
lemma glob_core (W : Views N near minPts star P own m ι lab) {r : ℕ} (hr : r < P) {j : ℕ} (hj : j < m r)
    (h : Core (m r) (fun i j => near (ι r i) (ι r j)) minPts j) :
    ∃ c < N, glob ι lab r j = (c : ℤ) ∧ lab r j ≠ -1 ∧ Core N near minPts c ∧ Chained N near minPts (ι r j) c := by
  obtain ⟨k, h1, h2, h3, h4, -⟩ := W.canonical r hr j hj h
  have hne : lab r j ≠ -1 := by rw [h1]; omega
  refine ⟨ι r k, W.lt _ _ h2, ?_, hne, W.core_mono h3, W.chained_mono h4⟩
  unfold glob
  rw [if_neg hne, h1]
  simp

lemma glob_eq_neg (W : Views N near minPts star P own m ι lab) {r i : ℕ} : glob ι lab r i = -1 ↔ lab r i = -1 := by
  have := W.two
  unfold glob
  split_ifs with h
  · simp [h]
  · simp only [h]

/-- What a label means: it is a core point, of a cluster that has a core point near the point; if the point is a core point
then it is of this cluster. -/
lemma glob_sound (W : Views N near minPts star P own m ι lab) {r : ℕ} (hr : r < P) {i : ℕ} (hi : i < m r)
    (hl : glob ι lab r i ≠ -1) :
    ∃ c < N, glob ι lab r i = (c : ℤ) ∧ Core N near minPts c ∧ (Core N near minPts (ι r i) → Chained N near minPts (ι r i) c) ∧
      (star = true → Core N near minPts (ι r i)) ∧
      ∃ b < N, Core N near minPts b ∧ near (ι r i) b = true ∧ Chained N near minPts b c := by
  have hlab : lab r i ≠ -1 := fun h => hl (W.glob_eq_neg.mpr h)
  by_cases hc : Core (m r) (fun i j => near (ι r i) (ι r j)) minPts i
  · obtain ⟨c, h1, h2, -, h3, h4⟩ := W.glob_core hr hi hc
    exact ⟨c, h1, h2, h3, fun _ => h4, fun _ => W.core_mono hc, ι r i, W.lt _ _ hi, W.core_mono hc, W.refl _, h4⟩
  · have hcl := W.clustering r hr
    unfold IsClustering at hcl
    cases star
    · simp only [Bool.false_eq_true, if_false] at hcl
      by_cases hn : NearCore (m r) (fun i j => near (ι r i) (ι r j)) minPts i
      · obtain ⟨j, hj1, hj2, hj3, hj4⟩ := hcl.border i hi hc hn
        obtain ⟨c, h1, h2, -, h3, h4⟩ := W.glob_core hr hj1 hj2
        have hgl : glob ι lab r i = glob ι lab r j := by unfold glob; rw [hj4]
        refine ⟨c, h1, hgl.trans h2, h3, fun hg => ?_, fun h => by simp at h, ι r j, W.lt _ _ hj1, W.core_mono hj2, hj3, h4⟩
        exact Relation.ReflTransGen.head ⟨W.lt _ _ hi, W.lt _ _ hj1, hg, W.core_mono hj2, hj3⟩ h4
      · exact absurd (hcl.noise i hi hc hn) hlab
    · simp only [if_true] at hcl
      exact absurd (hcl.noise i hi hc) hlab

/-- The own points without label are the noise. -/
lemma glob_own (W : Views N near minPts star P own m ι lab) {g : ℕ} (hg : g < N) {i : ℕ} (hi : i < m (own g)) (he : ι (own g) i = g) :
    glob ι lab (own g) i = -1 ↔ ¬ Core N near minPts g ∧ (star = true ∨ ¬ NearCore N near minPts g) := by
  constructor
  · intro h
    have hlab := W.glob_eq_neg.mp h
    have hnc : ¬ Core N near minPts g := by
      intro hc
      obtain ⟨c, -, -, h3, -⟩ := W.glob_core (W.owner g hg) hi (W.core_own hg hi he hc)
      exact h3 hlab
    refine ⟨hnc, ?_⟩
    by_contra hcon
    push Not at hcon
    obtain ⟨hst, b, hb1, hb2, hb3⟩ := hcon
    have hst : star = false := by cases star <;> simp_all
    subst hst
    have hcl := W.clustering _ (W.owner g hg)
    unfold IsClustering at hcl
    simp only [Bool.false_eq_true, if_false] at hcl
    obtain ⟨j, hj1, rfl⟩ := W.one g hg b hb1 hb3
    have hjc := W.core_near hg hj1 hb3 hb2
    have hic : ¬ Core (m (own g)) (fun i j => near (ι (own g) i) (ι (own g) j)) minPts i := fun hc => hnc (he ▸ W.core_mono hc)
    obtain ⟨k, hk1, hk2, hk3, hk4⟩ := hcl.border i hi hic ⟨j, hj1, hjc, by beta_reduce; rw [he]; exact hb3⟩
    have := hcl.core k hk1 hk2
    rw [← hk4, hlab] at this
    omega
  · rintro ⟨hnc, h⟩
    by_contra hne
    obtain ⟨c, -, -, -, -, hst, b, hb1, hb2, hb3, -⟩ := W.glob_sound (W.owner g hg) hi hne
    rw [he] at hst hb3
    rcases h with h | h
    · exact hnc (hst h)
    · exact h ⟨b, hb1, hb2, hb3⟩

/-- Two core points near each other have the same label in the view of the owner of one of them. -/
lemma glob_link (W : Views N near minPts star P own m ι lab) {g h : ℕ} (hg : g < N) (hh : h < N) (hcg : Core N near minPts g)
    (hch : Core N near minPts h) (hn : near g h = true) {i : ℕ} (hi : i < m (own g)) (hig : ι (own g) i = g) :
    ∃ j < m (own g), ι (own g) j = h ∧ glob ι lab (own g) i = glob ι lab (own g) j := by
  obtain ⟨j, hj, rfl⟩ := W.one g hg h hh hn
  refine ⟨j, hj, rfl, ?_⟩
  have h1 := W.core_own hg hi hig hcg
  have h2 := W.core_near hg hj hn hch
  have hlink : Chained (m (own g)) (fun i j => near (ι (own g) i) (ι (own g) j)) minPts i j :=
    .single ⟨hi, hj, h1, h2, by beta_reduce; rw [hig]; exact hn⟩
  have hcl := W.clustering _ (W.owner g hg)
  unfold IsClustering at hcl
  have : lab (own g) i = lab (own g) j := by
    split_ifs at hcl
    · exact (hcl.clusters i hi j hj h1 h2).mpr hlink
    · exact (hcl.clusters i hi j hj h1 h2).mpr hlink
  unfold glob
  rw [this]

/-- A border point has the label of a core point near it. -/
lemma glob_border (W : Views N near minPts false P own m ι lab) {g : ℕ} (hg : g < N) (hnc : ¬ Core N near minPts g)
    (hn : NearCore N near minPts g) {i : ℕ} (hi : i < m (own g)) (hig : ι (own g) i = g) :
    ∃ j < m (own g), Core N near minPts (ι (own g) j) ∧ near g (ι (own g) j) = true ∧ glob ι lab (own g) i = glob ι lab (own g) j := by
  obtain ⟨b, hb1, hb2, hb3⟩ := hn
  obtain ⟨j, hj1, rfl⟩ := W.one g hg b hb1 hb3
  have hjc := W.core_near hg hj1 hb3 hb2
  have hic : ¬ Core (m (own g)) (fun i j => near (ι (own g) i) (ι (own g) j)) minPts i := fun hc => hnc (hig ▸ W.core_mono hc)
  have hcl := W.clustering _ (W.owner g hg)
  unfold IsClustering at hcl
  simp only [Bool.false_eq_true, if_false] at hcl
  obtain ⟨k, hk1, hk2, hk3, hk4⟩ := hcl.border i hi hic ⟨j, hj1, hjc, by beta_reduce; rw [hig]; exact hb3⟩
  refine ⟨k, hk1, W.core_mono hk2, by have h := hk3; beta_reduce at h; rw [hig] at h; exact h, ?_⟩
  unfold glob
  rw [hk4]

/-! ## After the merge -/

/-- `x` is a label that process `r` has found for the point `g`. -/
def Found (P : ℕ) (m : ℕ → ℕ) (ι : ℕ → ℕ → ℕ) (lab : ℕ → ℕ → ℤ) (g : ℕ) (x : ℤ) : Prop :=
  ∃ r < P, ∃ i < m r, ι r i = g ∧ glob ι lab r i = x ∧ x ≠ -1

/-- Joining labels of the same core point does not leave the cluster. -/
lemma joined_sound (W : Views N near minPts star P own m ι lab) {R : ℤ → ℤ → Prop}
    (hR : ∀ a b, R a b → ∃ g < N, Core N near minPts g ∧ Found P m ι lab g a ∧ Found P m ι lab g b) {a b : ℤ} (h : Relation.EqvGen R a b) :
    a = b ∨ ∃ c < N, ∃ d < N, a = (c : ℤ) ∧ b = (d : ℤ) ∧ Core N near minPts c ∧ Core N near minPts d ∧ Chained N near minPts c d := by
  induction h with
  | rel x y h =>
    obtain ⟨g, hg, hc, ⟨r, hr, i, hi, h1, h2, h3⟩, s, hs, j, hj, k1, k2, k3⟩ := hR x y h
    obtain ⟨c, hc1, hc2, hc3, hc4, -⟩ := W.glob_sound hr hi (by rw [h2]; exact h3)
    obtain ⟨d, hd1, hd2, hd3, hd4, -⟩ := W.glob_sound hs hj (by rw [k2]; exact k3)
    rw [h1] at hc4
    rw [k1] at hd4
    exact Or.inr ⟨c, hc1, d, hd1, h2 ▸ hc2, k2 ▸ hd2, hc3, hd3, (W.chained_symm (hc4 hc)).trans (hd4 hc)⟩
  | refl x => exact Or.inl rfl
  | symm x y _ ih =>
    rcases ih with ih | ⟨c, h1, d, h2, h3, h4, h5, h6, h7⟩
    · exact Or.inl ih.symm
    · exact Or.inr ⟨d, h2, c, h1, h4, h3, h6, h5, W.chained_symm h7⟩
  | trans x y z _ _ ih1 ih2 =>
    rcases ih1 with rfl | ⟨c, h1, d, h2, h3, h4, h5, h6, h7⟩
    · exact ih2
    · rcases ih2 with rfl | ⟨c', k1, d', k2, k3, k4, k5, k6, k7⟩
      · exact Or.inr ⟨c, h1, d, h2, h3, h4, h5, h6, h7⟩
      · have : d = c' := by
          have := h4.symm.trans k3
          exact_mod_cast this
        subst this
        exact Or.inr ⟨c, h1, d', k2, h3, k4, h5, k6, h7.trans k7⟩

/-- A label found for a core point is the number of a core point of its cluster. -/
lemma found_core (W : Views N near minPts star P own m ι lab) {g : ℕ} (hg : Core N near minPts g) {a : ℤ} (h : Found P m ι lab g a) :
    ∃ c : ℕ, a = (c : ℤ) ∧ Chained N near minPts g c := by
  obtain ⟨r, hr, i, hi, h1, h2, h3⟩ := h
  obtain ⟨c, -, hc2, -, hc4, -⟩ := W.glob_sound hr hi (by rw [h2]; exact h3)
  rw [h1] at hc4
  exact ⟨c, h2 ▸ hc2, hc4 hg⟩

/-- Joined labels are labels of core points of the same cluster. -/
lemma joined_found (W : Views N near minPts star P own m ι lab) {R : ℤ → ℤ → Prop}
    (hR : ∀ a b, R a b → ∃ g < N, Core N near minPts g ∧ Found P m ι lab g a ∧ Found P m ι lab g b) {a b : ℤ} (h : Relation.EqvGen R a b) :
    a = b ∨ ∃ g < N, ∃ h < N, Core N near minPts g ∧ Core N near minPts h ∧ Found P m ι lab g a ∧ Found P m ι lab h b ∧ Chained N near minPts g h := by
  induction h with
  | rel x y h =>
    obtain ⟨g, hg, hc, h1, h2⟩ := hR x y h
    exact Or.inr ⟨g, hg, g, hg, hc, hc, h1, h2, .refl⟩
  | refl x => exact Or.inl rfl
  | symm x y _ ih =>
    rcases ih with ih | ⟨c, h1, d, h2, h3, h4, h5, h6, h7⟩
    · exact Or.inl ih.symm
    · exact Or.inr ⟨d, h2, c, h1, h4, h3, h6, h5, W.chained_symm h7⟩
  | trans x y z _ _ ih1 ih2 =>
    rcases ih1 with rfl | ⟨c, h1, d, h2, h3, h4, h5, h6, h7⟩
    · exact ih2
    · rcases ih2 with rfl | ⟨c', k1, d', k2, k3, k4, k5, k6, k7⟩
      · exact Or.inr ⟨c, h1, d, h2, h3, h4, h5, h6, h7⟩
      · obtain ⟨e, he1, he2⟩ := W.found_core h4 h6
        obtain ⟨e', he3, he4⟩ := W.found_core k3 k5
        have : e = e' := by
          have := he1.symm.trans he3
          exact_mod_cast this
        subst this
        exact Or.inr ⟨c, h1, d', k2, h3, k4, h5, k6, h7.trans (he2.trans ((W.chained_symm he4).trans k7))⟩

/-- The core points a point belongs to: itself, or those near it. -/
def Anchor (N : ℕ) (near : ℕ → ℕ → Bool) (minPts g b : ℕ) : Prop :=
  b < N ∧ Core N near minPts b ∧ near g b = true ∧ (Core N near minPts g → b = g)

/-- The final label of a point: it is joined with the label its owner has found. -/
lemma final_sound (W : Views N near minPts star P own m ι lab) {R : ℤ → ℤ → Prop}
    (hR : ∀ a b, R a b → ∃ g < N, Core N near minPts g ∧ Found P m ι lab g a ∧ Found P m ι lab g b) {fin : ℕ → ℤ}
    (hfin : ∀ g < N, ∀ i < m (own g), ι (own g) i = g → Relation.EqvGen R (glob ι lab (own g) i) (fin g)) :
    (∀ g < N, fin g = -1 ↔ ¬ Core N near minPts g ∧ (star = true ∨ ¬ NearCore N near minPts g)) ∧
    (∀ g < N, Core N near minPts g → 0 ≤ fin g) ∧
    ∀ g < N, ∀ h < N, fin g ≠ -1 → fin g = fin h → ∃ b b', Anchor N near minPts g b ∧ Anchor N near minPts h b' ∧ Chained N near minPts b b' := by
  have key : ∀ g < N, fin g = -1 ∧ (¬ Core N near minPts g ∧ (star = true ∨ ¬ NearCore N near minPts g)) ∨
      ¬ (¬ Core N near minPts g ∧ (star = true ∨ ¬ NearCore N near minPts g)) ∧
      ∃ d : ℕ, fin g = (d : ℤ) ∧ ∃ b, Anchor N near minPts g b ∧ Chained N near minPts b d := by
    intro g hg
    obtain ⟨i, hi, hig⟩ := W.seesOwn g hg
    have hj := W.joined_sound hR (hfin g hg i hi hig)
    by_cases hneg : glob ι lab (own g) i = -1
    · left
      refine ⟨?_, (W.glob_own hg hi hig).mp hneg⟩
      rcases hj with hj | ⟨c, -, d, -, h3, -⟩
      · rw [← hj, hneg]
      · rw [hneg] at h3; omega
    · right
      refine ⟨fun h => hneg ((W.glob_own hg hi hig).mpr h), ?_⟩
      obtain ⟨c, hc1, hc2, hc3, hc4, -, b, hb1, hb2, hb3, hb4⟩ := W.glob_sound (W.owner g hg) hi hneg
      rw [hig] at hc4 hb3
      have hanchor : ∃ b, Anchor N near minPts g b ∧ Chained N near minPts b c := by
        by_cases hcg : Core N near minPts g
        · exact ⟨g, ⟨hg, hcg, W.refl g, fun _ => rfl⟩, hc4 hcg⟩
        · exact ⟨b, ⟨hb1, hb2, hb3, fun h => absurd h hcg⟩, hb4⟩
      obtain ⟨b, hb, hbc⟩ := hanchor
      rcases hj with hj | ⟨c', -, d, -, h3, h4, -, -, h7⟩
      · exact ⟨c, by rw [← hj, hc2], b, hb, hbc⟩
      · have : c = c' := by
          have := hc2.symm.trans h3
          exact_mod_cast this
        subst this
        exact ⟨d, h4, b, hb, hbc.trans h7⟩
  refine ⟨fun g hg => ?_, fun g hg hc => ?_, fun g hg h hh hne heq => ?_⟩
  · rcases key g hg with ⟨h1, h2⟩ | ⟨h1, d, h2, -⟩
    · exact ⟨fun _ => h2, fun _ => h1⟩
    · exact ⟨fun h => by rw [h2] at h; omega, fun h => absurd h h1⟩
  · rcases key g hg with ⟨-, h2⟩ | ⟨-, d, h2, -⟩
    · exact absurd hc h2.1
    · rw [h2]; omega
  · rcases key g hg with ⟨h1, -⟩ | ⟨-, d, h2, b, h3, h4⟩
    · exact absurd h1 hne
    · rcases key h hh with ⟨h1', -⟩ | ⟨-, d', h2', b', h3', h4'⟩
      · exact absurd (heq.trans h1') hne
      · have : d = d' := by
          have := h2.symm.trans (heq.trans h2')
          exact_mod_cast this
        subst this
        exact ⟨b, b', h3, h3', h4.trans (W.chained_symm h4')⟩

/-- If in addition labels that are joined become equal, then the result is a clustering of all points. `mid g` is the label of a point
before the merge. -/
lemma final_complete (W : Views N near minPts star P own m ι lab) {R : ℤ → ℤ → Prop}
    (hR : ∀ a b, R a b → ∃ g < N, Core N near minPts g ∧ Found P m ι lab g a ∧ Found P m ι lab g b)
    (hC : ∀ g < N, Core N near minPts g → ∀ a, Found P m ι lab g a → ∀ i < m (own g), ι (own g) i = g → Relation.EqvGen R a (glob ι lab (own g) i))
    {fin : ℕ → ℤ} (hfin : ∀ g < N, ∀ i < m (own g), ι (own g) i = g → Relation.EqvGen R (glob ι lab (own g) i) (fin g))
    (hE : ∀ g < N, ∀ h < N, ∀ i < m (own g), ι (own g) i = g → ∀ j < m (own h), ι (own h) j = h →
      Relation.EqvGen R (glob ι lab (own g) i) (glob ι lab (own h) j) → glob ι lab (own g) i ≠ -1 → fin g = fin h) :
    IsClustering star N near minPts fin := by
  obtain ⟨h1, h2, h3⟩ := W.final_sound hR hfin
  have hne : ∀ g < N, Core N near minPts g → ∀ i < m (own g), ι (own g) i = g → glob ι lab (own g) i ≠ -1 := by
    intro g hg hc i hi hig h
    exact ((W.glob_own hg hi hig).mp h).1 hc
  -- the label a process has found for a core point near one of its points
  have hstep : ∀ g < N, ∀ h < N, Core N near minPts h → ∀ i < m (own g), ι (own g) i = g → ∀ j < m (own g), ι (own g) j = h →
      glob ι lab (own g) i = glob ι lab (own g) j → glob ι lab (own g) i ≠ -1 → fin g = fin h := by
    intro g hg h hh hch i hi hig j hj hjh heq hne'
    obtain ⟨k, hk, hkh⟩ := W.seesOwn h hh
    refine hE g hg h hh i hi hig k hk hkh ?_ hne'
    refine hC h hh hch _ ⟨own g, W.owner g hg, j, hj, hjh, heq.symm, hne'⟩ k hk hkh
  have hchain : ∀ g h, g < N → Chained N near minPts g h → fin g = fin h := by
    intro g h hg hch
    induction hch with
    | refl => rfl
    | tail _ hl ih =>
      obtain ⟨k1, k2, k3, k4, k5⟩ := hl
      obtain ⟨i, hi, hig⟩ := W.seesOwn _ k1
      obtain ⟨j, hj, hjh, he⟩ := W.glob_link k1 k2 k3 k4 k5 hi hig
      exact ih.trans (hstep _ k1 _ k2 k4 i hi hig j hj hjh he (hne _ k1 k3 i hi hig))
  have hcl : ∀ i < N, ∀ j < N, Core N near minPts i → Core N near minPts j → (fin i = fin j ↔ Chained N near minPts i j) := by
    intro g hg h hh hcg hch
    refine ⟨fun he => ?_, hchain g h hg⟩
    have := h2 g hg hcg
    obtain ⟨b, b', k1, k2, k3⟩ := h3 g hg h hh (by omega) he
    rw [k1.2.2.2 hcg, k2.2.2.2 hch] at k3
    exact k3
  unfold IsClustering
  cases star with
  | true =>
    simp only [if_true]
    exact ⟨h2, hcl, fun i hi hc => (h1 i hi).mpr ⟨hc, Or.inl rfl⟩⟩
  | false =>
    simp only [Bool.false_eq_true, if_false]
    refine ⟨h2, hcl, fun g hg hc hn => ?_, fun i hi hc hn => (h1 i hi).mpr ⟨hc, Or.inr hn⟩⟩
    obtain ⟨i, hi, hig⟩ := W.seesOwn g hg
    obtain ⟨j, hj1, hj2, hj3, hj4⟩ := W.glob_border hg hc hn hi hig
    refine ⟨ι (own g) j, W.lt _ _ hj1, hj2, hj3, ?_⟩
    refine hstep g hg _ (W.lt _ _ hj1) hj2 i hi hig j hj1 rfl hj4 (fun h => ?_)
    rcases ((W.glob_own hg hi hig).mp h).2 with h' | h'
    · simp at h'
    · exact h' hn

end Views

end ArborX.DistDbscan
