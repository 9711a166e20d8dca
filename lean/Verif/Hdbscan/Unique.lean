import Verif.Hdbscan.Theorems
import Verif.Boruvka.Unique
import Mathlib.Algebra.BigOperators.Group.Finset.Basic
import Mathlib.SetTheory.Cardinal.Finite

/-!
# The dendrogram does not depend on the implementation or the schedules (C86)

The heights of two dendrograms of the same points are the same up to their order: the number of
mergers up to a height is the number of points minus the number of single-linkage clusters.
-/

namespace ArborX.Hdbscan

open Dendrogram (Above)

variable {W : Type} [LinearOrder W]

/-! ## Lemmas -/

lemma no_cycle {par : ℕ → Option ℤ} {r z : ℕ} (hr : par r = some (-1)) (h : Above par r z) :
    ∀ y : ℕ, par z = some (y : ℤ) → ¬ Above par z y := by
  induction h with
  | refl =>
    intro y hy
    rw [hr] at hy
    have := Option.some.inj hy
    omega
  | step hp t ih =>
    rename_i z y
    intro y' hy' hc
    rw [hp] at hy'
    obtain rfl : y = y' := by have := Option.some.inj hy'; omega
    cases hc with
    | refl => exact ih _ hp .refl
    | step hq t' => exact ih _ hq (above_trans (.step hp .refl) t')

lemma above_antisymm {par : ℕ → Option ℤ} {r a b : ℕ} (hr : par r = some (-1)) (h : Above par r a)
    (h1 : Above par a b) (h2 : Above par b a) : a = b := by
  cases h2 with
  | refl => rfl
  | step hp t => exact absurd (above_trans h1 t) (no_cycle hr h _ hp)

section

variable {n : ℕ} {dist : ℕ → ℕ → W} {par : ℕ → Option ℤ} {height : ℕ → Option W}

/-- The merger `e` has a height of at most `h`. -/
def Low (height : ℕ → Option W) (h : W) (e : ℕ) : Prop := ∃ a ≤ h, height e = some a

/-- What is above a merger up to the height of a higher one is not higher than it. -/
lemma IsDendrogram.low_up (H : IsDendrogram n dist par height) (hn : 2 ≤ n) {h : W} {a x : ℕ} (hx : x < n - 1) (hax : Above par a x)
    (ha : Low height h a) : Low height h x := by
  induction hax with
  | refl => exact ha
  | step hp t ih =>
    rename_i x y
    have hxr : x ≠ n - 2 := by
      rintro rfl
      rw [H.root] at hp
      have := Option.some.inj hp
      omega
    obtain ⟨e, he, hpe⟩ := H.inner x (by omega) hxr
    obtain rfl : y = e := by
      rw [hp] at hpe
      have := Option.some.inj hpe
      omega
    obtain ⟨b, hb, hyb⟩ := ih he
    obtain ⟨u, -, v, -, hu⟩ := H.heights x hx
    exact ⟨_, (H.monotone x hx y he hp _ _ hu hyb).trans hb, hu⟩

/-- From a merger only mergers are reached. -/
lemma IsDendrogram.merger_up (H : IsDendrogram n dist par height) (hn : 2 ≤ n) {a x : ℕ} (hax : Above par a x) (hx : x < n - 1) : a < n - 1 := by
  induction hax with
  | refl => exact hx
  | step hp t ih =>
    rename_i x y
    by_cases hxr : x = n - 2
    · subst hxr
      rw [H.root] at hp
      have := Option.some.inj hp
      omega
    · obtain ⟨g, hg, hpg⟩ := H.inner x (by omega) hxr
      rw [hp] at hpg
      have := Option.some.inj hpg
      exact ih (by omega)

/-- Below every node there is a point. -/
lemma IsDendrogram.leaf_below (H : IsDendrogram n dist par height) (hn : 2 ≤ n) {x : ℕ} (hx : x < 2 * n - 1) :
    ∃ u < n, Above par x (n - 1 + u) := by
  by_contra hno
  -- an infinite descent: as long as there is no point below, there is another child
  have key : ∀ k, ∃ l : List ℕ, l.length = k + 1 ∧ l.Nodup ∧ (∀ y ∈ l, y < n - 1 ∧ Above par x y) ∧ ∃ z, l.head? = some z ∧ ∀ y ∈ l, Above par y z := by
    intro k
    induction k with
    | zero =>
      refine ⟨[x], rfl, by simp, ?_, x, rfl, ?_⟩
      · intro y hy
        obtain rfl := List.mem_singleton.mp hy
        refine ⟨?_, .refl⟩
        by_contra hge
        exact hno ⟨y - (n - 1), by omega, by rw [show n - 1 + (y - (n - 1)) = y by omega]; exact .refl⟩
      · intro y hy
        obtain rfl := List.mem_singleton.mp hy
        exact .refl
    | succ k ih =>
      obtain ⟨l, hlen, hnd, hl, z, hz, hzl⟩ := ih
      have hzm : z ∈ l := List.mem_of_mem_head? hz
      obtain ⟨hz1, hz2⟩ := hl z hzm
      obtain ⟨a, ha, b, hb, hab, hc⟩ := H.binary z hz1
      have hpa : par a = some (z : ℤ) := (hc a ha).mpr (.inl rfl)
      have hxa : Above par x a := above_trans hz2 (.step hpa .refl)
      have ha' : a < n - 1 := by
        by_contra hge
        exact hno ⟨a - (n - 1), by omega, by rw [show n - 1 + (a - (n - 1)) = a by omega]; exact hxa⟩
      have hal : a ∉ l := fun hal => no_cycle H.root (H.rooted a ha) z hpa (hzl a hal)
      refine ⟨a :: l, by simp [hlen], List.nodup_cons.mpr ⟨hal, hnd⟩, ?_, a, rfl, ?_⟩
      · intro y hy
        rcases List.mem_cons.mp hy with rfl | hy
        · exact ⟨ha', hxa⟩
        · exact hl y hy
      · intro y hy
        rcases List.mem_cons.mp hy with rfl | hy
        · exact .refl
        · exact above_trans (hzl y hy) (.step hpa .refl)
  obtain ⟨l, hlen, hnd, hl, -⟩ := key (n - 1)
  have : l.length ≤ (List.range (n - 1)).length := (hnd.subperm fun y hy => List.mem_range.mpr (hl y hy).1).length_le
  rw [hlen, List.length_range] at this
  omega

open Classical in
/-- The mergers up to height `h`. -/
noncomputable def lowSet (n : ℕ) (height : ℕ → Option W) (h : W) : Finset ℕ := (Finset.range (n - 1)).filter (Low height h)

open Classical in
/-- The number of clusters at height `h` and the number of mergers up to `h` add up to the number of points. -/
theorem IsDendrogram.count (H : IsDendrogram n dist par height) (hn : 2 ≤ n) (h : W) :
    (lowSet n height h).card + Nat.card (Quot (fun a b : Fin n => Linked n dist h a b)) = n := by
  set S := lowSet n height h with hS
  have memS : ∀ e, e ∈ S ↔ e < n - 1 ∧ Low height h e := fun e => by rw [hS, lowSet, Finset.mem_filter, Finset.mem_range]
  -- the nodes up to height `h`
  let F := S ∪ Finset.Ico (n - 1) (2 * n - 1)
  have memF : ∀ x, x ∈ F ↔ x ∈ S ∨ (n - 1 ≤ x ∧ x < 2 * n - 1) := by
    intro x
    rw [Finset.mem_union, Finset.mem_Ico]
  have cardF : F.card = S.card + n := by
    rw [Finset.card_union_of_disjoint, Nat.card_Ico]
    · omega
    rw [Finset.disjoint_left]
    intro x hx hx'
    have := ((memS _).mp hx).1
    have := (Finset.mem_Ico.mp hx').1
    omega
  have ltF : ∀ x ∈ F, x < 2 * n - 1 := by
    intro x hx
    rcases (memF x).mp hx with hx | hx
    · have := ((memS x).mp hx).1; omega
    · exact hx.2
  -- the children of the mergers up to height `h`
  let C := fun e : ℕ => (Finset.range (2 * n - 1)).filter (fun x => par x = some (e : ℤ))
  have cardC : ∀ e ∈ S, (C e).card = 2 := by
    intro e he
    obtain ⟨a, ha, b, hb, hab, hc⟩ := H.binary e ((memS e).mp he).1
    have : C e = {a, b} := by
      ext x
      simp only [C, Finset.mem_filter, Finset.mem_range, Finset.mem_insert, Finset.mem_singleton]
      constructor
      · rintro ⟨hx, hp⟩; exact (hc x hx).mp hp
      · rintro (rfl | rfl)
        · exact ⟨ha, (hc _ ha).mpr (.inl rfl)⟩
        · exact ⟨hb, (hc _ hb).mpr (.inr rfl)⟩
    rw [this, Finset.card_pair hab]
  let N := S.biUnion C
  have memN : ∀ x, x ∈ N ↔ x < 2 * n - 1 ∧ ∃ e ∈ S, par x = some (e : ℤ) := by
    intro x
    simp only [N, C, Finset.mem_biUnion, Finset.mem_filter, Finset.mem_range]
    constructor
    · rintro ⟨e, he, hx, hp⟩; exact ⟨hx, e, he, hp⟩
    · rintro ⟨hx, e, he, hp⟩; exact ⟨e, he, hx, hp⟩
  have cardN : N.card = 2 * S.card := by
    rw [Finset.card_biUnion, Finset.sum_congr rfl cardC, Finset.sum_const, smul_eq_mul, Nat.mul_comm]
    intro e _ f _ hef
    refine Finset.disjoint_left.mpr ?_
    intro x hx hx'
    simp only [C, Finset.mem_filter] at hx hx'
    have h1 := hx.2
    rw [hx'.2] at h1
    have := Option.some.inj h1
    omega
  have subN : N ⊆ F := by
    intro x hx
    obtain ⟨hx, e, he, hp⟩ := (memN x).mp hx
    rw [memF]
    by_cases hxm : x < n - 1
    · exact .inl ((memS x).mpr ⟨hxm, H.low_up hn hxm (.step hp .refl) ((memS e).mp he).2⟩)
    · exact .inr ⟨by omega, hx⟩
  -- the tops of the clusters
  let R := F \ N
  have cardR : R.card + S.card = n := by
    have h1 := Finset.card_sdiff_add_card_eq_card subN
    have : R.card = (F \ N).card := rfl
    omega
  -- a top is above everything up to height `h` on the same path
  have top : ∀ r ∈ R, ∀ e ∈ F, ∀ x, x < 2 * n - 1 → Above par r x → Above par e x → Above par r e := by
    intro r hr e he x hx h1 h2
    obtain ⟨hrF, hrN⟩ := Finset.mem_sdiff.mp hr
    rcases above_total h1 h2 with h3 | h3
    · exact h3
    · cases h3 with
      | refl => exact .refl
      | step hp t =>
        rename_i y
        exfalso
        have hr' := ltF r hrF
        have hrr : r ≠ n - 2 := by
          rintro rfl
          rw [H.root] at hp
          have := Option.some.inj hp
          omega
        obtain ⟨f, hf, hpf⟩ := H.inner r hr' hrr
        obtain rfl : y = f := by
          rw [hp] at hpf
          have := Option.some.inj hpf
          omega
        apply hrN
        rw [memN]
        refine ⟨hr', y, (memS y).mpr ⟨hf, ?_⟩, hp⟩
        rcases (memF e).mp he with he | he
        · exact H.low_up hn hf t ((memS e).mp he).2
        · -- a point is above no merger
          exfalso
          have := H.merger_up hn t hf
          omega
  have uniq : ∀ r ∈ R, ∀ r' ∈ R, ∀ e ∈ F, Above par r e → Above par r' e → r = r' := by
    intro r hr r' hr' e he h1 h2
    have hrF := (Finset.mem_sdiff.mp hr).1
    have hrF' := (Finset.mem_sdiff.mp hr').1
    exact above_antisymm H.root (H.rooted r (ltF r hrF)) (top r hr r' hrF' e (ltF e he) h1 h2) (top r' hr' r hrF e (ltF e he) h2 h1)
  have exTop : ∀ x, Above par (n - 2) x → x ∈ F → ∃ r ∈ R, Above par r x := by
    intro x hx
    induction hx with
    | refl =>
      intro hF
      refine ⟨n - 2, Finset.mem_sdiff.mpr ⟨hF, fun hN => ?_⟩, .refl⟩
      obtain ⟨-, e, -, hp⟩ := (memN _).mp hN
      rw [H.root] at hp
      have := Option.some.inj hp
      omega
    | step hp t ih =>
      rename_i x y
      intro hF
      by_cases hN : x ∈ N
      · obtain ⟨-, e, he, hpe⟩ := (memN _).mp hN
        obtain rfl : y = e := by
          rw [hp] at hpe
          have := Option.some.inj hpe
          omega
        obtain ⟨r, hr, hry⟩ := ih ((memF y).mpr (.inl he))
        exact ⟨r, hr, .step hp hry⟩
      · exact ⟨x, Finset.mem_sdiff.mpr ⟨hF, hN⟩, .refl⟩
  -- tops correspond to clusters
  have hleaf : ∀ r : R, ∃ u : Fin n, Above par r.1 (n - 1 + u) := by
    intro r
    obtain ⟨u, hu, h1⟩ := H.leaf_below hn (ltF r.1 (Finset.mem_sdiff.mp r.2).1)
    exact ⟨⟨u, hu⟩, h1⟩
  choose leaf hleaf using hleaf
  have leafF : ∀ u : Fin n, n - 1 + u ∈ F := fun u => (memF _).mpr (.inr ⟨by omega, by have := u.2; omega⟩)
  have eqv : ∀ a b : Fin n, Quot.mk (fun a b : Fin n => Linked n dist h a b) a = Quot.mk _ b → Linked n dist h a b := by
    intro a b hab
    have := Quot.eqvGen_exact hab
    induction this with
    | rel _ _ h => exact h
    | refl _ => exact .refl _
    | symm _ _ _ ih => exact .symm _ _ (ih (Quot.eqvGen_sound ‹_›))
    | trans _ _ _ _ _ ih1 ih2 => exact .trans _ _ _ (ih1 (Quot.eqvGen_sound ‹_›)) (ih2 (Quot.eqvGen_sound ‹_›))
  have bij : Function.Bijective (fun r : R => Quot.mk (fun a b : Fin n => Linked n dist h a b) (leaf r)) := by
    constructor
    · intro r r' hrr
      have hl := eqv _ _ hrr
      refine Subtype.ext ?_
      by_cases he : leaf r = leaf r'
      · refine uniq _ r.2 _ r'.2 _ (leafF (leaf r)) (hleaf r) ?_
        rw [he]; exact hleaf r'
      · obtain ⟨e, he, a, ha, hea, h1, h2⟩ := (H.linkage _ (leaf r).2 _ (leaf r').2 (fun h => he (Fin.ext h)) h).mp hl
        have heF : e ∈ F := (memF e).mpr (.inl ((memS e).mpr ⟨he, a, ha, hea⟩))
        exact uniq _ r.2 _ r'.2 e heF (top _ r.2 e heF _ (ltF _ (leafF _)) (hleaf r) h1) (top _ r'.2 e heF _ (ltF _ (leafF _)) (hleaf r') h2)
    · intro c
      obtain ⟨u, rfl⟩ := Quot.exists_rep c
      obtain ⟨r, hr, hru⟩ := exTop _ (H.rooted _ (ltF _ (leafF u))) (leafF u)
      refine ⟨⟨r, hr⟩, ?_⟩
      by_cases he : leaf ⟨r, hr⟩ = u
      · show Quot.mk _ (leaf ⟨r, hr⟩) = _
        rw [he]
      · refine Quot.sound ((H.linkage _ (leaf ⟨r, hr⟩).2 _ u.2 (fun h => he (Fin.ext h)) h).mpr ?_)
        rcases (memF r).mp (Finset.mem_sdiff.mp hr).1 with hrS | hrL
        · obtain ⟨h1, a, ha, hra⟩ := (memS r).mp hrS
          exact ⟨r, h1, a, ha, hra, hleaf ⟨r, hr⟩, hru⟩
        · -- the top is a point
          exfalso
          have : ∀ x, n - 1 ≤ r → x < 2 * n - 1 → Above par r x → x = r := by
            intro x _ hx hrx
            cases hrx with
            | refl => rfl
            | step hp t =>
              exfalso
              have hxr : x ≠ n - 2 := by
                rintro rfl
                rw [H.root] at hp
                have := Option.some.inj hp
                omega
              obtain ⟨g, hg, hpg⟩ := H.inner x hx hxr
              rw [hp] at hpg
              have h3 := Option.some.inj hpg
              have := H.merger_up hn t (by omega)
              omega
          have h1 := this _ hrL.1 (ltF _ (leafF _)) (hleaf ⟨r, hr⟩)
          have h2 := this _ hrL.1 (ltF _ (leafF _)) hru
          exact he (Fin.ext (by omega))
  have := Nat.card_eq_of_bijective _ bij
  rw [Nat.card_eq_fintype_card, Fintype.card_coe] at this
  omega

open Classical in
lemma lowSet_card (m : ℕ) (p : ℕ → Prop) : ((Finset.range m).filter p).card = (List.range m).countP (fun e => decide (p e)) := by
  induction m with
  | zero => rfl
  | succ m ih =>
    rw [Finset.range_add_one, Finset.filter_insert, List.range_succ, List.countP_append, ← ih]
    by_cases hp : p m
    · rw [if_pos hp, Finset.card_insert_of_notMem (by simp)]
      simp [hp]
    · rw [if_neg hp]
      simp [hp]

lemma perm_of_counts {L L' : List W} (h : ∀ t, L.countP (fun x => decide (x ≤ t)) = L'.countP (fun x => decide (x ≤ t))) : L.Perm L' := by
  classical
  rw [List.perm_iff_count]
  intro a
  have split : ∀ M : List W, M.countP (fun x => decide (x ≤ a)) = M.count a + M.countP (fun x => decide (x < a)) := by
    intro M
    induction M with
    | nil => rfl
    | cons b M ih =>
      rw [List.countP_cons, List.countP_cons, List.count_cons, ih]
      rcases lt_trichotomy b a with h1 | h1 | h1
      · simp [h1.le, h1, h1.ne]; omega
      · subst h1; simp; omega
      · simp [h1.not_ge, h1.ne', h1.not_gt]
  have lt : L.countP (fun x => decide (x < a)) = L'.countP (fun x => decide (x < a)) := by
    by_cases hex : ∃ m, m ∈ L ++ L' ∧ m < a
    · obtain ⟨m0, hm0, hlt0⟩ := hex
      obtain ⟨m, hm, hmax⟩ := Finset.exists_max_image (((L ++ L').filter (fun x => decide (x < a))).toFinset) id
        ⟨m0, by rw [List.mem_toFinset, List.mem_filter]; exact ⟨hm0, by simpa using hlt0⟩⟩
      rw [List.mem_toFinset, List.mem_filter] at hm
      have hma : m < a := by simpa using hm.2
      have conv : ∀ M : List W, (∀ x ∈ M, x ∈ L ++ L') → M.countP (fun x => decide (x < a)) = M.countP (fun x => decide (x ≤ m)) := by
        intro M hM
        refine List.countP_congr fun x hx => ?_
        rw [decide_eq_true_iff, decide_eq_true_iff]
        refine ⟨fun hxa => ?_, fun hxm => hxm.trans_lt hma⟩
        exact hmax x (by rw [List.mem_toFinset, List.mem_filter]; exact ⟨hM x hx, by simpa using hxa⟩)
      rw [conv L fun x hx => List.mem_append_left _ hx, conv L' fun x hx => List.mem_append_right _ hx, h]
    · have zero : ∀ M : List W, (∀ x ∈ M, x ∈ L ++ L') → M.countP (fun x => decide (x < a)) = 0 := by
        intro M hM
        rw [List.countP_eq_zero]
        intro x hx hxa
        exact hex ⟨x, hM x hx, by simpa using hxa⟩
      rw [zero L fun x hx => List.mem_append_left _ hx, zero L' fun x hx => List.mem_append_right _ hx]
  have h1 := split L
  have h2 := split L'
  have h3 := h a
  omega

/-- Dendrograms with equal numbers of mergers up to each height have the same heights. -/
lemma heights_perm_of_card {dist' : ℕ → ℕ → W} {par' : ℕ → Option ℤ} {height' : ℕ → Option W} (H : IsDendrogram n dist par height)
    (H' : IsDendrogram n dist' par' height') (hc : ∀ t, (lowSet n height t).card = (lowSet n height' t).card) :
    ((List.range (n - 1)).map height).Perm ((List.range (n - 1)).map height') := by
  classical
  have conv : ∀ {dist : ℕ → ℕ → W} {par : ℕ → Option ℤ} {height : ℕ → Option W}, IsDendrogram n dist par height →
      (List.range (n - 1)).map height = ((List.range (n - 1)).filterMap height).map some ∧
      ∀ t, ((List.range (n - 1)).filterMap height).countP (fun x => decide (x ≤ t)) = (lowSet n height t).card := by
    intro dist par height H
    constructor
    · have : ∀ l : List ℕ, (∀ e ∈ l, e < n - 1) → l.map height = (l.filterMap height).map some := by
        intro l hl
        induction l with
        | nil => rfl
        | cons e l ih =>
          obtain ⟨u, -, v, -, hu⟩ := H.heights e (hl e (by simp))
          rw [List.map_cons, List.filterMap_cons_some hu, List.map_cons, ih fun f hf => hl f (List.mem_cons_of_mem _ hf), hu]
      exact this _ fun e he => List.mem_range.mp he
    · intro t
      rw [lowSet, lowSet_card, List.countP_filterMap]
      refine List.countP_congr fun e he => ?_
      obtain ⟨u, -, v, -, hu⟩ := H.heights e (List.mem_range.mp he)
      simp [hu, Low]
  rw [(conv H).1, (conv H').1]
  refine (perm_of_counts fun t => ?_).map some
  rw [(conv H).2, (conv H').2]
  exact hc t

/-- The heights of two dendrograms of the same points agree up to their order. -/
theorem IsDendrogram.heights_perm {par' : ℕ → Option ℤ} {height' : ℕ → Option W} (hn : 2 ≤ n) (H : IsDendrogram n dist par height)
    (H' : IsDendrogram n dist par' height') : ((List.range (n - 1)).map height).Perm ((List.range (n - 1)).map height') := by
  refine heights_perm_of_card H H' fun t => ?_
  have h1 := H.count hn t
  have h2 := H'.count hn t
  omega

/-- A dendrogram depends only on the distances of the points. -/
lemma IsDendrogram.congr {dist' : ℕ → ℕ → W} (H : IsDendrogram n dist par height) (h : ∀ p < n, ∀ q < n, dist p q = dist' p q) :
    IsDendrogram n dist' par height := by
  refine ⟨fun e he => ?_, H.root, H.inner, H.rooted, H.binary, H.monotone, fun u hu v hv huv t => ?_⟩
  · obtain ⟨u, hu, v, hv, e'⟩ := H.heights e he
    exact ⟨u, hu, v, hv, by rw [e', h u hu v hv]⟩
  · rw [← H.linkage u hu v hv huv t]
    have : (fun a b => a < n ∧ b < n ∧ dist a b ≤ t) = (fun a b => a < n ∧ b < n ∧ dist' a b ≤ t) := by
      funext a b
      exact propext (and_congr_right fun ha => and_congr_right fun hb => by rw [h a ha b hb])
    unfold Linked
    rw [this]

end

/-! ## Property theorem -/

open Boruvka
open Mst (IsCore mutualReach)
open BVH (Input)

variable {V : Type} [BoundedOrder W] [SemilatticeSup V] [OrderBot V] {w w' : ℕ}

/-- **C86 (partial).** Two executions of `hdbscan` on the same points with the same `k`, each with either implementation, on trees built with any curves
and orders of equal codes, under any schedules of all kernels and with any behaviour of the library sort on equal keys: if both return, then the lists of
the heights agree up to order, and at every height the two dendrograms have the same clusters, that is, two points are below a common merger up
to this height in one of them exactly if they are in the other.

Partial: as for C60. -/
theorem hdbscan_deterministic_partial (boruvka boruvka' : Bool) (G G' : Geo V W) (hdp : G'.dp = G.dp) (bits bits' : W → ℕ) (k : ℕ)
    (I : Input ℕ V w) (I' : Input ℕ V w') (hI : I.Valid) (hI' : I'.Valid) (hn : 2 ≤ I.n) (hn' : I'.n = I.n) (hbig : I.n ≤ 2 ^ 30)
    (hval : ∀ p < I.n, I.values p = p) (hval' : ∀ p < I.n, I'.values p = p)
    (hbox : ∀ p q v, I.vol q ≤ v → G.dv p v ≤ G.dp p q) (hbox' : ∀ p q v, I'.vol q ≤ v → G'.dv p v ≤ G'.dp p q)
    (hsymm : ∀ p q, G.dp p q = G.dp q p)
    (hfin : ∀ p < I.n, ∀ q < I.n, G.dp p q < ⊤) (hbits : BitsOk I.n G.dp bits) (hbits' : BitsOk I.n G.dp bits')
    (hcap : Nearest.StackFits I 64) (hcap' : Nearest.StackFits I' 64)
    (schedB schedB' : List ℕ) (hf : I.Finished schedB) (hf' : I'.Finished schedB')
    (ordP ordP' : List ℕ) (hoP : ordP.Perm (List.range (2 * I.n - 2))) (hoP' : ordP'.Perm (List.range (2 * I.n - 2)))
    (sc sc' : ℕ → HSched) (hsc : ∀ it, (sc it).Valid I.n) (hsc' : ∀ it, (sc' it).Valid I.n)
    (ro ro' : Reorder W) (hro : ro.Valid (I.n - 1)) (hro' : ro'.Valid (I.n - 1))
    (fuel fuel' : ℕ) (hfuel : 2 * I.n ≤ fuel) (hfuel' : 2 * I.n ≤ fuel') (iters iters' : ℕ)
    {parents parents' : ℕ → Option ℤ} {heights heights' : ℕ → Option W}
    (h : hdbscan boruvka G bits k I schedB ordP sc ro fuel iters = .ok (parents, heights))
    (h' : hdbscan boruvka' G' bits' k I' schedB' ordP' sc' ro' fuel' iters' = .ok (parents', heights')) :
    ((List.range (I.n - 1)).map heights).Perm ((List.range (I.n - 1)).map heights') ∧
    ∀ u < I.n, ∀ v < I.n, u ≠ v → ∀ t : W,
      (∃ e < I.n - 1, ∃ a ≤ t, heights e = some a ∧ Above parents e (I.n - 1 + u) ∧ Above parents e (I.n - 1 + v)) ↔
      (∃ e < I.n - 1, ∃ a ≤ t, heights' e = some a ∧ Above parents' e (I.n - 1 + u) ∧ Above parents' e (I.n - 1 + v)) := by
  obtain ⟨weight, a1, a2, a3, -⟩ := hdbscan_correct_partial boruvka G bits k I hI hn hbig hval hbox hsymm hfin hbits hcap schedB hf
    ordP hoP sc hsc ro hro fuel hfuel iters
  obtain ⟨weight', b1, b2, b3, -⟩ := hdbscan_correct_partial boruvka' G' bits' k I' hI' (by omega) (by omega) (by rw [hn']; exact hval') hbox'
    (by rw [hdp]; exact hsymm) (by rw [hdp, hn']; exact hfin) (by rw [hdp, hn']; exact hbits') hcap' schedB' hf'
    ordP' (by rw [hn']; exact hoP') sc' (by rw [hn']; exact hsc') ro' (by rw [hn']; exact hro') fuel' (by rw [hn']; exact hfuel') iters'
  rw [h] at a3
  rw [h'] at b3
  rw [hn', hdp] at b2
  rw [hn'] at b3
  rw [hdp] at b1
  have H : IsDendrogram I.n weight parents heights := by
    rcases a3 with a3 | ⟨p, t, e, a3⟩
    · cases a3
    · cases e; exact a3
  have H0 : IsDendrogram I.n weight' parents' heights' := by
    rcases b3 with b3 | ⟨p, t, e, b3⟩
    · cases b3
    · cases e; exact b3
  have H' : IsDendrogram I.n weight parents' heights' := by
    refine H0.congr fun p hp q hq => ?_
    by_cases hk : 1 < k
    · obtain ⟨core, c1, rfl⟩ := a2 hk
      obtain ⟨core', c2, rfl⟩ := b2 hk
      unfold mutualReach
      rw [core_unique (c1 p hp) (c2 p hp), core_unique (c1 q hq) (c2 q hq)]
    · rw [a1 (by omega), b1 (by omega)]
  refine ⟨H.heights_perm hn H', fun u hu v hv huv t => ?_⟩
  rw [← H.linkage u hu v hv huv t, ← H'.linkage u hu v hv huv t]

/-! ## Non-vacuity -/

open Traversal (exampleInput exampleInput_valid)

/-- Five points on a line, `k = 3`: both implementations return, with the same heights. -/
example : ∃ bits schedB ordP sc ro fuel iters parents heights parents' heights',
    hdbscan true (exampleGeo true) bits 3 exampleInput schedB ordP sc ro fuel iters = .ok (parents, heights) ∧
    hdbscan false (exampleGeo false) bits 3 exampleInput schedB ordP sc ro fuel iters = .ok (parents', heights') ∧
    ((List.range 4).map heights).Perm ((List.range 4).map heights') := by
  obtain ⟨schedB, hB⟩ := Construction.exists_complete exampleInput.params (exampleInput_valid.keys (by decide))
  obtain ⟨sc, h1, h2⟩ := exists_sched exampleInput.n
  obtain ⟨ro, hro⟩ := exists_reorder (W := WithTop ℕ) (exampleInput.n - 1)
  have hb : BitsOk exampleInput.n (exampleGeo true).dp (fun x => x.untopD 0) :=
    ⟨fun p hp q hq => by
      have : p < 5 := hp
      have : q < 5 := hq
      change p - q + (q - p) < 2 ^ 31
      omega,
     fun p _ q _ a _ b _ hlt => by
      exact WithTop.coe_lt_coe.mp hlt⟩
  have hbox : ∀ b p q v, exampleInput.vol q ≤ v → (exampleGeo b).dv p v ≤ (exampleGeo b).dp p q := fun b p q v h => Finset.inf_le
      (show q ∈ v from (show ({q} : Finset ℕ) ⊆ v from h) (Finset.mem_singleton_self q))
  have hsymm : ∀ b p q, (exampleGeo b).dp p q = (exampleGeo b).dp q p := fun b p q => by simp only [exampleGeo]; rw [Nat.add_comm]
  have hfin : ∀ b, ∀ p < exampleInput.n, ∀ q < exampleInput.n, (exampleGeo b).dp p q < ⊤ := fun b p _ q _ => WithTop.coe_lt_top _
  have hcap := mst_height_partial exampleInput exampleInput_valid (by decide) (.inl (by decide))
  have ok : ∀ boruvka b, ∃ p t, hdbscan boruvka (exampleGeo b) (fun x => x.untopD 0) 3 exampleInput schedB (List.range (2 * exampleInput.n - 2))
      (fun _ => ⟨sc, List.range exampleInput.n, List.range exampleInput.n⟩) ro (2 * exampleInput.n) 4 = .ok (p, t) := by
    intro boruvka b
    obtain ⟨weight, -, -, h, h'⟩ := hdbscan_correct_partial boruvka (exampleGeo b) (fun x => x.untopD 0) 3 exampleInput
      exampleInput_valid (by decide) (by decide) (fun _ _ => rfl) (hbox b) (hsymm b) (hfin b) hb hcap schedB (fun _ => hB)
      (List.range (2 * exampleInput.n - 2)) (List.Perm.refl _) (fun _ => ⟨sc, List.range exampleInput.n, List.range exampleInput.n⟩)
      (fun _ => ⟨h1, List.Perm.refl _, List.Perm.refl _⟩) ro hro (2 * exampleInput.n) le_rfl 4
    rcases h with h | ⟨p, t, h, -⟩
    · exact absurd h (h' (fun _ => h2) (by decide))
    · exact ⟨p, t, h⟩
  obtain ⟨p, t, e⟩ := ok true true
  obtain ⟨p', t', e'⟩ := ok false false
  refine ⟨_, _, _, _, _, _, _, p, t, p', t', e, e', ?_⟩
  exact (hdbscan_deterministic_partial true false (exampleGeo true) (exampleGeo false) rfl _ _ 3 exampleInput exampleInput exampleInput_valid
    exampleInput_valid (by decide) rfl (by decide) (fun _ _ => rfl) (fun _ _ => rfl) (hbox true) (hbox false) (hsymm true) (hfin true) hb hb hcap hcap
    schedB schedB (fun _ => hB) (fun _ => hB) _ _ (List.Perm.refl _) (List.Perm.refl _) _ _ (fun _ => ⟨h1, List.Perm.refl _, List.Perm.refl _⟩)
    (fun _ => ⟨h1, List.Perm.refl _, List.Perm.refl _⟩) ro ro hro hro _ _ le_rfl le_rfl 4 4 e e').1

end ArborX.Hdbscan
