import Verif.Dbscan.Finalize
import Verif.Dbscan.Spec

/-!
# From the labels of the union-find to clusters
-/

namespace ArborX.Dbscan

open UF

variable {n : ℕ} {near : ℕ → ℕ → Bool} {minPts : ℕ}

/-- Points treated as core points by the callbacks. -/
def CP (n : ℕ) (core : ℕ → Bool) (i : ℕ) : Prop := i < n ∧ core i = true

/-- Points the callbacks must merge. -/
def Link (n : ℕ) (core : ℕ → Bool) (near : ℕ → ℕ → Bool) (i j : ℕ) : Prop :=
  CP n core i ∧ CP n core j ∧ near i j = true

/-- What the union-find stage delivers. -/
structure Stage (n : ℕ) (core : ℕ → Bool) (near : ℕ → ℕ → Bool) (star : Bool) (L : ℕ → ℕ) : Prop where
  inv : LInv (CP n core) (Relation.EqvGen (Link n core near)) (fun b j => star = false ∧ near b j = true) L
  link : ∀ i j, Link n core near i j → root L i = root L j
  into : star = false → ∀ b j, b < n → core b = false → CP n core j → near b j = true → CP n core (L b)

lemma Stage.pre {core : ℕ → Bool} {star : Bool} {L : ℕ → ℕ} (S : Stage n core near star L) :
    FPre n (CP n core) L where
  lt := fun _ h => h.1
  dec := S.inv.dec
  out := fun b hb => (S.inv.out b hb).imp id (fun h => h.1)

lemma count_one {n : ℕ} {p : ℕ → Bool} {a : ℕ} (ha : a < n) (hp : p a = true) :
    (List.range n).countP p = 1 ↔ ∀ b < n, p b = true → b = a := by
  rw [List.countP_eq_length_filter]
  have hmem : a ∈ (List.range n).filter p := List.mem_filter.mpr ⟨List.mem_range.mpr ha, hp⟩
  constructor
  · intro h b hb hpb
    obtain ⟨c, hc⟩ := List.length_eq_one_iff.mp h
    have hb' : b ∈ (List.range n).filter p := List.mem_filter.mpr ⟨List.mem_range.mpr hb, hpb⟩
    rw [hc, List.mem_singleton] at hmem hb'
    rw [hmem, hb']
  · intro h
    have hsub : (List.range n).filter p ⊆ [a] := by
      intro b hb
      rw [List.mem_filter, List.mem_range] at hb
      rw [List.mem_singleton]
      exact h b hb.1 hb.2
    have h1 := (List.subperm_of_subset (List.nodup_range.filter p) hsub).length_le
    have h2 := List.length_pos_of_mem hmem
    simp at h1
    omega

lemma Stage.root_eq {core : ℕ → Bool} {star : Bool} {L : ℕ → ℕ} (S : Stage n core near star L) {i j : ℕ}
    (h : Relation.EqvGen (Link n core near) i j) : root L i = root L j := by
  induction h with
  | rel a b h => exact S.link a b h
  | refl a => rfl
  | symm a b _ ih => exact ih.symm
  | trans a b c _ _ ih1 ih2 => exact ih1.trans ih2

lemma Stage.root_rel {core : ℕ → Bool} {star : Bool} {L : ℕ → ℕ} (S : Stage n core near star L) {i : ℕ}
    (h : CP n core i) : Relation.EqvGen (Link n core near) i (root L i) :=
  UF.root_rel S.inv.dec (Relation.EqvGen.is_equivalence _) S.inv.rel h

lemma Stage.root_iff {core : ℕ → Bool} {star : Bool} {L : ℕ → ℕ} (S : Stage n core near star L) {i j : ℕ}
    (hi : CP n core i) (hj : CP n core j) :
    root L i = root L j ↔ Relation.EqvGen (Link n core near) i j := by
  constructor
  · intro h
    have h1 := S.root_rel hi
    have h2 := S.root_rel hj
    rw [← h] at h2
    exact h1.trans _ _ _ (h2.symm _ _)
  · exact S.root_eq

/-- A cluster with a core point and a border point has at least two members. -/
lemma count_border {C : ℕ → Prop} {L0 : ℕ → ℕ} (P : FPre n C L0) {b : ℕ} (hb : b < n) (hC : ¬ C b)
    (h : C (L0 b)) :
    ¬ (List.range n).countP (fun i => decide (tgt C L0 i = tgt C L0 b)) = 1 := by
  rw [count_one hb (by simp)]
  intro hall
  have hr := root_mem P.dec h
  have := hall (root L0 (L0 b)) (P.lt _ hr) (by
    rw [tgt_border hC h, tgt_core hr, root_root P.dec h]; simp)
  rw [this] at hr
  exact hC hr

lemma count_alone {C : ℕ → Prop} {L0 : ℕ → ℕ} (P : FPre n C L0) {b : ℕ} (hb : b < n) (hC : ¬ C b)
    (h : L0 b = b) :
    (List.range n).countP (fun i => decide (tgt C L0 i = tgt C L0 b)) = 1 := by
  rw [count_one hb (by simp)]
  intro i _ he
  rw [decide_eq_true_eq, tgt_self hC h] at he
  by_cases hi : C i
  · have := tgt_mem P hi
    rw [he] at this
    exact absurd this hC
  · rcases P.out i hi with h' | h'
    · rwa [tgt_self hi h'] at he
    · rw [tgt_border hi h'] at he
      have := root_mem P.dec h'
      rw [he] at this
      exact absurd this hC

lemma chained_of_eqvGen {n : ℕ} {near : ℕ → ℕ → Bool} {minPts : ℕ} (hsymm : ∀ i j, near i j = near j i)
    {i j : ℕ} (h : Relation.EqvGen (Linked n near minPts) i j) : Chained n near minPts i j := by
  have hs : ∀ a b, Chained n near minPts a b → Chained n near minPts b a := by
    intro a b h
    induction h with
    | refl => exact Relation.ReflTransGen.refl
    | tail _ h2 ih =>
      obtain ⟨h3, h4, h5, h6, h7⟩ := h2
      exact Relation.ReflTransGen.head ⟨h4, h3, h6, h5, by rw [hsymm]; exact h7⟩ ih
  induction h with
  | rel a b h => exact Relation.ReflTransGen.single h
  | refl a => exact Relation.ReflTransGen.refl
  | symm a b _ ih => exact hs _ _ ih
  | trans a b c _ _ ih1 ih2 => exact ih1.trans ih2

lemma eqvGen_of_chained {n : ℕ} {near : ℕ → ℕ → Bool} {minPts : ℕ} {i j : ℕ}
    (h : Chained n near minPts i j) : Relation.EqvGen (Linked n near minPts) i j := by
  induction h with
  | refl => exact .refl _
  | tail _ h2 ih => exact .trans _ _ _ ih (.rel _ _ h2)

/-- The labels after marking noise, in terms of the labels of the union-find. -/
noncomputable def lab (n : ℕ) (special : Bool) (core : ℕ → Bool) (L : ℕ → ℕ) (i : ℕ) : ℤ :=
  if (List.range n).countP (fun j => decide (tgt (CP n core) L j = tgt (CP n core) L i)) = 1 ∧
      (special = true ∨ core i = false) then -1 else tgt (CP n core) L i

section

variable (hsymm : ∀ i j, near i j = near j i)
include hsymm

section Normal

variable {core : ℕ → Bool} {star : Bool} {L : ℕ → ℕ} (S : Stage n core near star L)
  (hcore : ∀ i < n, core i = decide (Core n near minPts i))
include S hcore

lemma link_eq : Link n core near = Linked n near minPts := by
  funext i j
  apply propext
  constructor
  · rintro ⟨⟨h1, h2⟩, ⟨h3, h4⟩, h5⟩
    rw [hcore i h1, decide_eq_true_eq] at h2
    rw [hcore j h3, decide_eq_true_eq] at h4
    exact ⟨h1, h3, h2, h4, h5⟩
  · rintro ⟨h1, h2, h3, h4, h5⟩
    exact ⟨⟨h1, by rw [hcore i h1, decide_eq_true_eq]; exact h3⟩,
      ⟨h2, by rw [hcore j h2, decide_eq_true_eq]; exact h4⟩, h5⟩

lemma cp_iff {i : ℕ} (hi : i < n) : CP n core i ↔ Core n near minPts i := by
  unfold CP
  rw [hcore i hi, decide_eq_true_eq]
  exact ⟨fun h => h.2, fun h => ⟨hi, h⟩⟩

lemma lab_core {i : ℕ} (hi : CP n core i) : lab n false core L i = root L i := by
  unfold lab
  rw [if_neg (by rintro ⟨-, h | h⟩; exact absurd h (by simp); rw [hi.2] at h; exact absurd h (by simp)),
    tgt_core hi]

lemma normal_common :
    (∀ i < n, Core n near minPts i → 0 ≤ lab n false core L i) ∧
    (∀ i < n, ∀ j < n, Core n near minPts i → Core n near minPts j →
      (lab n false core L i = lab n false core L j ↔ Chained n near minPts i j)) ∧
    Canonical n near minPts (lab n false core L) := by
  refine ⟨?_, ?_, ?_⟩
  · intro i hi h
    rw [lab_core hsymm S hcore ((cp_iff hsymm S hcore hi).mpr h)]
    omega
  · intro i hi j hj h1 h2
    have c1 := (cp_iff hsymm S hcore hi).mpr h1
    have c2 := (cp_iff hsymm S hcore hj).mpr h2
    rw [lab_core hsymm S hcore c1, lab_core hsymm S hcore c2, Int.natCast_inj, S.root_iff c1 c2,
      link_eq hsymm S hcore]
    exact ⟨chained_of_eqvGen hsymm, eqvGen_of_chained⟩
  · intro i hi h
    have c1 := (cp_iff hsymm S hcore hi).mpr h
    have hr := root_mem S.inv.dec c1
    refine ⟨root L i, lab_core hsymm S hcore c1, hr.1, (cp_iff hsymm S hcore hr.1).mp hr, ?_, ?_⟩
    · have := S.root_rel c1
      rw [link_eq hsymm S hcore] at this
      exact chained_of_eqvGen hsymm this
    · intro j hj hjc hc
      have := eqvGen_of_chained hc
      rw [← link_eq hsymm S hcore] at this
      rw [S.root_eq this]
      exact root_le S.inv.dec ((cp_iff hsymm S hcore hj).mpr hjc)

lemma lab_alone {i : ℕ} (hi : i < n) (h : ¬ Core n near minPts i) (hL : L i = i) :
    lab n false core L i = -1 := by
  have hC : ¬ CP n core i := fun hc => h ((cp_iff hsymm S hcore hi).mp hc)
  unfold lab
  rw [if_pos]
  refine ⟨count_alone S.pre hi hC hL, Or.inr ?_⟩
  rw [hcore i hi]; exact decide_eq_false h

theorem isDBSCANStar_of_stage (hstar : star = true) :
    IsDBSCANStar n near minPts (lab n false core L) := by
  have hc := normal_common hsymm S hcore
  refine ⟨hc.1, hc.2.1, ?_⟩
  intro i hi h
  have hC : ¬ CP n core i := fun hc => h ((cp_iff hsymm S hcore hi).mp hc)
  refine lab_alone hsymm S hcore hi h ?_
  rcases S.inv.out i hC with h' | ⟨-, j, -, h', -⟩
  · exact h'
  · rw [hstar] at h'; exact absurd h'.1 (by simp)

theorem isDBSCAN_of_stage (hstar : star = false) :
    IsDBSCAN n near minPts (lab n false core L) := by
  have hc := normal_common hsymm S hcore
  refine ⟨hc.1, hc.2.1, ?_, ?_⟩
  · intro i hi h hnc
    have hC : ¬ CP n core i := fun hc => h ((cp_iff hsymm S hcore hi).mp hc)
    obtain ⟨j, hj, hjc, hjn⟩ := hnc
    have hL := S.into hstar i j hi (by rw [hcore i hi]; exact decide_eq_false h)
      ((cp_iff hsymm S hcore hj).mpr hjc) hjn
    rcases S.inv.out i hC with h' | ⟨-, j', hj', h', hR⟩
    · rw [h'] at hL; exact absurd hL hC
    · refine ⟨j', hj'.1, (cp_iff hsymm S hcore hj'.1).mp hj', h'.2, ?_⟩
      rw [lab_core hsymm S hcore hj']
      unfold lab
      rw [if_neg (by rintro ⟨h1, -⟩; exact count_border S.pre hi hC hL h1), tgt_border hC hL,
        S.root_eq hR]
  · intro i hi h hnc
    have hC : ¬ CP n core i := fun hc => h ((cp_iff hsymm S hcore hi).mp hc)
    refine lab_alone hsymm S hcore hi h ?_
    rcases S.inv.out i hC with h' | ⟨-, j', hj', h', hR⟩
    · exact h'
    · exact absurd ⟨j', hj'.1, (cp_iff hsymm S hcore hj'.1).mp hj', h'.2⟩ hnc

end Normal

/-! ## The special case of two points -/

section Special

variable (hrefl : ∀ i j, near i j = true → near i i = true) {star : Bool} {L : ℕ → ℕ}
  (S : Stage n (fun _ => true) near star L)
include hrefl S

lemma core_two {i : ℕ} (hi : i < n) : Core n near 2 i ↔ ∃ j < n, j ≠ i ∧ near i j = true := by
  unfold Core
  by_cases hii : near i i = true
  swap
  · have hno : (List.range n).filter (near i) = [] := by
      rw [List.filter_eq_nil_iff]
      exact fun j _ hj => hii (hrefl i j hj)
    rw [hno]
    constructor
    · intro h; simp at h
    · rintro ⟨j, -, -, hj⟩
      exact absurd (hrefl i j hj) hii
  have h1 := count_one (p := near i) hi hii
  rw [List.countP_eq_length_filter] at h1
  have hpos : 0 < ((List.range n).filter (near i)).length :=
    List.length_pos_of_mem (List.mem_filter.mpr ⟨List.mem_range.mpr hi, hii⟩)
  constructor
  · intro h
    by_contra hcon
    have : ∀ b < n, near i b = true → b = i := by
      intro b hb hnb
      by_contra hne
      exact hcon ⟨b, hb, hne, hnb⟩
    have := h1.mpr this
    omega
  · rintro ⟨j, hj, hne, hnj⟩
    by_contra hcon
    have : ((List.range n).filter (near i)).length = 1 := by omega
    exact hne (h1.mp this j hj hnj)

lemma eqvGen_two {i j : ℕ} (h : Relation.EqvGen (Link n (fun _ => true) near) i j) :
    i = j ∨ (i < n ∧ j < n ∧ Core n near 2 i ∧ Core n near 2 j ∧ Chained n near 2 i j) := by
  induction h with
  | rel a b h =>
    obtain ⟨⟨h1, -⟩, ⟨h2, -⟩, h3⟩ := h
    by_cases e : a = b
    · exact Or.inl e
    · have ca := (core_two hsymm hrefl S h1).mpr ⟨b, h2, Ne.symm e, h3⟩
      have cb := (core_two hsymm hrefl S h2).mpr ⟨a, h1, e, by rw [hsymm]; exact h3⟩
      exact Or.inr ⟨h1, h2, ca, cb, Relation.ReflTransGen.single ⟨h1, h2, ca, cb, h3⟩⟩
  | refl a => exact Or.inl rfl
  | symm a b _ ih =>
    rcases ih with ih | ⟨h1, h2, h3, h4, h5⟩
    · exact Or.inl ih.symm
    · exact Or.inr ⟨h2, h1, h4, h3,
        chained_of_eqvGen hsymm ((eqvGen_of_chained h5).symm _ _)⟩
  | trans a b c _ _ ih1 ih2 =>
    rcases ih1 with rfl | ⟨h1, h2, h3, h4, h5⟩
    · exact ih2
    · rcases ih2 with rfl | ⟨h6, h7, h8, h9, h10⟩
      · exact Or.inr ⟨h1, h2, h3, h4, h5⟩
      · exact Or.inr ⟨h1, h7, h3, h9, h5.trans h10⟩

lemma eqvGen_of_chained_two {i j : ℕ} (h : Chained n near 2 i j) :
    Relation.EqvGen (Link n (fun _ => true) near) i j := by
  induction h with
  | refl => exact .refl _
  | tail _ h2 ih =>
    obtain ⟨h3, h4, -, -, h7⟩ := h2
    exact .trans _ _ _ ih (.rel _ _ ⟨⟨h3, rfl⟩, ⟨h4, rfl⟩, h7⟩)

lemma special_tgt {i : ℕ} (hi : i < n) : tgt (CP n (fun _ => true)) L i = root L i :=
  tgt_core ⟨hi, rfl⟩

lemma special_lab {i : ℕ} (hi : i < n) :
    lab n true (fun _ => true) L i = if Core n near 2 i then (root L i : ℤ) else -1 := by
  unfold lab
  rw [special_tgt hsymm hrefl S hi]
  have hc : (List.range n).countP (fun j => decide (tgt (CP n fun _ => true) L j = root L i)) = 1 ↔
      ¬ Core n near 2 i := by
    have he : tgt (CP n fun _ => true) L i = root L i := special_tgt hsymm hrefl S hi
    rw [count_one hi (by simp [he])]
    constructor
    · intro hall hcore
      obtain ⟨j, hj, hne, hnj⟩ := (core_two hsymm hrefl S hi).mp hcore
      refine hne (hall j hj ?_)
      rw [special_tgt hsymm hrefl S hj, decide_eq_true_eq]
      exact (S.link i j ⟨⟨hi, rfl⟩, ⟨hj, rfl⟩, hnj⟩).symm
    · intro hnc j hj hjt
      rw [special_tgt hsymm hrefl S hj, decide_eq_true_eq] at hjt
      have := (S.root_iff ⟨hj, rfl⟩ ⟨hi, rfl⟩).mp hjt
      rcases eqvGen_two hsymm hrefl S this with h | ⟨-, -, -, h, -⟩
      · exact h
      · exact absurd h hnc
  by_cases h : Core n near 2 i
  · rw [if_pos h, if_neg (by rintro ⟨h1, -⟩; exact hc.mp h1 h)]
  · rw [if_neg h, if_pos ⟨hc.mpr h, Or.inl rfl⟩]

theorem special_of_stage :
    IsDBSCAN n near 2 (lab n true (fun _ => true) L) ∧
    IsDBSCANStar n near 2 (lab n true (fun _ => true) L) ∧
    Canonical n near 2 (lab n true (fun _ => true) L) := by
  have a1 : ∀ i < n, Core n near 2 i → 0 ≤ lab n true (fun _ => true) L i := by
    intro i hi h
    rw [special_lab hsymm hrefl S hi, if_pos h]; omega
  have a2 : ∀ i < n, ∀ j < n, Core n near 2 i → Core n near 2 j →
      (lab n true (fun _ => true) L i = lab n true (fun _ => true) L j ↔ Chained n near 2 i j) := by
    intro i hi j hj h1 h2
    rw [special_lab hsymm hrefl S hi, if_pos h1, special_lab hsymm hrefl S hj, if_pos h2,
      Int.natCast_inj, S.root_iff ⟨hi, rfl⟩ ⟨hj, rfl⟩]
    constructor
    · intro h
      rcases eqvGen_two hsymm hrefl S h with rfl | h
      · exact Relation.ReflTransGen.refl
      · exact h.2.2.2.2
    · exact eqvGen_of_chained_two hsymm hrefl S
  have a3 : ∀ i < n, ¬ Core n near 2 i → lab n true (fun _ => true) L i = -1 := by
    intro i hi h
    rw [special_lab hsymm hrefl S hi, if_neg h]
  refine ⟨⟨a1, a2, ?_, fun i hi h _ => a3 i hi h⟩, ⟨a1, a2, a3⟩, ?_⟩
  · intro i hi h hnc
    exfalso
    obtain ⟨j, hj, hjc, hjn⟩ := hnc
    apply h
    by_cases e : j = i
    · rw [← e]; exact hjc
    · exact (core_two hsymm hrefl S hi).mpr ⟨j, hj, e, hjn⟩
  · intro i hi h
    have c : CP n (fun _ => true) i := ⟨hi, rfl⟩
    have hr := root_mem S.inv.dec c
    rcases eqvGen_two hsymm hrefl S (S.root_rel c) with e | h'
    · refine ⟨root L i, by rw [special_lab hsymm hrefl S hi, if_pos h], hr.1, by rw [← e]; exact h,
        by rw [← e]; exact Relation.ReflTransGen.refl, ?_⟩
      intro j hj _ hc
      rw [S.root_eq (eqvGen_of_chained_two hsymm hrefl S hc)]
      exact root_le S.inv.dec ⟨hj, rfl⟩
    · refine ⟨root L i, by rw [special_lab hsymm hrefl S hi, if_pos h], hr.1, h'.2.2.2.1,
        h'.2.2.2.2, ?_⟩
      intro j hj _ hc
      rw [S.root_eq (eqvGen_of_chained_two hsymm hrefl S hc)]
      exact root_le S.inv.dec ⟨hj, rfl⟩

end Special

end

end ArborX.Dbscan
