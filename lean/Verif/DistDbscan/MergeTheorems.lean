import Verif.DistDbscan.MergeLemmas
import Mathlib.Tactic.IntervalCases

/-!
# Property theorems: merging the labels of the distributed DBSCAN (C30)
-/

namespace ArborX.DistDbscan

open Distributed

/-- Two labels are joined: a chain of merge pairs of any processes leads from one to the other. -/
def Joined (P : ℕ) (pairs : ℕ → List Pair) : ℤ → ℤ → Prop :=
  Relation.EqvGen (fun a b => ∃ s < P, (a, b) ∈ pairs s)

/-! ## The gathered pairs -/

lemma sortAndFilter_order {order order' : List ℕ} {l : List Pair} (ho : order.Perm (List.range l.length))
    (ho' : order'.Perm (List.range l.length)) : sortAndFilter order l = sortAndFilter order' l := by
  have hlen : (sortPairs l).length = l.length := (sortPairs_perm l).length_eq
  have h1 := filter_total (sortPairs l)
  rw [hlen] at h1
  unfold sortAndFilter
  rw [scanWrites_spec ho h1, scanWrites_spec ho' h1]

/-- The merge phase does not depend on the execution. -/
lemma globalPairs_eq {E : MEnv} (hE : E.Valid) (P : ℕ) (pairs : ℕ → List Pair) (r : ℕ) :
    globalPairs E P pairs r = globalPairs ⟨fun _ n => List.range n, fun _ n => List.range n⟩ P pairs 0 := by
  unfold globalPairs
  have h : (fun s => sortAndFilter (E.localOrder s (pairs s).length) (pairs s)) =
      fun s => sortAndFilter (List.range (pairs s).length) (pairs s) := by
    funext s
    exact sortAndFilter_order (hE.localOrder _ _) (List.Perm.refl _)
  rw [h]
  congr 1
  funext f
  exact sortAndFilter_order (hE.globalOrder _ _) (List.Perm.refl _)

lemma globalPairs_spec {E : MEnv} (hE : E.Valid) (P : ℕ) (pairs : ℕ → List Pair) :
    ∃ l, (∀ r, globalPairs E P pairs r = some l) ∧ l.Pairwise pairLe ∧
      (∀ a b, Relation.EqvGen (Rel l) a b ↔ Joined P pairs a b) ∧
      ((∀ s < P, ∀ p ∈ pairs s, p.2 < p.1) → (∀ p ∈ l, p.2 < p.1) ∧
        ∀ c t t', (∀ f, c < f → ¬ Joined P pairs c f) → (c, t) ∈ l → (c, t') ∈ l → t = t') := by
  have hloc := fun s => sortAndFilter_spec (hE.localOrder s (pairs s).length)
  choose filtered h1 h2 h3 h4 h5 using hloc
  obtain ⟨g, hg1, hg2⟩ := collect_some (P := P) (f := fun s => sortAndFilter (E.localOrder s (pairs s).length) (pairs s))
    (g := filtered) (fun s _ => h1 s)
  have hcat : (List.range P).flatMap g = (List.range P).flatMap filtered :=
    List.flatMap_congr (fun s hs => hg2 s (List.mem_range.mp hs))
  obtain ⟨l, k1, k2, k3, k4, k5⟩ := sortAndFilter_spec (hE.globalOrder 0 ((List.range P).flatMap g).length)
  have hrel : ∀ a b, Relation.EqvGen (Rel ((List.range P).flatMap g)) a b ↔ Joined P pairs a b := by
    intro a b
    rw [hcat]
    constructor
    · intro h
      induction h with
      | rel x y h =>
        obtain ⟨s, hs, hm⟩ := List.mem_flatMap.mp h
        have := (h3 s x y).mp (.rel _ _ hm)
        exact Relation.EqvGen.mono (fun a b hab => ⟨s, List.mem_range.mp hs, hab⟩) _ _ this
      | refl x => exact .refl _
      | symm x y _ ih => exact .symm _ _ ih
      | trans x y z _ _ ih1 ih2 => exact .trans _ _ _ ih1 ih2
    · intro h
      induction h with
      | rel x y h =>
        obtain ⟨s, hs, hm⟩ := h
        have := (h3 s x y).mpr (.rel _ _ hm)
        exact Relation.EqvGen.mono (fun a b hab => List.mem_flatMap.mpr ⟨s, List.mem_range.mpr hs, hab⟩) _ _ this
      | refl x => exact .refl _
      | symm x y _ ih => exact .symm _ _ ih
      | trans x y z _ _ ih1 ih2 => exact .trans _ _ _ ih1 ih2
  refine ⟨l, fun r => ?_, k2, fun a b => (k3 a b).trans (hrel a b), fun hd => ?_⟩
  · rw [globalPairs_eq hE P pairs r, ← globalPairs_eq hE P pairs 0]
    unfold globalPairs
    rw [hg1, Option.bind_some, k1]
  · have hdec : ∀ p ∈ (List.range P).flatMap g, p.2 < p.1 := by
      intro p hp
      rw [hcat] at hp
      obtain ⟨s, hs, hm⟩ := List.mem_flatMap.mp hp
      exact h4 s (hd s (List.mem_range.mp hs)) p hm
    refine ⟨k4 hdec, fun c t t' hc ht ht' => k5 c t t' (fun f hf => ?_) ht ht'⟩
    exact hc f (hdec _ hf) ((hrel c f).mp (.symm _ _ (.rel _ _ hf)))

/-- If within the labels joined with `a` no label leads to two different ones, then all of them end up equal. -/
lemma relabel_complete {l : List Pair} {ρ : ℤ → ℤ} (hρ : ∀ a t, (a, t) ∈ l → (∀ t', (a, t') ∈ l → t ≤ t') → ρ a = ρ t) {a b : ℤ}
    (hu : ∀ c t t', Relation.EqvGen (Rel l) a c → (c, t) ∈ l → (c, t') ∈ l → t = t') (hab : Relation.EqvGen (Rel l) a b) : ρ a = ρ b := by
  have key : ∀ x y, Relation.EqvGen (Rel l) x y → Relation.EqvGen (Rel l) a x → ρ x = ρ y := by
    intro x y h
    induction h with
    | rel x y h => intro hx; exact hρ x y h (fun t' ht' => le_of_eq (hu x y t' hx h ht'))
    | refl x => intro _; rfl
    | symm x y hxy ih => intro hx; exact (ih (.trans _ _ _ hx (.symm _ _ hxy))).symm
    | trans x y z hxy hyz ih1 ih2 => intro hx; exact (ih1 hx).trans (ih2 (.trans _ _ _ hx hxy))
  exact key a b hab (.refl _)

/-! ## Property theorems -/

/-- **C30, partial.** For every number of processes and all merge pairs with `to < from`, in every execution: the merge phase ends, it
gives the same value to a label on all processes, a label becomes one it is joined with, and labels become equal only if they are joined. Labels that are joined become
equal if at most three labels are joined with them. Missing: this is false for more labels, see `merge_loses_labels`. -/
theorem merge_labels_partial (E : MEnv) (hE : E.Valid) (P : ℕ) (pairs : ℕ → List Pair) (hd : ∀ s < P, ∀ p ∈ pairs s, p.2 < p.1) :
    ∃ (new : ℤ → ℤ) (N : ℕ), (∀ r < P, ∀ fuel ≥ N, ∀ a, merge E P pairs fuel r a = some (new a)) ∧
      (∀ a, Joined P pairs a (new a)) ∧ (∀ a b, new a = new b → Joined P pairs a b) ∧
      ∀ a b, Joined P pairs a b → (∃ x y z, ∀ c, Joined P pairs a c → c = x ∨ c = y ∨ c = z) → new a = new b := by
  obtain ⟨l, h1, h2, h3, h4⟩ := globalPairs_spec hE P pairs
  obtain ⟨h4, h5⟩ := h4 hd
  obtain ⟨ρ, k1, k2, k3⟩ := relabel_spec h2 h4
  have key : ∀ a, Joined P pairs a (ρ a) := by
    intro a
    refine relabel_induction (l := l) (fun a => Joined P pairs a (ρ a)) (fun a ha => ?_) (fun a t ht ih => ?_) a
    · rw [k2 a ha]; exact .refl _
    · obtain ⟨u, hu1, hu2⟩ := min_to h2 ht
      rw [k3 a u hu1 hu2]
      exact .trans _ _ _ ((h3 a u).mp (.rel _ _ hu1)) (ih u (h4 _ hu1))
  refine ⟨ρ, l.length + 1, fun r _ fuel hf a => ?_, key, fun a b hab => ?_, fun a b hab ⟨x, y, z, hxyz⟩ => ?_⟩
  · unfold merge
    rw [h1 r, Option.bind_some]
    exact k1 fuel hf a
  · refine .trans _ _ _ (key a) (.symm _ _ ?_)
    rw [hab]
    exact key b
  · refine relabel_complete k3 (fun c t t' hc ht ht' => ?_) ((h3 a b).mpr hab)
    -- `c`, `t` and `t'` would be three different labels, with `c` the largest
    by_contra hne
    have ac := (h3 a c).mp hc
    have at1 := (h3 a t).mp (.trans _ _ _ hc (.rel _ _ ht))
    have at2 := (h3 a t').mp (.trans _ _ _ hc (.rel _ _ ht'))
    have hct := h4 _ ht
    have hct' := h4 _ ht'
    simp only at hct hct'
    refine hne (h5 c t t' (fun f hf hcf => ?_) ht ht')
    have af := Relation.EqvGen.trans _ _ _ ac hcf
    have q1 := hxyz c ac
    have q2 := hxyz t at1
    have q3 := hxyz t' at2
    have q4 := hxyz f af
    omega

/-- **C30, partial.** If after the second filter no label leads to two different labels, then labels end up equal exactly when
they are joined. The condition is about an intermediate result; it fails for `chainPairs`. -/
theorem merge_unique_partial (E : MEnv) (hE : E.Valid) (P : ℕ) (pairs : ℕ → List Pair) (hd : ∀ s < P, ∀ p ∈ pairs s, p.2 < p.1)
    (hu : ∀ l, globalPairs E P pairs 0 = some l → ∀ a b c, (a, b) ∈ l → (a, c) ∈ l → b = c) :
    ∃ (new : ℤ → ℤ) (N : ℕ), (∀ r < P, ∀ fuel ≥ N, ∀ a, merge E P pairs fuel r a = some (new a)) ∧
      (∀ a, Joined P pairs a (new a)) ∧ ∀ a b, new a = new b ↔ Joined P pairs a b := by
  obtain ⟨l, h1, h2, h3, h4⟩ := globalPairs_spec hE P pairs
  obtain ⟨h4, -⟩ := h4 hd
  obtain ⟨ρ, k1, k2, k3⟩ := relabel_spec h2 h4
  have key : ∀ a, Joined P pairs a (ρ a) := by
    intro a
    refine relabel_induction (l := l) (fun a => Joined P pairs a (ρ a)) (fun a ha => ?_) (fun a t ht ih => ?_) a
    · rw [k2 a ha]; exact .refl _
    · obtain ⟨u, hu1, hu2⟩ := min_to h2 ht
      rw [k3 a u hu1 hu2]
      exact .trans _ _ _ ((h3 a u).mp (.rel _ _ hu1)) (ih u (h4 _ hu1))
  refine ⟨ρ, l.length + 1, fun r _ fuel hf a => ?_, key, fun a b => ⟨fun hab => ?_, fun hab => ?_⟩⟩
  · unfold merge
    rw [h1 r, Option.bind_some]
    exact k1 fuel hf a
  · refine .trans _ _ _ (key a) (.symm _ _ ?_)
    rw [hab]
    exact key b
  · exact relabel_complete k3 (fun c t t' _ ht ht' => hu l (h1 0) c t t' ht ht') ((h3 a b).mpr hab)

/-- The merge pairs of five processes that share the ten points 0, 1, ..., 9 of a line (`eps = 1`, `core_min_size = 2`): processes
0, 4, 3, 2, 1 have two consecutive points each. See `Theorems.lean` for the whole run. -/
def chainPairs (s : ℕ) : List Pair :=
  [[(8, 0)], [(4, 2)], [(6, 4), (4, 2)], [(8, 6), (6, 4)], [(8, 0), (8, 6)]].getD s []

/-- **C30 is false.** There are merge pairs of five processes, with `to < from`, that join the labels 0 and 2, but in every
execution these labels stay as they are. -/
theorem merge_loses_labels : (∀ s < 5, ∀ p ∈ chainPairs s, p.2 < p.1) ∧ Joined 5 chainPairs 0 2 ∧
    ∀ E : MEnv, E.Valid → ∀ r < 5, ∀ fuel > 0, merge E 5 chainPairs fuel r 0 = some 0 ∧ merge E 5 chainPairs fuel r 2 = some 2 := by
  refine ⟨by decide, ?_, ?_⟩
  · have h : ∀ s < 5, ∀ p ∈ chainPairs s, Joined 5 chainPairs p.1 p.2 := fun s hs p hp => .rel _ _ ⟨s, hs, hp⟩
    have h80 := h 0 (by decide) (8, 0) (by decide)
    have h86 := h 3 (by decide) (8, 6) (by decide)
    have h64 := h 2 (by decide) (6, 4) (by decide)
    have h42 := h 1 (by decide) (4, 2) (by decide)
    exact .trans _ _ _ (.symm _ _ h80) (.trans _ _ _ h86 (.trans _ _ _ h64 h42))
  · intro E hE r _ fuel hf
    have hg : globalPairs ⟨fun _ n => List.range n, fun _ n => List.range n⟩ 5 chainPairs 0 =
        some [(4, 0), (4, 2), (6, 0), (6, 0), (8, 0)] := by decide +kernel
    obtain ⟨g, rfl⟩ : ∃ g, fuel = g + 1 := ⟨fuel - 1, by omega⟩
    unfold merge
    rw [globalPairs_eq hE, hg, Option.bind_some]
    have hs : ([(4, 0), (4, 2), (6, 0), (6, 0), (8, 0)] : List Pair).Pairwise pairLe := by decide
    constructor
    · rcases relabel_succ hs g 0 with ⟨-, h⟩ | ⟨t, h, -⟩
      · exact h
      · simp at h
    · rcases relabel_succ hs g 2 with ⟨-, h⟩ | ⟨t, h, -⟩
      · exact h
      · simp at h

/-! ## Cases that meet the hypotheses -/

/-- Loops run backwards. -/
def someMEnv : MEnv := ⟨fun _ n => (List.range n).reverse, fun _ n => (List.range n).reverse⟩

lemma someMEnv_valid : someMEnv.Valid := ⟨fun _ _ => List.reverse_perm _, fun _ _ => List.reverse_perm _⟩

/-- Two processes and four labels, where one filter is not enough. -/
def fourPairs (s : ℕ) : List Pair := [[(9, 1), (9, 4)], [(9, 4), (4, 2)]].getD s []

example : (∀ s < 2, ∀ p ∈ fourPairs s, p.2 < p.1) ∧
    globalPairs someMEnv 2 fourPairs 0 = some [(2, 1), (4, 1), (4, 1), (9, 1)] := by decide +kernel

example : ∀ l, globalPairs someMEnv 2 fourPairs 0 = some l → ∀ a b c, (a, b) ∈ l → (a, c) ∈ l → b = c := by
  have : globalPairs someMEnv 2 fourPairs 0 = some [(2, 1), (4, 1), (4, 1), (9, 1)] := by decide +kernel
  intro l hl a b c hb hc
  rw [this] at hl
  obtain rfl := Option.some.inj hl
  simp at hb hc
  omega

example : ([9, 4, 2, 1, 7] : List ℤ).map (merge someMEnv 2 fourPairs 9 1) = [some 1, some 1, some 1, some 1, some 7] := by
  decide +kernel

end ArborX.DistDbscan
