import Verif.DistDbscan.Run

/-!
# Lemmas: the distributed DBSCAN as a whole (C48)
-/

namespace ArborX.DistDbscan

open Distributed BVH Traversal Dbscan

variable {X V : Type} {w : ℕ} [SemilatticeSup V] [OrderBot V]

/-! ## Lemmas -/

section
variable {D : In X V} {E : XEnv X w} {gp : ℕ → List X} {gi : ℕ → List ℕ} {gr : ℕ → List ℤ} {F : ℕ → List (ℕ × ℕ)} {l : ℕ → List ℤ}
  {star : Bool} {own idx : ℕ → ℕ}

/-- The ghosts have arrived, and the local clusterings have run. -/
lemma exists_found' (hD : D.Base) (hE : E.Valid D) (hL : E.Local D star) (queryFuel : ℕ) (hq : 2 * D.P ≤ queryFuel) :
    ∃ gp gi gr, D.ghosts E queryFuel = some (gp, gi, gr) ∧ ∃ F l own idx, Found' D E gp gi gr F l star own idx := by
  obtain ⟨gp, gi, gr, hg, F, hF⟩ := ghosts_spec D hD E hE queryFuel hq
  refine ⟨gp, gi, gr, hg, F, ?_⟩
  have h1 := fun t ht => (hF t ht).1
  have h2 := fun t ht => (hF t ht).2.1
  have h3 := fun t ht => (hF t ht).2.2.1
  have h4 := fun t ht => (hF t ht).2.2.2.1
  have h5 := fun t ht => (hF t ht).2.2.2.2
  have hlen : ∀ r < D.P, (D.points r ++ gp r).length ≤ D.all.length := by
    intro r hr
    have hs := (seen_spec h1 h2 h3 h5 hr).2.2
    rw [← List.length_range (n := (D.points r ++ gp r).length), ← List.length_map (f := D.seen r (gi r) (gr r)),
      ← List.length_range (n := D.all.length)]
    apply List.Subperm.length_le
    apply List.subperm_of_subset
    · apply List.Nodup.map_on
      · intro i hi j hj h
        exact seen_inj h1 h2 h3 h4 h5 hr (List.mem_range.mp hi) (List.mem_range.mp hj) h
      · exact List.nodup_range
    · intro g hg
      obtain ⟨i, hi, rfl⟩ := List.mem_map.mp hg
      have := hs i
      rw [List.getElem?_eq_getElem (List.mem_range.mp hi)] at this
      exact List.mem_range.mpr (List.getElem?_eq_some_iff.mp this).1
  have hl : ∀ r, ∃ l, r < D.P → E.dbscan r (D.points r ++ gp r) = some l ∧ l.length = (D.points r ++ gp r).length ∧
    IsClustering star (D.points r ++ gp r).length (nearOf D.near (D.points r ++ gp r)) D.minPts (labelAt l) ∧
    Canonical (D.points r ++ gp r).length (nearOf D.near (D.points r ++ gp r)) D.minPts (labelAt l) := by
    intro r
    by_cases hr : r < D.P
    · obtain ⟨l, h⟩ := hL r hr _ (hlen r hr)
      exact ⟨l, fun _ => h⟩
    · exact ⟨[], fun h => absurd h hr⟩
  choose l hl using hl
  have ho : ∀ g, ∃ r i, g < D.all.length → r < D.P ∧ i < (D.points r).length ∧ g = D.rankOffset r + i := by
    intro g
    by_cases hg : g < D.all.length
    · obtain ⟨r, hr, i, hi, e⟩ := D.exists_owner hg
      exact ⟨r, i, fun _ => ⟨hr, hi, e⟩⟩
    · exact ⟨0, 0, fun h => absurd h hg⟩
  choose own idx ho using ho
  exact ⟨l, own, idx, h1, h2, h3, h4, h5, hl, ho⟩

/-- The labels found for a point: by its owner, and by other processes. -/
lemma found_iff (H : Found' D E gp gi gr F l star own idx) {L : ℕ → ℕ → List ℤ}
    (hL : ∀ r < D.P, ∀ id x, x ∈ L r id ↔ ∃ s < D.P, ∃ k, (F s)[k]? = some (r, id) ∧ gl D gi gr l s ((D.points s).length + k) = x ∧ x ≠ -1)
    {g : ℕ} (hg : g < D.all.length) {x : ℤ} :
    Views.Found D.P (sizeOf D gp) (fun r => D.seen r (gi r) (gr r)) (fun r => labelAt (l r)) g x ↔
      (gl D gi gr l (own g) (idx g) = x ∧ x ≠ -1) ∨ x ∈ L (own g) (idx g) := by
  obtain ⟨o1, o2, o3⟩ := H.own g hg
  rw [hL _ o1]
  have hsize : ∀ {r}, r < D.P → sizeOf D gp r = (D.points r).length + (F r).length := fun {r} hr => by
    unfold sizeOf
    rw [if_pos hr, List.length_append, H.length hr]
  constructor
  · rintro ⟨r, hr, i, hi, h1, h2, h3⟩
    beta_reduce at h1
    rw [hsize hr] at hi
    by_cases hlt : i < (D.points r).length
    · rw [seen_own hlt, o3] at h1
      obtain ⟨rfl, rfl⟩ := D.rank_inj hlt o2 h1
      exact Or.inl ⟨h2, h3⟩
    · obtain ⟨k, rfl⟩ : ∃ k, i = (D.points r).length + k := ⟨i - (D.points r).length, by omega⟩
      have hk : k < (F r).length := by omega
      have hs := (seen_spec H.points H.ids H.ranks H.mem hr).2.1 k _ (List.getElem?_eq_getElem hk)
      rw [hs.1, o3] at h1
      obtain ⟨e1, e2⟩ := D.rank_inj hs.2.2.2 o2 h1
      refine Or.inr ⟨r, hr, k, ?_, h2, h3⟩
      rw [List.getElem?_eq_getElem hk, ← e1, ← e2]
  · rintro (⟨h1, h2⟩ | ⟨s, hs, k, h1, h2, h3⟩)
    · exact ⟨own g, o1, idx g, by rw [hsize o1]; omega, by beta_reduce; rw [seen_own o2, ← o3], h1, h2⟩
    · have hk := (List.getElem?_eq_some_iff.mp h1).1
      refine ⟨s, hs, (D.points s).length + k, by rw [hsize hs]; omega, ?_, h2, h3⟩
      beta_reduce
      rw [((seen_spec H.points H.ids H.ranks H.mem hs).2.1 k _ h1).1, ← o3]

/-- A point with a label from another process has one from its owner. -/
lemma own_label (H : Found' D E gp gi gr F l star own idx)
    (W : Views D.all.length (nearOf D.near D.all) D.minPts star D.P own (sizeOf D gp) (fun r => D.seen r (gi r) (gr r)) (fun r => labelAt (l r)))
    {g : ℕ} (hg : g < D.all.length) {x : ℤ}
    (hx : Views.Found D.P (sizeOf D gp) (fun r => D.seen r (gi r) (gr r)) (fun r => labelAt (l r)) g x) :
    gl D gi gr l (own g) (idx g) ≠ -1 := by
  obtain ⟨o1, o2, o3⟩ := H.own g hg
  intro hneg
  have hi : idx g < sizeOf D gp (own g) := by unfold sizeOf; rw [if_pos o1, List.length_append]; omega
  obtain ⟨k1, k2⟩ := (W.glob_own hg hi (by rw [seen_own o2, ← o3])).mp hneg
  obtain ⟨r, hr, i, hi', h1, h2, h3⟩ := hx
  obtain ⟨c, -, -, -, -, h5, b, hb1, hb2, hb3, -⟩ := W.glob_sound hr hi' (by rw [h2]; exact h3)
  beta_reduce at h1 h5 hb3
  rw [h1] at h5 hb3
  rcases k2 with k2 | k2
  · exact k1 (h5 k2)
  · exact k2 ⟨b, hb1, hb2, hb3⟩

/-- A point that the code takes as a core point and that has a label is one. -/
lemma core_point (H : Found' D E gp gi gr F l star own idx)
    (W : Views D.all.length (nearOf D.near D.all) D.minPts star D.P own (sizeOf D gp) (fun r => D.seen r (gi r) (gr r)) (fun r => labelAt (l r)))
    {g : ℕ} (hg : g < D.all.length) {x : ℤ}
    (hx : Views.Found D.P (sizeOf D gp) (fun r => D.seen r (gi r) (gr r)) (fun r => labelAt (l r)) g x)
    (hc : D.isCore (own g) (gp (own g)) (idx g) = true) : Core D.all.length (nearOf D.near D.all) D.minPts g := by
  obtain ⟨o1, o2, o3⟩ := H.own g hg
  have hsize : sizeOf D gp (own g) = (D.points (own g) ++ gp (own g)).length := if_pos o1
  have hnear : (fun i j => nearOf D.near D.all (D.seen (own g) (gi (own g)) (gr (own g)) i) (D.seen (own g) (gi (own g)) (gr (own g)) j)) =
      nearOf D.near (D.points (own g) ++ gp (own g)) := by
    have hs := seen_spec H.points H.ids H.ranks H.mem o1
    funext i j
    unfold nearOf
    rw [hs.2.2 i, hs.2.2 j]
  rcases (isCore_spec D _ _ o2).mp hc with h2 | h2
  · obtain ⟨r, hr, i, hi', h1, h3, h4⟩ := hx
    obtain ⟨c, -, -, -, -, -, b, hb1, hb2, hb3, -⟩ := W.glob_sound hr hi' (by rw [h3]; exact h4)
    beta_reduce at h1 hb3
    rw [h1] at hb3
    by_cases e : b = g
    · exact e ▸ hb2
    · unfold Core
      rw [h2]
      have hsub : [g, b].Subperm ((List.range D.all.length).filter (nearOf D.near D.all g)) := by
        apply List.subperm_of_subset
        · simp [Ne.symm e]
        · intro y hy
          rw [List.mem_filter, List.mem_range]
          rcases List.mem_cons.mp hy with rfl | hy
          · exact ⟨hg, W.refl _⟩
          · rw [List.mem_singleton] at hy
            subst hy
            exact ⟨hb1, hb3⟩
      simpa using hsub.length_le
  · have := W.core_mono (r := own g) (i := idx g) (by rw [hsize, hnear]; exact h2)
    beta_reduce at this
    rwa [seen_own o2, ← o3] at this

lemma isCore_of_core (H : Found' D E gp gi gr F l star own idx)
    (W : Views D.all.length (nearOf D.near D.all) D.minPts star D.P own (sizeOf D gp) (fun r => D.seen r (gi r) (gr r)) (fun r => labelAt (l r)))
    {g : ℕ} (hg : g < D.all.length) (hc : Core D.all.length (nearOf D.near D.all) D.minPts g) :
    D.isCore (own g) (gp (own g)) (idx g) = true := by
  obtain ⟨o1, o2, o3⟩ := H.own g hg
  have hsize : sizeOf D gp (own g) = (D.points (own g) ++ gp (own g)).length := if_pos o1
  have hnear : (fun i j => nearOf D.near D.all (D.seen (own g) (gi (own g)) (gr (own g)) i) (D.seen (own g) (gi (own g)) (gr (own g)) j)) =
      nearOf D.near (D.points (own g) ++ gp (own g)) := by
    have hs := seen_spec H.points H.ids H.ranks H.mem o1
    funext i j
    unfold nearOf
    rw [hs.2.2 i, hs.2.2 j]
  refine (isCore_spec D _ _ o2).mpr (Or.inr ?_)
  have := W.core_own hg (i := idx g) (by rw [hsize, List.length_append]; omega) (by rw [seen_own o2, ← o3]) hc
  rwa [hsize, hnear] at this

end

/-- What is true of the result in any case, and when it is a clustering of all points. -/
lemma dbscan_run (D : In X V) (hD : D.Geometry) (h2 : 2 ≤ D.minPts) (star : Bool) (E : XEnv X w) (hE : E.Valid D) (hL : E.Local D star)
    (hc : ∀ r n, InOrder (E.csched r n)) (queryFuel : ℕ) (hq : 2 * D.P ≤ queryFuel) :
    ∃ (N : ℕ) (res : ℕ → List ℤ), (∀ fuel ≥ N, ∃ res', D.dbscan E queryFuel fuel = some res' ∧ ∀ r < D.P, res' r = res r) ∧
      (∀ r < D.P, (res r).length = (D.points r).length) ∧
      (let lab := labelAt ((List.range D.P).flatMap res)
       let near := nearOf D.near D.all
       (∀ g < D.all.length, lab g = -1 ↔ ¬ Core D.all.length near D.minPts g ∧ (star = true ∨ ¬ NearCore D.all.length near D.minPts g)) ∧
       (∀ g < D.all.length, Core D.all.length near D.minPts g → 0 ≤ lab g) ∧
       (∀ g < D.all.length, ∀ h < D.all.length, lab g ≠ -1 → lab g = lab h →
         ∃ b b', Views.Anchor D.all.length near D.minPts g b ∧ Views.Anchor D.all.length near D.minPts h b' ∧ Chained D.all.length near D.minPts b b') ∧
       (D.FewLabels E queryFuel → IsClustering star D.all.length near D.minPts lab)) := by
  obtain ⟨gp, gi, gr, hg, F, l, own, idx, H⟩ := exists_found' hD.toBase hE hL queryFuel hq
  have W := views_spec hD h2 H
  obtain ⟨L, pairs, hLm, -, hpm, hrun⟩ := H.run hE hc
  have hfound := fun {g : ℕ} (hg : g < D.all.length) {x : ℤ} => found_iff H hLm hg (x := x)
  -- a merge pair comes from a core point
  have hpair : ∀ s < D.P, ∀ id < (D.points s).length, ∀ p ∈ pairsOf (D.isCore s (gp s) id) (gl D gi gr l s id) (L s id),
      p.2 < p.1 ∧ ∃ g < D.all.length, Core D.all.length (nearOf D.near D.all) D.minPts g ∧
        Views.Found D.P (sizeOf D gp) (fun r => D.seen r (gi r) (gr r)) (fun r => labelAt (l r)) g p.1 ∧
        Views.Found D.P (sizeOf D gp) (fun r => D.seen r (gi r) (gr r)) (fun r => labelAt (l r)) g p.2 := by
    intro s hs id hid p hp
    have hgN := D.rank_lt hs hid
    obtain ⟨o1, o2, o3⟩ := H.own _ hgN
    obtain ⟨e1, e2⟩ := D.rank_inj hid o2 o3
    have hne : L s id ≠ [] := by
      intro h
      rw [h, pairsOf_nil] at hp
      simp at hp
    obtain ⟨x, hx⟩ := List.exists_mem_of_ne_nil _ hne
    have hfx := (hfound hgN (x := x)).mpr (Or.inr (by rw [← e1, ← e2]; exact hx))
    have ho := own_label H W hgN hfx
    rw [← e1, ← e2] at ho
    obtain ⟨k1, -, k3, k4, k5⟩ := pairsOf_sound ho hp
    refine ⟨k3, _, hgN, core_point H W hgN hfx (by rw [← e1, ← e2]; exact k1), ?_, ?_⟩
    · rw [hfound hgN, ← e1, ← e2]
      rcases List.mem_cons.mp k4 with h | h
      · exact Or.inl ⟨h.symm, by rw [h]; exact ho⟩
      · exact Or.inr h
    · rw [hfound hgN, ← e1, ← e2]
      rcases List.mem_cons.mp k5 with h | h
      · exact Or.inl ⟨h.symm, by rw [h]; exact ho⟩
      · exact Or.inr h
  obtain ⟨new, N, m1, m2, -, m4⟩ := merge_labels_partial E.merge hE.merge D.P pairs (by
    intro s hs p hp
    obtain ⟨id, hid, h⟩ := (hpm s hs p).mp hp
    exact (hpair s hs id hid p h).1)
  set res : ℕ → List ℤ := fun r =>
    (List.range (D.points r).length).map (fun id => new (ownLabel (D.isCore r (gp r) id) (gl D gi gr l r id) (L r id))) with hres
  have hlen : ∀ r, (res r).length = (D.points r).length := by intro r; simp [hres]
  refine ⟨N, res, fun fuel hf => ?_, fun r _ => hlen r, ?_⟩
  · obtain ⟨res', h1, h2'⟩ := hrun fuel new (fun r hr a => m1 r hr fuel hf a)
    refine ⟨res', ?_, h2'⟩
    unfold In.dbscan
    rw [if_neg (by omega), hg, Option.bind_some]
    exact h1
  have hlab : ∀ g < D.all.length, labelAt ((List.range D.P).flatMap res) g =
      new (ownLabel (D.isCore (own g) (gp (own g)) (idx g)) (gl D gi gr l (own g) (idx g)) (L (own g) (idx g))) := by
    intro g hgN
    obtain ⟨o1, o2, o3⟩ := H.own g hgN
    have hget := flatMap_get res o1 (i := idx g) (by rw [hlen]; exact o2)
    have hoff : Crs.scan (fun s => (res s).length) (own g) = D.rankOffset (own g) := by
      unfold In.rankOffset
      exact Crs.scan_congr (fun s _ => hlen s) _ le_rfl
    rw [hoff, ← o3] at hget
    unfold labelAt
    rw [List.getD_eq_getElem?_getD, hget, hres]
    simp [o2]
  have hR : ∀ a b, (∃ s < D.P, (a, b) ∈ pairs s) → ∃ g < D.all.length, Core D.all.length (nearOf D.near D.all) D.minPts g ∧
        Views.Found D.P (sizeOf D gp) (fun r => D.seen r (gi r) (gr r)) (fun r => labelAt (l r)) g a ∧
        Views.Found D.P (sizeOf D gp) (fun r => D.seen r (gi r) (gr r)) (fun r => labelAt (l r)) g b := by
    rintro a b ⟨s, hs, hp⟩
    obtain ⟨id, hid, h⟩ := (hpm s hs _).mp hp
    exact (hpair s hs id hid _ h).2
  have hself : ∀ g < D.all.length, ∀ i < sizeOf D gp (own g), D.seen (own g) (gi (own g)) (gr (own g)) i = g → i = idx g := by
    intro g hgN i hi he
    obtain ⟨o1, o2, o3⟩ := H.own g hgN
    refine W.inj (own g) i hi (idx g) ?_ ?_
    · unfold sizeOf; rw [if_pos o1, List.length_append]; omega
    · rw [he, seen_own o2, ← o3]
  have hmid : ∀ g < D.all.length, Joined D.P pairs (gl D gi gr l (own g) (idx g))
      (ownLabel (D.isCore (own g) (gp (own g)) (idx g)) (gl D gi gr l (own g) (idx g)) (L (own g) (idx g))) := by
    intro g hgN
    obtain ⟨o1, o2, o3⟩ := H.own g hgN
    by_cases hneg : gl D gi gr l (own g) (idx g) = -1
    · have : L (own g) (idx g) = [] := by
        by_contra hne
        obtain ⟨x, hx⟩ := List.exists_mem_of_ne_nil _ hne
        exact own_label H W hgN ((hfound hgN (x := x)).mpr (Or.inr hx)) hneg
      rw [this, ownLabel_nil]
      exact .refl _
    · rcases ownLabel_spec (core := D.isCore (own g) (gp (own g)) (idx g)) (L := L (own g) (idx g)) hneg with h | h
      · rw [h]; exact .refl _
      · exact .rel _ _ ⟨own g, o1, (hpm _ o1 _).mpr ⟨idx g, o2, h⟩⟩
  have hfin : ∀ g < D.all.length, ∀ i < sizeOf D gp (own g), (fun r => D.seen r (gi r) (gr r)) (own g) i = g →
      Relation.EqvGen (fun a b => ∃ s < D.P, (a, b) ∈ pairs s)
        (glob (fun r => D.seen r (gi r) (gr r)) (fun r => labelAt (l r)) (own g) i) (labelAt ((List.range D.P).flatMap res) g) := by
    intro g hgN i hi he
    obtain rfl := hself g hgN i hi he
    rw [hlab g hgN]
    exact .trans _ _ _ (hmid g hgN) (m2 _)
  obtain ⟨f1, f2, f3⟩ := W.final_sound hR hfin
  refine ⟨f1, f2, f3, fun hfew => ?_⟩
  refine W.final_complete hR ?_ hfin ?_
  · intro g hgN hcg a ha i hi he
    obtain rfl := hself g hgN i hi he
    obtain ⟨o1, o2, o3⟩ := H.own g hgN
    rcases (hfound hgN).mp ha with ⟨h, -⟩ | h
    · rw [← h]; exact .refl _
    · have ho := own_label H W hgN ha
      obtain ⟨m, k1, k2⟩ := pairsOf_complete ho h
      have hin : ∀ p, p ∈ pairsOf true (gl D gi gr l (own g) (idx g)) (L (own g) (idx g)) → p ∈ pairs (own g) := by
        intro p hp
        refine (hpm _ o1 p).mpr ⟨idx g, o2, ?_⟩
        rw [isCore_of_core H W hgN hcg]
        exact hp
      have e1 : Joined D.P pairs a m := by
        rcases k1 with rfl | k1
        · exact .refl _
        · exact .rel _ _ ⟨own g, o1, hin _ k1⟩
      have e2 : Joined D.P pairs (gl D gi gr l (own g) (idx g)) m := by
        rcases k2 with k2 | k2
        · rw [← k2]; exact .refl _
        · exact .rel _ _ ⟨own g, o1, hin _ k2⟩
      exact .trans _ _ _ e1 (.symm _ _ e2)
  · intro g hgN h hhN i hi hig j hj hjh hjoin hne
    obtain rfl := hself g hgN i hi hig
    obtain rfl := hself h hhN j hj hjh
    rw [hlab g hgN, hlab h hhN]
    have hjg := hmid g hgN
    refine m4 _ _ (.trans _ _ _ (.symm _ _ hjg) (.trans _ _ _ hjoin (hmid h hhN))) ?_
    have hlabelled : ∀ g x, Views.Found D.P (sizeOf D gp) (fun r => D.seen r (gi r) (gr r)) (fun r => labelAt (l r)) g x →
        D.Labelled E queryFuel g x := by
      rintro g x ⟨r, hr, i, hi, q1, q2, q3⟩
      refine ⟨gp, gi, gr, hg, r, hr, _, H.labels hr, i, q1, ?_, q3⟩
      unfold sizeOf at hi
      rw [if_pos hr] at hi
      rw [List.getElem?_map, List.getElem?_range hi, Option.map_some]
      exact congrArg some q2
    by_cases hex : ∃ g0 < D.all.length, Core D.all.length (nearOf D.near D.all) D.minPts g0 ∧
        Views.Found D.P (sizeOf D gp) (fun r => D.seen r (gi r) (gr r)) (fun r => labelAt (l r)) g0 (gl D gi gr l (own g) (idx g))
    · obtain ⟨g0, hg0, hc0, hf0⟩ := hex
      obtain ⟨x, y, z, hxyz⟩ := hfew g0 hg0 hc0
      refine ⟨x, y, z, fun c hjc => ?_⟩
      rcases W.joined_found hR (.trans _ _ _ hjg hjc) with e | ⟨g', -, h', hh', hcg', -, q1, q2, q3⟩
      · rw [← e]
        exact hxyz g0 hg0 .refl _ (hlabelled _ _ hf0)
      · obtain ⟨d, d1, d2⟩ := W.found_core hc0 hf0
        obtain ⟨d', d3, d4⟩ := W.found_core hcg' q1
        have : d = d' := by
          have := d1.symm.trans d3
          exact_mod_cast this
        subst this
        exact hxyz h' hh' (d2.trans ((W.chained_symm d4).trans q3)) _ (hlabelled _ _ q2)
    · refine ⟨gl D gi gr l (own g) (idx g), 0, 0, fun c hjc => Or.inl ?_⟩
      rcases W.joined_found hR (.trans _ _ _ hjg hjc) with e | ⟨g', hg', h', -, hcg', -, q1, -⟩
      · exact e.symm
      · exact absurd ⟨g', hg', hcg', q1⟩ hex

end ArborX.DistDbscan
