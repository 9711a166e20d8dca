import Verif.DistDbscan.Cluster

/-!
# Lemmas: steps 2 to 5 of the distributed DBSCAN (C48)
-/

namespace ArborX.DistDbscan

open Distributed BVH Traversal Dbscan

variable {X V : Type} {w : ℕ} [SemilatticeSup V] [OrderBot V]
variable {D : In X V} {E : XEnv X w} {gp : ℕ → List X} {gi : ℕ → List ℕ} {gr : ℕ → List ℤ} {F : ℕ → List (ℕ × ℕ)} {l : ℕ → List ℤ}
  {star : Bool} {own idx : ℕ → ℕ}

/-- The global label of point `i` of process `r` after step 3. -/
abbrev gl (D : In X V) (gi : ℕ → List ℕ) (gr : ℕ → List ℤ) (l : ℕ → List ℤ) (r i : ℕ) : ℤ :=
  glob (fun r => D.seen r (gi r) (gr r)) (fun r => labelAt (l r)) r i

namespace Found'

lemma length (H : Found' D E gp gi gr F l star own idx) {r : ℕ} (hr : r < D.P) : (gp r).length = (F r).length :=
  (seen_spec H.points H.ids H.ranks H.mem hr).1

lemma labels (H : Found' D E gp gi gr F l star own idx) {r : ℕ} (hr : r < D.P) :
    D.labels E r (gp r) (gi r) (gr r) = some ((List.range (D.points r ++ gp r).length).map (gl D gi gr l r)) := by
  obtain ⟨h1, h2, h3, h4⟩ := H.dbscan r hr
  unfold In.labels
  rw [h1, Option.bind_some]
  have hl : l r = (List.range (D.points r ++ gp r).length).map (labelAt (l r)) := by
    rw [← h2]
    apply List.ext_getElem
    · simp
    · intro j h1 h2; simp [labelAt, List.getD_eq_getElem?_getD, h1]
  rw [hl, List.map_map]
  apply initialised_map
  intro i hi
  have hi := List.mem_range.mp hi
  simp only [Function.comp]
  have hg : gl D gi gr l r i = if labelAt (l r) i = -1 then -1 else (D.seen r (gi r) (gr r) (labelAt (l r) i).toNat : ℤ) := rfl
  rw [hg]
  unfold In.globalLabel
  rcases label_range h3 h4 hi with h | ⟨k, hk, h⟩
  · rw [h]; simp
  · have hk1 : ¬ (k : ℤ) = -1 := by omega
    rw [h, if_neg hk1, if_neg hk1]
    simp only [Int.toNat_natCast]
    by_cases hlt : k < (D.points r).length
    · rw [if_pos (by exact_mod_cast hlt), seen_own hlt]
      push_cast
      rfl
    · rw [if_neg (by exact_mod_cast hlt)]
      have e : ((k : ℤ) - ((D.points r).length : ℤ)).toNat = k - (D.points r).length := by omega
      rw [e]
      have hk' : k - (D.points r).length < (F r).length := by
        rw [List.length_append] at hk
        rw [← H.length hr]; omega
      have hs := (seen_spec H.points H.ids H.ranks H.mem hr).2.1 _ _ (List.getElem?_eq_getElem hk')
      rw [show (D.points r).length + (k - (D.points r).length) = k by omega] at hs
      rw [hs.1, H.ids r hr, H.ranks r hr, List.getElem?_map, List.getElem?_map, List.getElem?_eq_getElem hk']
      simp

/-- The labels of the ghosts that are not noise. -/
lemma compress (H : Found' D E gp gi gr F l star own idx) (hE : E.Valid D) (hc : ∀ r n, InOrder (E.csched r n)) {r : ℕ} (hr : r < D.P) :
    ∃ entries, compressGhosts E r (gi r) (gr r)
        (((List.range (D.points r ++ gp r).length).map (gl D gi gr l r)).drop (D.points r).length) = some entries ∧
      (∀ e, e ∈ entries ↔ ∃ k s q : ℕ, (F r)[k]? = some (s, q) ∧ e = ((s : ℤ), q, gl D gi gr l r ((D.points r).length + k)) ∧
        gl D gi gr l r ((D.points r).length + k) ≠ -1) ∧
      (entries.map (fun e => (e.1, e.2.1))).Sublist ((F r).map (fun a => ((a.1 : ℤ), a.2))) := by
  have hd : ((List.range (D.points r ++ gp r).length).map (gl D gi gr l r)).drop (D.points r).length =
      (List.range (F r).length).map (fun k => gl D gi gr l r ((D.points r).length + k)) := by
    rw [List.length_append, List.range_add, List.map_append, List.drop_append_of_le_length (by simp), H.length hr]
    simp [Function.comp_def]
  rw [hd]
  unfold compressGhosts
  simp only [List.length_map, List.length_range]
  refine ⟨_, compress_inOrder_partial _ _ _ _ _ _ (hE.threads r _) (hc r _), fun e => ?_, ?_⟩
  rotate_left
  · have heq : ∀ a b : List (ℤ × ℕ), a = b → a.Sublist b := fun a b h => h ▸ List.Sublist.refl a
    refine (List.filter_sublist.map _).trans (heq _ _ ?_)
    rw [List.map_map]
    apply List.ext_getElem
    · simp
    · intro k h1 h2
      simp only [List.getElem_map, List.getElem_range, Function.comp]
      rw [List.length_map] at h2
      rw [H.ids r hr, H.ranks r hr]
      simp [List.getD_eq_getElem?_getD, h2]
  rw [List.mem_filter, List.mem_map]
  have hat : ∀ k, (hk : k < (F r).length) → ((gr r).getD k 0, (gi r).getD k 0,
      ((List.range (F r).length).map (fun k => gl D gi gr l r ((D.points r).length + k))).getD k 0) =
      (((F r)[k].1 : ℤ), (F r)[k].2, gl D gi gr l r ((D.points r).length + k)) := by
    intro k hk
    rw [H.ids r hr, H.ranks r hr]
    simp [List.getD_eq_getElem?_getD, hk]
  constructor
  · rintro ⟨⟨k, hk, rfl⟩, hv⟩
    have hk := List.mem_range.mp hk
    rw [hat k hk] at hv ⊢
    refine ⟨k, (F r)[k].1, (F r)[k].2, by rw [List.getElem?_eq_getElem hk], rfl, by simpa using hv⟩
  · rintro ⟨k, s, q, hk, rfl, hne⟩
    obtain ⟨hk, he⟩ := List.getElem?_eq_some_iff.mp hk
    refine ⟨⟨k, List.mem_range.mpr hk, ?_⟩, by simpa using hne⟩
    rw [hat k hk, he]

/-- Steps 2 to 5: the merge pairs and labels of every process. `L r id`: the labels other processes have found for point `id` of process `r`, at most
one for every time it was sent to another process. -/
lemma run (H : Found' D E gp gi gr F l star own idx) (hE : E.Valid D) (hc : ∀ r n, InOrder (E.csched r n)) :
    ∃ (L : ℕ → ℕ → List ℤ) (pairs : ℕ → List Pair),
      (∀ r < D.P, ∀ id x, x ∈ L r id ↔ ∃ s < D.P, ∃ k, (F s)[k]? = some (r, id) ∧ gl D gi gr l s ((D.points s).length + k) = x ∧ x ≠ -1) ∧
      (∀ r < D.P, ∀ id, (L r id).length ≤ ((List.range D.P).flatMap F).count (r, id)) ∧
      (∀ r < D.P, ∀ p, p ∈ pairs r ↔ ∃ id < (D.points r).length, p ∈ pairsOf (D.isCore r (gp r) id) (gl D gi gr l r id) (L r id)) ∧
      ∀ (fuel : ℕ) (new : ℤ → ℤ), (∀ r < D.P, ∀ a, merge E.merge D.P pairs fuel r a = some (new a)) →
        ∃ res, D.cluster E fuel gp gi gr = some res ∧ ∀ r < D.P,
          res r = (List.range (D.points r).length).map (fun id => new (ownLabel (D.isCore r (gp r) id) (gl D gi gr l r id) (L r id))) := by
  obtain ⟨labels, c1, c2⟩ := collect_some (P := D.P) (f := fun r => D.labels E r (gp r) (gi r) (gr r))
    (g := fun r => (List.range (D.points r ++ gp r).length).map (gl D gi gr l r)) (fun r hr => H.labels hr)
  have hex : ∀ r, ∃ entries, r < D.P → compressGhosts E r (gi r) (gr r) ((labels r).drop (D.points r).length) = some entries ∧
      (∀ e, e ∈ entries ↔ ∃ k s q : ℕ, (F r)[k]? = some (s, q) ∧ e = ((s : ℤ), q, gl D gi gr l r ((D.points r).length + k)) ∧
        gl D gi gr l r ((D.points r).length + k) ≠ -1) ∧
      (entries.map (fun e => (e.1, e.2.1))).Sublist ((F r).map (fun a => ((a.1 : ℤ), a.2))) := by
    intro r
    by_cases hr : r < D.P
    · obtain ⟨en, h1, h2⟩ := H.compress hE hc hr
      exact ⟨en, fun _ => ⟨by rw [c2 r hr]; exact h1, h2⟩⟩
    · exact ⟨[], fun h => absurd h hr⟩
  choose ent hent using hex
  obtain ⟨entries, c3, c4⟩ := collect_some (P := D.P)
    (f := fun r => compressGhosts E r (gi r) (gr r) ((labels r).drop (D.points r).length)) (g := ent) (fun r hr => (hent r hr).1)
  have hmem : ∀ r < D.P, ∀ e, e ∈ entries r ↔ ∃ k s q : ℕ, (F r)[k]? = some (s, q) ∧ e = ((s : ℤ), q, gl D gi gr l r ((D.points r).length + k)) ∧
        gl D gi gr l r ((D.points r).length + k) ≠ -1 := by
    intro r hr e
    rw [c4 r hr]
    exact (hent r hr).2.1 e
  have hcount : ∀ r id, (labelsOf (received D.P entries r) id).length ≤ ((List.range D.P).flatMap F).count (r, id) := by
    intro r id
    unfold labelsOf received
    rw [List.length_map, ← List.countP_eq_length_filter, List.countP_flatMap, List.count_flatMap]
    apply List.sum_le_sum
    intro s hs
    simp only [Function.comp]
    rw [List.countP_map, List.countP_filter]
    have h1 := ((hent s (List.mem_range.mp hs)).2.2).count_le ((r : ℤ), id)
    rw [c4 s (List.mem_range.mp hs)]
    have h2 : List.count ((r : ℤ), id) ((F s).map (fun a => ((a.1 : ℤ), a.2))) = List.count (r, id) (F s) := by
      have hinj : Function.Injective (fun a : ℕ × ℕ => ((a.1 : ℤ), a.2)) := by
        rintro ⟨a, b⟩ ⟨c, d⟩ h
        simpa using h
      exact List.count_map_of_injective (F s) _ hinj (r, id)
    rw [h2] at h1
    refine le_trans (le_of_eq ?_) h1
    rw [List.count, List.countP_map]
    apply List.countP_congr
    rintro ⟨a, b, c⟩ _
    simp [and_comm]
  have hrec : ∀ r < D.P, ∀ id x, (id, x) ∈ received D.P entries r ↔
      ∃ s < D.P, ∃ k, (F s)[k]? = some (r, id) ∧ gl D gi gr l s ((D.points s).length + k) = x ∧ x ≠ -1 := by
    intro r hr id x
    unfold received
    rw [List.mem_flatMap]
    constructor
    · rintro ⟨s, hs, h⟩
      have hs := List.mem_range.mp hs
      obtain ⟨e, he, hex⟩ := List.mem_map.mp h
      rw [List.mem_filter, decide_eq_true_eq] at he
      obtain ⟨k, s', q, h1, rfl, h3⟩ := (hmem s hs e).mp he.1
      have h4 := he.2
      simp only at h4 hex
      have : s' = r := by exact_mod_cast h4
      subst this
      obtain ⟨rfl, rfl⟩ := Prod.mk.inj hex
      exact ⟨s, hs, k, h1, rfl, h3⟩
    · rintro ⟨s, hs, k, h1, rfl, h3⟩
      refine ⟨s, List.mem_range.mpr hs, List.mem_map.mpr ⟨((r : ℤ), id, _), ?_, rfl⟩⟩
      rw [List.mem_filter]
      exact ⟨(hmem s hs _).mpr ⟨k, r, id, h1, rfl, h3⟩, by simp⟩
  obtain ⟨ids, labs, c5, c6⟩ := communicateBack_spec E hE.back D.P entries (by
    intro s hs e he
    obtain ⟨k, s', q, h1, rfl, -⟩ := (hmem s hs e).mp he
    have := ((H.mem s hs s' q).mp (List.mem_of_getElem? h1)).1
    simp only
    omega)
  have hex2 : ∀ r, ∃ (L : ℕ → List ℤ) (pairs : List Pair) (new : List ℤ), r < D.P → (∀ id, (L id).Perm (labelsOf (received D.P entries r) id)) ∧
      D.resolve E r (gp r) ((labels r).take (D.points r).length) (ids r) (labs r) = some (pairs, new) ∧
      (∀ p, p ∈ pairs ↔ ∃ id < (D.points r).length, p ∈ pairsOf (D.isCore r (gp r) id) (gl D gi gr l r id) (L id)) ∧
      new = (List.range (D.points r).length).map (fun id => ownLabel (D.isCore r (gp r) id) (gl D gi gr l r id) (L id)) := by
    intro r
    by_cases hr : r < D.P
    · have hown : (labels r).take (D.points r).length = (List.range (D.points r).length).map (gl D gi gr l r) := by
        rw [c2 r hr, List.length_append, List.range_add, List.map_append, List.take_append_of_le_length (by simp),
          List.take_of_length_le (by simp)]
      have hol : ((List.range (D.points r).length).map (gl D gi gr l r)).length = (D.points r).length := by simp
      have hget : ∀ id < (D.points r).length, ((List.range (D.points r).length).map (gl D gi gr l r)).getD id 0 = gl D gi gr l r id := by
        intro id hid
        simp [List.getD_eq_getElem?_getD, hid]
      obtain ⟨L, h1, pairs, new, h2, h3, h4⟩ := resolve_spec D E hE r (gp r) ((List.range (D.points r).length).map (gl D gi gr l r))
        (received D.P entries r) (by
          rintro ⟨id, x⟩ he
          obtain ⟨s, hs, k, h1, -⟩ := (hrec r hr id x).mp he
          obtain ⟨-, -, p, hp, -⟩ := (H.mem s hs r id).mp (List.mem_of_getElem? h1)
          rw [hol]
          exact (List.getElem?_eq_some_iff.mp hp).1)
      refine ⟨L, pairs, new, fun _ => ⟨h1, ?_, fun p => ?_, ?_⟩⟩
      · rw [hown, (c6 r hr).1, (c6 r hr).2]; exact h2
      · rw [h3, hol]
        constructor
        · rintro ⟨id, hid, h⟩; rw [hget id hid] at h; exact ⟨id, hid, h⟩
        · rintro ⟨id, hid, h⟩; refine ⟨id, hid, ?_⟩; rw [hget id hid]; exact h
      · rw [h4, hol]
        apply List.map_congr_left
        intro id hid
        rw [hget id (List.mem_range.mp hid)]
    · exact ⟨fun _ => [], [], [], fun h => absurd h hr⟩
  choose L prs nw hres using hex2
  obtain ⟨resolved, c7, c8⟩ := collect_some (P := D.P)
    (f := fun r => D.resolve E r (gp r) ((labels r).take (D.points r).length) (ids r) (labs r)) (g := fun r => (prs r, nw r))
    (fun r hr => (hres r hr).2.1)
  refine ⟨L, fun r => (resolved r).1, ?_, ?_, ?_, ?_⟩
  · intro r hr id x
    rw [((hres r hr).1 id).mem_iff, mem_labelsOf, hrec r hr]
  · intro r hr id
    rw [((hres r hr).1 id).length_eq]
    exact hcount r id
  · intro r hr p
    beta_reduce
    rw [c8 r hr]
    exact (hres r hr).2.2.1 p
  · intro fuel new hnew
    obtain ⟨res, c9, c10⟩ := collect_some (P := D.P)
      (f := fun r => initialised ((resolved r).2.map (merge E.merge D.P (fun s => (resolved s).1) fuel r)))
      (g := fun r => (nw r).map new) (fun r hr => by
        rw [c8 r hr]
        exact initialised_map _ _ _ (fun a _ => hnew r hr a))
    refine ⟨res, ?_, fun r hr => ?_⟩
    · unfold In.cluster
      rw [c1, Option.bind_some, c3, Option.bind_some, c5, Option.bind_some]
      simp only
      rw [c7, Option.bind_some]
      exact c9
    · rw [c10 r hr, (hres r hr).2.2.2, List.map_map]
      rfl

end Found'

end ArborX.DistDbscan
