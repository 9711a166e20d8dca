import Verif.Fp.Examples
import Verif.BruteForce.Spatial
import Verif.BruteForce.Nearest

/-!
# Brute force on geometries, and its agreement with the tree (C72)

`BruteForce::query` on the same values and with the same queries as `BoundingVolumeHierarchy::query`, in exact and in floating-point arithmetic.
The calls of the two indexes are compared query by query.
-/

namespace ArborX.Fp

open Geometry BVH

variable {D : ℕ}

/-! ## Model -/

/-- `BruteForce(space, values).query(space, intersects(Qs), callback)` (`src/spatial/ArborX_BruteForce.hpp` 149-177, `detail/ArborX_BruteForceImpl.hpp` 51-151)
in exact arithmetic: the pairs of query and value the callback is called on; `none` if a number of tiles or teams overflows. -/
noncomputable def bruteExact (S : Euclid.Scene D) (Qs : List (Geom ℝ D)) (perI perP : ℕ) : Option (List (ℕ × ℕ)) :=
  BruteForce.spatialCalls S.geo.length Qs.length perI perP (fun q i => S.leafTest (Qs.getD q (.point 0)) i)

/-- The same in floating-point arithmetic. -/
noncomputable def bruteFloat (S : Scene D) (F : Format) (Qs : List (Geom ℝ D)) (perI perP : ℕ) : Option (List (ℕ × ℕ)) :=
  BruteForce.spatialCalls S.geo.length Qs.length perI perP (fun q i => S.leafTest F (Qs.getD q (.point 0)) i)

/-- `query(space, nearest(Q, k), callback)` (`detail/ArborX_BruteForceImpl.hpp` 153-228) in exact arithmetic, one query. -/
noncomputable def bruteNearest (S : Euclid.Scene D) (Q : Geom ℝ D) (k : ℕ) : Option (List ℕ) :=
  BruteForce.nearest (fun i => Euclid.asDistance (Euclid.distance Q (Euclid.toReal (S.at i)))) ⊤ S.geo.length k

/-- The same in floating-point arithmetic. -/
noncomputable def bruteNearestFloat (S : Scene D) (F : Format) (Q : Geom ℝ D) (k : ℕ) : Option (List ℕ) :=
  BruteForce.nearest (fun i => asDistance (F.distance Q (S.at i))) ⊤ S.geo.length k

/-! ## Lemmas -/

lemma mem_matching {nI nP : ℕ} {p : ℕ → ℕ → Bool} {q i : ℕ} : (q, i) ∈ BruteForce.matching nI nP p ↔ q < nP ∧ i < nI ∧ p q i = true := by
  simp only [BruteForce.matching, List.mem_flatMap, List.mem_map, List.mem_filter, List.mem_range, Prod.mk.injEq]
  constructor
  · rintro ⟨q', h1, i', ⟨h2, h3⟩, rfl, rfl⟩; exact ⟨h1, h2, h3⟩
  · rintro ⟨h1, h2, h3⟩; exact ⟨q, h1, i, ⟨h2, h3⟩, rfl, rfl⟩

lemma matching_nodup (nI nP : ℕ) (p : ℕ → ℕ → Bool) : (BruteForce.matching nI nP p).Nodup := by
  unfold BruteForce.matching
  rw [List.nodup_flatMap]
  refine ⟨fun q _ => (List.nodup_range.filter _).map (fun a b h => (Prod.mk.injEq _ _ _ _ ▸ h).2), ?_⟩
  refine List.nodup_range.imp (fun {a b} hab => ?_)
  rw [Function.onFun, List.disjoint_left]
  rintro ⟨q, i⟩ h1 h2
  rw [List.mem_map] at h1 h2
  obtain ⟨_, _, e1⟩ := h1
  obtain ⟨_, _, e2⟩ := h2
  exact hab ((Prod.mk.inj e1).1.trans (Prod.mk.inj e2).1.symm)

/-- The values found for one query. -/
lemma matching_query {nI nP : ℕ} {p : ℕ → ℕ → Bool} {calls : List (ℕ × ℕ)} (h : calls.Perm (BruteForce.matching nI nP p)) {q : ℕ} (hq : q < nP) :
    ((calls.filter (fun c => c.1 == q)).map Prod.snd).Nodup ∧
      ∀ i, i ∈ (calls.filter (fun c => c.1 == q)).map Prod.snd ↔ i < nI ∧ p q i = true := by
  have hn : calls.Nodup := h.nodup_iff.mpr (matching_nodup nI nP p)
  refine ⟨List.Nodup.map_on ?_ (hn.filter _), fun i => ?_⟩
  · rintro ⟨a, b⟩ h1 ⟨c, d⟩ h2 e
    rw [List.mem_filter, beq_iff_eq] at h1 h2
    exact Prod.ext (h1.2.trans h2.2.symm) e
  · rw [List.mem_map]
    constructor
    · rintro ⟨⟨a, b⟩, h1, rfl⟩
      rw [List.mem_filter, beq_iff_eq] at h1
      obtain ⟨h1, rfl⟩ := h1
      exact (mem_matching.mp (h.mem_iff.mp h1)).2
    · intro hi
      exact ⟨(q, i), List.mem_filter.mpr ⟨h.mem_iff.mpr (mem_matching.mpr ⟨hq, hi⟩), beq_self_eq_true q⟩, rfl⟩

/-- The distances of the nearest values are determined by the distances of all values. -/
lemma nearest_unique {T : Type} [LinearOrder T] {d : ℕ → T} {all calls om calls' om' : List ℕ} (h : (calls ++ om).Perm all) (h' : (calls' ++ om').Perm all)
    (hl : calls.length = calls'.length) (hs : calls.Pairwise (fun a b => d a ≤ d b)) (hs' : calls'.Pairwise (fun a b => d a ≤ d b))
    (ho : ∀ a ∈ calls, ∀ b ∈ om, d a ≤ d b) (ho' : ∀ a ∈ calls', ∀ b ∈ om', d a ≤ d b) : calls.map d = calls'.map d := by
  have sorted : ∀ {c o : List ℕ}, c.Pairwise (fun a b => d a ≤ d b) → (∀ a ∈ c, ∀ b ∈ o, d a ≤ d b) →
      (c.map d ++ (o.map d).mergeSort).Pairwise (· ≤ ·) := by
    intro c o hc hco
    rw [List.pairwise_append]
    refine ⟨List.pairwise_map.mpr hc, List.pairwise_mergeSort' (· ≤ ·) _, ?_⟩
    intro a ha b hb
    obtain ⟨x, hx, rfl⟩ := List.mem_map.mp ha
    obtain ⟨y, hy, rfl⟩ := List.mem_map.mp ((List.mergeSort_perm _ _).mem_iff.mp hb)
    exact hco x hx y hy
  have perm : ∀ {c o : List ℕ}, (c ++ o).Perm all → (c.map d ++ (o.map d).mergeSort).Perm (all.map d) := by
    intro c o hp
    refine List.Perm.trans ?_ (hp.map d)
    rw [List.map_append]
    exact (List.Perm.refl _).append (List.mergeSort_perm _ _)
  have e := List.Perm.eq_of_pairwise' (r := (· ≤ ·)) (sorted hs ho) (sorted hs' ho') ((perm h).trans (perm h').symm)
  have := congrArg (List.take calls.length) e
  rwa [List.take_append_of_le_length (by simp), List.take_append_of_le_length (by simp [hl]), List.take_of_length_le (by simp),
    List.take_of_length_le (by simp [hl])] at this

/-! ## Spatial queries -/

/-- **C72 (partial).** Brute force in exact arithmetic: for each query the callback is called exactly once for each value that has a point in common with the
query, for all sizes of the tiles, up to `2 ^ 24` values and queries and `2 ^ 31` pairs of tiles. (Missing: larger numbers, for which it is false, see
`BruteForce.brute_force_spatial_wrong` and `BruteForce.brute_force_teams_overflow`.) -/
theorem brute_force_geometry_partial (S : Euclid.Scene D) (hS : ∀ g ∈ S.geo, Euclid.Regular (Euclid.toReal g)) (Qs : List (Geom ℝ D))
    (hQ : ∀ Q ∈ Qs, Euclid.Regular Q ∧ ∀ g ∈ S.geo, (Euclid.intersects Q (Euclid.toReal g)).isSome) (perI perP : ℕ)
    (hI : S.geo.length ≤ 2 ^ 24) (hP : Qs.length ≤ 2 ^ 24) (hi : 0 < perI) (hp : 0 < perP) (hi' : perI ≤ 2 ^ 24) (hp' : perP ≤ 2 ^ 24)
    (hT : BruteForce.ntiles S.geo.length perI * BruteForce.ntiles Qs.length perP < 2 ^ 31) :
    ∃ calls, bruteExact S Qs perI perP = some calls ∧ calls.Nodup ∧ ∀ q i, (q, i) ∈ calls ↔
      ∃ Q, Qs[q]? = some Q ∧ i < S.geo.length ∧ (Q.set ∩ (Euclid.toReal (S.at i)).set).Nonempty := by
  obtain ⟨calls, hc, h⟩ := BruteForce.brute_force_spatial_partial S.geo.length Qs.length perI perP (fun q i => S.leafTest (Qs.getD q (.point 0)) i) hI hP hi hp hi' hp' hT
  refine ⟨calls, hc, h.nodup_iff.mpr (matching_nodup _ _ _), fun q i => ?_⟩
  rw [h.mem_iff, mem_matching]
  have key : ∀ (hq : q < Qs.length), i < S.geo.length →
      (S.leafTest (Qs.getD q (.point 0)) i = true ↔ (Qs[q].set ∩ (Euclid.toReal (S.at i)).set).Nonempty) := by
    intro hq hlt
    have hmem := List.getElem_mem hq
    rw [List.getD_eq_getElem _ _ hq]
    obtain ⟨b, hb⟩ := Option.isSome_iff_exists.mp ((hQ _ hmem).2 _ (S.at_mem hlt))
    rw [← Euclid.intersects_exact (hQ _ hmem).1 (hS _ (S.at_mem hlt)) hb]
    unfold Euclid.Scene.leafTest
    rw [hb, decide_eq_true_eq, Option.some_inj]
  constructor
  · rintro ⟨hq, hlt, ht⟩
    exact ⟨Qs[q], List.getElem?_eq_getElem hq, hlt, (key hq hlt).mp ht⟩
  · rintro ⟨Q, hq, hlt, ht⟩
    obtain ⟨hq', rfl⟩ := List.getElem?_eq_some_iff.mp hq
    exact ⟨hq', hlt, (key hq' hlt).mpr ht⟩

/-- **C72 (partial).** In floating-point arithmetic, brute force and the tree call the callback on the same values for every query with a point, a box or a
ball: rounding does not make the two indexes disagree. (Missing: more than `2 ^ 24` values or queries or `2 ^ 31` pairs of tiles, for which it is
false, see `BruteForce.brute_force_spatial_wrong` and `BruteForce.brute_force_teams_overflow`.) -/
theorem brute_force_tree_agree_partial (S : Scene D) (h : S.Valid) (F : Format) (Qs : List (Geom ℝ D)) (hQ : ∀ Q ∈ Qs, SimpleQuery Q) (perI perP : ℕ)
    (hI : S.geo.length ≤ 2 ^ 24) (hP : Qs.length ≤ 2 ^ 24) (hi : 0 < perI) (hp : 0 < perP) (hi' : perI ≤ 2 ^ 24) (hp' : perP ≤ 2 ^ 24)
    (hT : BruteForce.ntiles S.geo.length perI * BruteForce.ntiles Qs.length perP < 2 ^ 31)
    (sched : List ℕ) (hf : S.input.Finished sched) (fuel : ℕ) (hfuel : 2 * S.geo.length ≤ fuel) (q : ℕ) (Q : Geom ℝ D) (hq : Qs[q]? = some Q) :
    ∃ calls brute, Traversal.spatialQuery (S.input.build sched) (S.leafTest F Q) (nodeTest F Q) (fun _ => false) fuel = .done calls ∧
      bruteFloat S F Qs perI perP = some brute ∧ calls.Perm ((brute.filter (fun c => c.1 == q)).map Prod.snd) := by
  obtain ⟨hq', rfl⟩ := List.getElem?_eq_some_iff.mp hq
  obtain ⟨calls, h1, h2, h3⟩ := spatial_query_float S h F Qs[q] (hQ _ (List.getElem_mem hq')) sched hf fuel hfuel
  obtain ⟨brute, hc, hb⟩ := BruteForce.brute_force_spatial_partial S.geo.length Qs.length perI perP (fun q i => S.leafTest F (Qs.getD q (.point 0)) i) hI hP hi hp hi' hp' hT
  obtain ⟨h4, h5⟩ := matching_query hb hq'
  refine ⟨calls, brute, h1, hc, (List.perm_ext_iff_of_nodup h2 h4).mpr (fun i => ?_)⟩
  rw [h3]
  refine Iff.trans ?_ (h5 i).symm
  rw [List.getD_eq_getElem _ _ hq']
  exact and_congr_right (fun _ => decide_eq_true_iff.symm)

/-! ## Nearest queries -/

/-- **C72 (partial).** In floating-point arithmetic, brute force and the tree return values at the same distances, if there are at most `k` values or value `k` is
not farther than all values before it. (Missing: the other orders of the values, for which brute force returns a wrong value, see
`BruteForce.brute_force_nearest_wrong`; trees too deep for the stack.) -/
theorem brute_force_nearest_agree_partial (S : Scene D) (h : S.Valid) (F : Format) (Q : Geom ℝ D) (hQ : SimpleQuery Q) (k : ℕ)
    (hfin : ∀ i < S.geo.length, ∀ r, F.distance Q (S.at i) = some r → r < ⊤)
    (hord : k < S.geo.length → 1 ≤ k → ∃ i < k, ∀ r s, F.distance Q (S.at k) = some r → F.distance Q (S.at i) = some s → r ≤ s)
    (hcap : Nearest.StackFits S.input 64) (sched : List ℕ) (hf : S.input.Finished sched) (fuel : ℕ) (hfuel : 2 * S.geo.length ≤ fuel) :
    ∃ calls calls', Nearest.nearestQuery (S.input.build sched) (S.nearest F Q k) fuel = .done calls ∧ bruteNearestFloat S F Q k = some calls' ∧
      calls.map (fun i => F.distance Q (S.at i)) = calls'.map (fun i => F.distance Q (S.at i)) := by
  have some_of : ∀ i, ∃ s, F.distance Q (S.at i) = some s := fun i => by
    obtain ⟨s, e, -, -⟩ := distance_mono F hQ (h.at i)
    exact ⟨s, e⟩
  obtain ⟨calls, h1, h2, h3, h4, h5, h6⟩ := nearest_query_float S h F Q hQ k hfin hcap sched hf fuel hfuel
  obtain ⟨calls', g1, om', g2, g3, g4, g5⟩ := BruteForce.brute_force_nearest_ok (fun i => asDistance (F.distance Q (S.at i))) ⊤ (fun _ => le_top)
    S.geo.length k (fun h1 h2 => by
      obtain ⟨i, hi, hle⟩ := hord h1 h2
      obtain ⟨r, er⟩ := some_of k
      obtain ⟨s, es⟩ := some_of i
      refine ⟨i, hi, ?_⟩
      simp only [er, es, asDistance]
      exact hle r s er es)
  refine ⟨calls, calls', h1, g1, ?_⟩
  have conv : ∀ i j, (∀ r s, F.distance Q (S.at i) = some r → F.distance Q (S.at j) = some s → r ≤ s) →
      asDistance (F.distance Q (S.at i)) ≤ asDistance (F.distance Q (S.at j)) := by
    intro i j hij
    obtain ⟨r, er⟩ := some_of i
    obtain ⟨s, es⟩ := some_of j
    simp only [er, es, asDistance]
    exact hij r s er es
  have hsub : calls.Subperm (List.range S.geo.length) := h2.subperm (fun i hi => List.mem_range.mpr (h3 i hi))
  have hp : (calls ++ (List.range S.geo.length).filter (fun i => decide (i ∉ calls))).Perm (List.range S.geo.length) := by
    refine (List.perm_ext_iff_of_nodup ?_ List.nodup_range).mpr (fun i => ?_)
    · rw [List.nodup_append]
      refine ⟨h2, List.nodup_range.filter _, fun a ha b hb e => ?_⟩
      rw [List.mem_filter] at hb
      exact (of_decide_eq_true hb.2) (e ▸ ha)
    · rw [List.mem_append, List.mem_filter]
      constructor
      · rintro (hi | hi)
        · exact hsub.subset hi
        · exact hi.1
      · intro hi
        by_cases hc : i ∈ calls
        · exact .inl hc
        · exact .inr ⟨hi, decide_eq_true hc⟩
  have e := nearest_unique (d := fun i => asDistance (F.distance Q (S.at i))) hp g2 (by rw [h4, g3, List.length_range])
    (h5.imp (fun {i j} hij => conv i j hij)) g4
    (fun a ha b hb => by
      rw [List.mem_filter, List.mem_range] at hb
      exact conv a b (h6 a ha b hb.1 (of_decide_eq_true hb.2))) g5
  have back : ∀ l : List ℕ, l.map (fun i => F.distance Q (S.at i)) = (l.map (fun i => asDistance (F.distance Q (S.at i)))).map some := by
    intro l
    rw [List.map_map]
    refine List.map_congr_left (fun i _ => ?_)
    obtain ⟨s, es⟩ := some_of i
    simp only [Function.comp, es, asDistance]
  rw [back, back, e]

/-- **C72 (partial).** The same in exact arithmetic: brute force returns the `min k n` nearest values, in the order of their Euclidean distances. (Missing: as
above.) -/
theorem brute_force_nearest_geometry_partial (S : Euclid.Scene D) (hS : ∀ i, Euclid.Regular (Euclid.toReal (S.at i))) (Q : Geom ℝ D) (hQ : Euclid.Regular Q)
    (hd : ∀ g ∈ S.geo, (Euclid.distance Q (Euclid.toReal g)).isSome) (k : ℕ)
    (hord : k < S.geo.length → 1 ≤ k → ∃ i < k, ∀ r s, IsDistance Q.set (Euclid.toReal (S.at k)).set r →
      IsDistance Q.set (Euclid.toReal (S.at i)).set s → r ≤ s) :
    ∃ calls, bruteNearest S Q k = some calls ∧ Euclid.NearestOf S Q k calls := by
  have some_of : ∀ i < S.geo.length, ∃ s, Euclid.distance Q (Euclid.toReal (S.at i)) = some s ∧ IsDistance Q.set (Euclid.toReal (S.at i)).set s := by
    intro i hi
    obtain ⟨s, e⟩ := Option.isSome_iff_exists.mp (hd _ (S.at_mem hi))
    exact ⟨s, e, Euclid.distance_exact hQ (hS i) e⟩
  obtain ⟨calls, g1, om, g2, g3, g4, g5⟩ := BruteForce.brute_force_nearest_ok (fun i => Euclid.asDistance (Euclid.distance Q (Euclid.toReal (S.at i)))) ⊤
    (fun _ => le_top) S.geo.length k (fun h1 h2 => by
      obtain ⟨i, hi, hle⟩ := hord h1 h2
      obtain ⟨r, er, hr⟩ := some_of k h1
      obtain ⟨s, es, hs⟩ := some_of i (by omega)
      refine ⟨i, hi, ?_⟩
      simp only [er, es, Euclid.asDistance]
      exact WithTop.coe_le_coe.mpr (hle r s hr hs))
  have hlt : ∀ i ∈ calls ++ om, i < S.geo.length := fun i hi => List.mem_range.mp (g2.mem_iff.mp hi)
  have hnd : (calls ++ om).Nodup := g2.nodup_iff.mpr List.nodup_range
  have conv : ∀ i < S.geo.length, ∀ j < S.geo.length, Euclid.asDistance (Euclid.distance Q (Euclid.toReal (S.at i))) ≤
      Euclid.asDistance (Euclid.distance Q (Euclid.toReal (S.at j))) → ∀ r s, IsDistance Q.set (Euclid.toReal (S.at i)).set r →
      IsDistance Q.set (Euclid.toReal (S.at j)).set s → r ≤ s := by
    intro i hi j hj hij r s hr hs
    obtain ⟨r', er, hr'⟩ := some_of i hi
    obtain ⟨s', es, hs'⟩ := some_of j hj
    simp only [er, es, Euclid.asDistance] at hij
    rw [Euclid.IsDistance.unique hr hr', Euclid.IsDistance.unique hs hs']
    exact WithTop.coe_le_coe.mp hij
  refine ⟨calls, g1, (List.nodup_append.mp hnd).1, fun i hi => hlt i (List.mem_append_left _ hi), by rw [g3, List.length_range], ?_, ?_⟩
  · exact List.Pairwise.imp_of_mem (fun {i j} hi hj hij => conv i (hlt i (List.mem_append_left _ hi)) j (hlt j (List.mem_append_left _ hj)) hij) g4
  · intro i hi j hj hjn
    have : j ∈ calls ++ om := g2.mem_iff.mpr (List.mem_range.mpr hj)
    exact conv i (hlt i (List.mem_append_left _ hi)) j hj (g5 i hi j ((List.mem_append.mp this).resolve_left hjn))

/-! ## Non-vacuity -/

/-- A point, a box and a ball as queries, tiles of two values and one query: the hypotheses of `brute_force_tree_agree_partial`. -/
example : exampleScene.Valid ∧ exampleScene.geo.length ≤ 2 ^ 24 ∧ BruteForce.ntiles exampleScene.geo.length 2 * BruteForce.ntiles 3 2 < 2 ^ 31 ∧
    (∀ Q ∈ [Geom.point ![0, 0], .box ⟨![1, 1], ![2, 2]⟩, .sphere ⟨![0, 0], 3⟩], SimpleQuery (Q : Geom ℝ 2)) := by
  refine ⟨exampleScene_valid, by decide, by decide, fun Q hQ => ?_⟩
  simp only [List.mem_cons, List.not_mem_nil, or_false] at hQ
  rcases hQ with rfl | rfl | rfl
  · trivial
  · intro d; fin_cases d <;> norm_num
  · trivial

/-- A ball as query: the hypotheses of `brute_force_geometry_partial`. -/
example : (∀ g ∈ Euclid.exampleScene.geo, Euclid.Regular (Euclid.toReal g)) ∧
    ∀ Q ∈ [(.sphere ⟨![0, 0], 1⟩ : Geom ℝ 2)], Euclid.Regular Q ∧ ∀ g ∈ Euclid.exampleScene.geo, (Euclid.intersects Q (Euclid.toReal g)).isSome := by
  refine ⟨Euclid.exampleScene_valid.regular, fun Q hQ => ?_⟩
  simp only [List.mem_cons, List.not_mem_nil, or_false] at hQ
  subst hQ
  refine ⟨zero_le_one, fun g hg => ?_⟩
  simp only [Euclid.exampleScene, List.mem_cons, List.not_mem_nil, or_false] at hg
  rcases hg with rfl | rfl | rfl <;> rfl

/-- One neighbour of a point inside the second value: the condition on the order holds, although there are more than `k` values. -/
example : 1 < Euclid.exampleScene.geo.length ∧ ∃ i < 1, ∀ r s, IsDistance (Geom.point ![1, 2] : Geom ℝ 2).set (Euclid.toReal (Euclid.exampleScene.at 1)).set r →
    IsDistance (Geom.point ![1, 2] : Geom ℝ 2).set (Euclid.toReal (Euclid.exampleScene.at i)).set s → r ≤ s := by
  refine ⟨by decide, 0, one_pos, fun r s hr hs => ?_⟩
  have h1 : r ≤ Geometry.edist (![1, 2] : Pt ℝ 2) ![1, 2] := hr.minimal _ rfl _ (fun d => by fin_cases d <;> simp [Euclid.toRealPt] <;> norm_num)
  rw [Geometry.edist_self] at h1
  exact h1.trans (Euclid.IsDistance.nonneg hs)

end ArborX.Fp
