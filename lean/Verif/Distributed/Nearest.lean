import Verif.Distributed.NearestPhases

/-!
# Distributed nearest queries (C29)
-/

namespace ArborX.Distributed

open BVH Traversal Nearest

variable {T X α V K : Type} {w : ℕ} [SemilatticeSup V] [OrderBot V] [LinearOrder K]

/-! ## Phase II -/

lemma isCrs_mk {n : ℕ} (rows : ℕ → List X) :
    Crs.IsCrs n rows (offsetsFrom 0 ((List.range n).map (fun i => (rows i).length))) (((List.range n).flatMap rows).map some) := by
  refine ⟨by simp [offsetsFrom_length], ?_, rfl⟩
  intro i hi
  have := offsets_scan (fun i => (rows i).length) i hi
  rw [List.getD_eq_getElem _ _ (by simp [offsetsFrom_length]; omega)] at this
  rw [List.getElem?_eq_getElem (by simp [offsetsFrom_length]; omega), this, Crs.scan_length]

omit [SemilatticeSup V] [OrderBot V] in
lemma filterResults_spec (order : List ℕ) (queries : List (NPred α V K)) (rows : ℕ → List (T × K)) (out : ℕ → List T)
    (ho : order.Perm (List.range queries.length))
    (hr : ∀ i (hi : i < queries.length), filterRow queries[i].q.k (rows i) = some (out i) ∧ (out i).length = min (rows i).length queries[i].q.k) :
    filterResults order queries (offsetsFrom 0 ((List.range queries.length).map (fun i => (rows i).length)))
      ((List.range queries.length).flatMap rows) =
    some (offsetsFrom 0 ((List.range queries.length).map (fun i => (out i).length)), (List.range queries.length).flatMap out) := by
  set n := queries.length with hn
  have hkeep : ∀ i < n, keepOf queries (offsetsFrom 0 ((List.range n).map (fun i => (rows i).length))) i = (out i).length := by
    intro i hi
    unfold keepOf
    rw [List.getElem?_eq_getElem hi, offsets_scan _ i hi.le, offsets_scan _ (i + 1) hi, (hr i hi).2]
    simp [Crs.scan]
  unfold filterResults
  rw [← hn]
  dsimp only
  rw [initialised_map _ _ out (by
    intro i hi
    have hi := List.mem_range.mp hi
    rw [List.getElem?_eq_getElem hi, Option.bind_some, offsets_scan _ i hi.le, offsets_scan _ (i + 1) hi, slice_row rows hi]
    exact (hr i hi).1), Option.bind_some]
  have hget : ∀ i < n, ((List.range n).map out).getD i [] = out i := by
    intro i hi
    simp [List.getD_eq_getElem?_getD, hi]
  rw [writeRows_spec order n ho _ _ (by
    intro i hi
    rw [hget i hi, hkeep i hi])]
  rw [Option.map_some, Option.some.injEq, Prod.mk.injEq]
  constructor
  · rw [toList_scan_offsets]
    congr 1
    apply List.map_congr_left
    intro i hi
    exact hkeep i (List.mem_range.mp hi)
  · apply List.flatMap_congr
    intro i hi
    exact hget i (List.mem_range.mp hi)

/-- The second phase leaves out only values that do not matter, if `R` is good enough. -/
def Covers (D : DTree α V w) (q : NPred α V K) : Prop :=
  ∀ R, Enough D q R → ∀ t < D.P, q.within R (D.vol t) ≠ true → ∀ b ∈ (D.bottom t).stored, q.q.dl b < q.q.inf →
    q.q.k ≤ ((List.range D.P).flatMap (fun t => if q.within R (D.vol t) = true then (D.bottom t).stored else [])).countP
      (fun a => decide (q.q.dl a < q.q.dl b))

/-- The values of the processes that the second phase asks. -/
def reached (D : DTree α V w) (q : NPred α V K) (R : K) : List α :=
  (List.range D.P).flatMap (fun t => if q.within R (D.vol t) = true then (D.bottom t).stored else [])

/-- The second phase finds the closest values of the processes it asks. -/
lemma phaseII_core (D : DTree α V w) (h : D.Valid) (E : NEnv K) (hE : E.Valid D.P) (fuel : ℕ) (hft : 2 * D.P ≤ fuel)
    (hfb : ∀ r < D.P, 2 * (D.bottom r).n ≤ fuel) (cb : NPred α V K → α → T) (queries : ℕ → List (NPred α V K))
    (hq : ∀ s < D.P, ∀ q ∈ queries s, q.Fits D) (far : ℕ → List K) (R : ℕ → ℕ → K)
    (hfar : ∀ s < D.P, far s = (List.range (queries s).length).map (R s)) :
    ∃ res, D.phaseII E fuel cb queries far = some res ∧ ∀ s < D.P, ∃ calls : ℕ → List α,
      (∃ rows : ℕ → List T, Crs.IsCrs (queries s).length rows (res s).1 ((res s).2.map some) ∧
        ∀ i (hi : i < (queries s).length), rows i = (calls i).map (cb (queries s)[i])) ∧
      ∀ i (hi : i < (queries s).length),
        IsKClosest (queries s)[i].q.dl (queries s)[i].q.inf (queries s)[i].q.k (reached D (queries s)[i] (R s i)) (calls i) := by
  unfold DTree.phaseII
  have hzl : ∀ s < D.P, ((queries s).zip (far s)).length = (queries s).length := by
    intro s hs
    rw [hfar s hs]; simp
  have hz : ∀ s (_ : s < D.P) i (hi : i < ((queries s).zip (far s)).length) (hi' : i < (queries s).length),
      ((queries s).zip (far s))[i] = ((queries s)[i], R s i) := by
    intro s hs i hi hi'
    rw [List.getElem_zip]
    congr 1
    simp [hfar s hs]
  -- the top tree
  have hc : ∀ s i, ∃ calls, ∀ (_ : s < D.P) (hi : i < (queries s).length),
      spatialQuery ((D.top s).build (D.tsched s)) (fun t => (queries s)[i].within (R s i) ((D.top s).vol t)) ((queries s)[i].within (R s i))
        (fun _ => false) fuel = .done calls ∧
      calls.Perm ((List.range D.P).filter (fun t => (queries s)[i].within (R s i) (D.vol t))) := by
    intro s i
    by_cases hs : s < D.P
    · by_cases hi : i < (queries s).length
      · obtain ⟨c, h1, h2⟩ := top_spec D h fuel hft _ ((hq s hs _ (List.getElem_mem hi)).within_mono (R s i)) hs
        exact ⟨c, fun _ _ => ⟨h1, h2⟩⟩
      · exact ⟨[], fun _ h => absurd h hi⟩
    · exact ⟨[], fun h => absurd h hs⟩
  choose tc htc using hc
  set rk : ℕ → ℕ → List ℤ := fun s i => (tc s i).map (fun t : ℕ => (t : ℤ)) with hrk
  obtain ⟨t, ht1, ht2⟩ := collect_some (P := D.P) (f := fun r => crsQuery .spatial (fun _ => 0) (E.top2 r)
    (fun q : NPred α V K × K => spatialQuery ((D.top r).build (D.tsched r)) (fun i => q.1.within q.2 ((D.top r).vol i)) (q.1.within q.2)
      (fun _ => false) fuel)
    (fun _ i => [(i : ℤ)]) [] ((queries r).zip (far r))) (fun r hr => crsQuery_rows .spatial (fun _ => 0) (E.top2 r) (hE.top2 r hr)
      (fun q : NPred α V K × K => spatialQuery ((D.top r).build (D.tsched r)) (fun i => q.1.within q.2 ((D.top r).vol i)) (q.1.within q.2)
        (fun _ => false) fuel) ((queries r).zip (far r))
      (fun _ i => (i : ℤ)) (rk r) (fun i hi => by
        have hi' : i < (queries r).length := by rw [hzl r hr] at hi; exact hi
        refine ⟨tc r i, ?_, rfl⟩
        rw [hz r hr i hi hi']
        exact (htc r i hr hi').1))
  rw [ht1, Option.bind_some]
  let dflt : NPred α V K := ⟨⟨0, fun _ => E.garbage 0 0, fun _ => E.garbage 0 0, E.garbage 0 0, E.garbage 0 0, 0⟩, fun _ _ => false⟩
  let qf : ℕ → ℕ → NPred α V K := fun s q => (queries s).getD q dflt
  have hqf : ∀ s q (hqs : q < (queries s).length), qf s q = (queries s)[q] := by
    intro s q hqs
    simp [qf, List.getD_eq_getElem?_getD, hqs]
  have hmem : ∀ s i (_ : s < D.P) (hi : i < (queries s).length) (d : ℕ),
      d ∈ tc s i ↔ d < D.P ∧ (queries s)[i].within (R s i) (D.vol d) = true := by
    intro s i hs hi d
    rw [(htc s i hs hi).2.mem_iff]
    simp
  obtain ⟨res, hres1, hres2⟩ := forwardAndCommunicate_spec E.two hE.two (queries := queries) (n := fun s => (queries s).length) (qf := qf)
    (P := D.P) (rk := rk) (ranksTo := fun r => (t r).2) (offset := fun r => (t r).1)
    (fun s _ => by
      apply List.ext_getElem
      · simp
      · intro i h1 h2
        simp [qf, List.getD_eq_getElem?_getD, h1])
    (fun s hs q hqs d hd => by
      obtain ⟨i, hi, rfl⟩ := List.mem_map.mp hd
      have := ((hmem s q hs hqs i).mp hi).1
      omega)
    (fun s hs q hqs => List.Nodup.map (fun a b hab => by simpa using hab)
      ((htc s q hs hqs).2.nodup_iff.mpr (List.nodup_range.filter _)))
    (fun s hs => by rw [ht2 s hs, hzl s hs]) (fun s hs => by rw [ht2 s hs, hzl s hs])
    (fun q => q.Fits D) (fun s hs q hqs => by rw [hqf s q hqs]; exact hq s hs _ (List.getElem_mem hqs))
    (fun t q row => ∃ calls, IsKClosest q.q.dl q.q.inf q.q.k (D.bottom t).stored calls ∧ row = calls.map (fun a => (cb q a, q.q.dl a)))
    (bottom_spec D h E.bottom2 hE.bottom2 fuel hfb (fun q a => (cb q a, q.q.dl a)))
  rw [hres1, Option.bind_some]
  have hout : ∀ s, ∃ calls : ℕ → List α, s < D.P →
      ∃ out : ℕ → List T, (∀ i (hi : i < (queries s).length), out i = (calls i).map (cb (queries s)[i])) ∧
      filterResults (E.order s (queries s).length) (queries s) (res s).1 (res s).2 =
        some (offsetsFrom 0 ((List.range (queries s).length).map (fun i => (out i).length)), (List.range (queries s).length).flatMap out) ∧
      ∀ i (hi : i < (queries s).length), 
        IsKClosest (queries s)[i].q.dl (queries s)[i].q.inf (queries s)[i].q.k (reached D (queries s)[i] (R s i)) (calls i) := by
    intro s
    by_cases hs : s < D.P
    swap
    · exact ⟨fun _ => [], fun h => absurd h hs⟩
    obtain ⟨rows, hr1, hr2⟩ := hres2 s hs
    obtain ⟨ho, hv⟩ := crs_values hr1
    have hrow : ∀ i, ∃ calls : List α, ∀ hi : i < (queries s).length,
        filterRow (queries s)[i].q.k (rows i) = some (calls.map (cb (queries s)[i])) ∧ calls.length = min (rows i).length (queries s)[i].q.k ∧
        IsKClosest (queries s)[i].q.dl (queries s)[i].q.inf (queries s)[i].q.k (reached D (queries s)[i] (R s i)) calls := by
      intro i
      by_cases hi : i < (queries s).length
      swap
      · exact ⟨[], fun h => absurd h hi⟩
      obtain ⟨ρ, h1, h2, h3⟩ := hr2 i hi
      rw [hqf s i hi] at h1
      have hmem' := hmem s i hs hi
      set q := (queries s)[i] with hqdef
      have hfit := hq s hs q (List.getElem_mem hi)
      have hmemk : ∀ t : ℕ, t < D.P → ((t : ℤ) ∈ rk s i ↔ q.within (R s i) (D.vol t) = true) := by
        intro t ht
        rw [hrk, List.mem_map]
        constructor
        · rintro ⟨a, ha, hat⟩
          have : a = t := by exact_mod_cast hat
          rw [← this]
          exact ((hmem' a).mp ha).2
        · intro hw; exact ⟨t, (hmem' t).mpr ⟨ht, hw⟩, rfl⟩
      have hcs : ∀ t, ∃ cs, t < D.P → IsKClosest q.q.dl q.q.inf q.q.k (if q.within (R s i) (D.vol t) = true then (D.bottom t).stored else []) cs ∧
          ρ t = cs.map (fun a => (cb q a, q.q.dl a)) := by
        intro t
        by_cases ht : t < D.P
        · by_cases hm : q.within (R s i) (D.vol t) = true
          · obtain ⟨cs, e1, e2⟩ := h1 t ht ((hmemk t ht).mpr hm)
            exact ⟨cs, fun _ => ⟨by rw [if_pos hm]; exact e1, e2⟩⟩
          · exact ⟨[], fun _ => ⟨by rw [if_neg hm]; exact ⟨[], by simp, by simp, by simp, by simp, by simp⟩,
              h2 t ht (fun h => hm ((hmemk t ht).mp h))⟩⟩
        · exact ⟨[], fun h => absurd h ht⟩
      choose cs hcs using hcs
      have hrowp : (rows i).Perm (((List.range D.P).flatMap cs).map (fun a => (cb q a, q.q.dl a))) := by
        refine h3.trans (List.Perm.of_eq ?_)
        rw [List.map_flatMap]
        apply List.flatMap_congr
        intro t ht
        exact (hcs t (List.mem_range.mp ht)).2
      obtain ⟨calls, f1, f2, f3⟩ := filterRow_closest q.q.k (rows i) (cb q) q.q.dl q.q.inf _ hrowp
      refine ⟨calls, fun _ => ⟨f1, f2, ?_⟩⟩
      have hle : ∀ a ∈ (List.range D.P).flatMap (fun t => if q.within (R s i) (D.vol t) = true then (D.bottom t).stored else []),
          q.q.dl a ≤ q.q.inf := by
        intro a ha
        obtain ⟨t, ht, hat⟩ := List.mem_flatMap.mp ha
        have ht := List.mem_range.mp ht
        split at hat
        · exact hfit.value_le t ht a hat
        · simp at hat
      exact IsKClosest.flatMap (fun t ht => (hcs t (List.mem_range.mp ht)).1) f3 hle
    choose calls hcalls using hrow
    refine ⟨calls, fun _ => ⟨fun i => match (queries s)[i]? with | some q => (calls i).map (cb q) | none => [], ?_, ?_, fun i hi => (hcalls i hi).2.2⟩⟩
    · intro i hi
      beta_reduce
      rw [List.getElem?_eq_getElem hi]
    · rw [ho, hv]
      apply filterResults_spec _ _ _ _ (hE.order s _)
      intro i hi
      rw [List.getElem?_eq_getElem hi]
      refine ⟨(hcalls i hi).1, ?_⟩
      simp only [List.length_map]
      exact (hcalls i hi).2.1
  choose calls hcalls using hout
  have hout : ∀ s, ∃ out : ℕ → List T, s < D.P → (∀ i (hi : i < (queries s).length), out i = (calls s i).map (cb (queries s)[i])) ∧
      filterResults (E.order s (queries s).length) (queries s) (res s).1 (res s).2 =
        some (offsetsFrom 0 ((List.range (queries s).length).map (fun i => (out i).length)), (List.range (queries s).length).flatMap out) := by
    intro s
    by_cases hs : s < D.P
    · obtain ⟨out, h1, h2, -⟩ := hcalls s hs
      exact ⟨out, fun _ => ⟨h1, h2⟩⟩
    · exact ⟨fun _ => [], fun h => absurd h hs⟩
  choose out hout using hout
  obtain ⟨fin, hf1, hf2⟩ := collect_some (P := D.P)
    (f := fun r => filterResults (E.order r (queries r).length) (queries r) (res r).1 (res r).2) (fun r hr => (hout r hr).2)
  refine ⟨fin, hf1, fun s hs => ⟨calls s, ⟨out s, ?_, (hout s hs).1⟩, ?_⟩⟩
  · rw [hf2 s hs]
    exact isCrs_mk (out s)
  · obtain ⟨_, -, -, h3⟩ := hcalls s hs
    exact h3

lemma reached_closest {D : DTree α V w} {q : NPred α V K} (hfit : q.Fits D) {R : K} {calls : List α}
    (hcov : ∀ t < D.P, q.within R (D.vol t) ≠ true → ∀ b ∈ (D.bottom t).stored, q.q.dl b < q.q.inf →
      q.q.k ≤ (reached D q R).countP (fun a => decide (q.q.dl a < q.q.dl b)))
    (h : IsKClosest q.q.dl q.q.inf q.q.k (reached D q R) calls) : IsKClosest q.q.dl q.q.inf q.q.k D.all calls := by
  have hle : ∀ a ∈ reached D q R, q.q.dl a ≤ q.q.inf := by
    intro a ha
    obtain ⟨t, ht, hat⟩ := List.mem_flatMap.mp ha
    have ht := List.mem_range.mp ht
    split at hat
    · exact hfit.value_le t ht a hat
    · simp at hat
  have g2 := h.extend (ex := (List.range D.P).flatMap (fun t => if q.within R (D.vol t) = true then [] else (D.bottom t).stored)) hle (by
    intro b hb hbi
    obtain ⟨t, ht, hbt⟩ := List.mem_flatMap.mp hb
    have ht := List.mem_range.mp ht
    split at hbt
    · simp at hbt
    · rename_i hw
      exact hcov t ht hw b hbt hbi)
  exact g2.perm (flatMap_split (fun t => q.within R (D.vol t) = true) (fun t => (D.bottom t).stored) (List.range D.P))

lemma phaseII_spec (D : DTree α V w) (h : D.Valid) (E : NEnv K) (hE : E.Valid D.P) (fuel : ℕ) (hft : 2 * D.P ≤ fuel)
    (hfb : ∀ r < D.P, 2 * (D.bottom r).n ≤ fuel) (cb : NPred α V K → α → T) (queries : ℕ → List (NPred α V K))
    (hq : ∀ s < D.P, ∀ q ∈ queries s, q.Fits D ∧ Covers D q) (far : ℕ → List K) (R : ℕ → ℕ → K)
    (hfar : ∀ s < D.P, far s = (List.range (queries s).length).map (R s))
    (hR : ∀ s < D.P, ∀ i (hi : i < (queries s).length), Enough D (queries s)[i] (R s i)) :
    ∃ res, D.phaseII E fuel cb queries far = some res ∧ ∀ s < D.P, ∃ calls : ℕ → List α,
      (∃ rows : ℕ → List T, Crs.IsCrs (queries s).length rows (res s).1 ((res s).2.map some) ∧
        ∀ i (hi : i < (queries s).length), rows i = (calls i).map (cb (queries s)[i])) ∧
      ∀ i (hi : i < (queries s).length), IsKClosest (queries s)[i].q.dl (queries s)[i].q.inf (queries s)[i].q.k D.all (calls i) := by
  obtain ⟨res, h1, h2⟩ := phaseII_core D h E hE fuel hft hfb cb queries (fun s hs q hm => (hq s hs q hm).1) far R hfar
  refine ⟨res, h1, fun s hs => ?_⟩
  obtain ⟨calls, h3, h4⟩ := h2 s hs
  refine ⟨calls, h3, fun i hi => ?_⟩
  obtain ⟨hfit, hcov⟩ := hq s hs _ (List.getElem_mem hi)
  exact reached_closest hfit (fun t ht hw b hb hbi => hcov (R s i) (hR s hs i hi) t ht hw b hb hbi) (h4 i hi)

/-! ## The theorems -/

/-- All values are at finite distance, and the predicate of the second phase finds every volume that has a value within the
distance. -/
structure NPred.Reaches (q : NPred α V K) (D : DTree α V w) : Prop where
  finite : ∀ a ∈ D.all, q.q.dl a < q.q.inf
  within : ∀ t < D.P, ∀ a ∈ (D.bottom t).stored, ∀ R v, (D.bottom t).vol a ≤ v → q.q.dl a ≤ R → q.within R v = true

/-- The predicate of the second phase finds every volume that has a value at finite distance, whatever the distance (rays). -/
def NPred.ReachesAll (q : NPred α V K) (D : DTree α V w) : Prop :=
  ∀ t < D.P, ∀ a ∈ (D.bottom t).stored, ∀ R v, (D.bottom t).vol a ≤ v → q.q.dl a < q.q.inf → q.within R v = true

lemma NPred.Reaches.covers {q : NPred α V K} {D : DTree α V w} (h : D.Valid) (hq : q.Reaches D) : Covers D q := by
  intro R hR t ht hw b hb _
  have hfar : ∀ t < D.P, q.within R (D.vol t) ≠ true → ∀ b ∈ (D.bottom t).stored, R < q.q.dl b := by
    intro t ht hw b hb
    by_contra hle
    exact hw (hq.within t ht b hb R _ (vol_spec D h ht b hb) (not_lt.mp hle))
  have h1 := hR hq.finite
  have hbR := hfar t ht hw b hb
  have h2 : D.all.countP (fun a => decide (q.q.dl a ≤ R)) < D.size := by
    rw [← all_length]
    refine lt_of_le_of_ne List.countP_le_length ?_
    intro he
    have := List.countP_eq_length.mp he b (mem_all.mpr ⟨t, ht, hb⟩)
    simp only [decide_eq_true_eq] at this
    exact absurd (lt_of_lt_of_le hbR this) (lt_irrefl _)
  have h3 : D.all.countP (fun a => decide (q.q.dl a ≤ R)) =
      ((List.range D.P).flatMap (fun t => if q.within R (D.vol t) = true then (D.bottom t).stored else [])).countP
        (fun a => decide (q.q.dl a ≤ R)) := by
    rw [DTree.all, countP_flatMap', countP_flatMap']
    congr 1
    apply List.map_congr_left
    intro t' ht'
    have ht' := List.mem_range.mp ht'
    by_cases hw' : q.within R (D.vol t') = true
    · rw [if_pos hw']
    · rw [if_neg hw', List.countP_nil, List.countP_eq_zero]
      intro a ha
      simpa using hfar t' ht' hw' a ha
  have h4 : ((List.range D.P).flatMap (fun t => if q.within R (D.vol t) = true then (D.bottom t).stored else [])).countP
        (fun a => decide (q.q.dl a ≤ R)) ≤
      ((List.range D.P).flatMap (fun t => if q.within R (D.vol t) = true then (D.bottom t).stored else [])).countP
        (fun a => decide (q.q.dl a < q.q.dl b)) := by
    apply List.countP_mono_left
    intro a _ ha
    simp only [decide_eq_true_eq] at ha ⊢
    exact lt_of_le_of_lt ha hbR
  omega

lemma NPred.ReachesAll.covers {q : NPred α V K} {D : DTree α V w} (h : D.Valid) (hq : q.ReachesAll D) : Covers D q := by
  intro R _ t ht hw b hb hbi
  exact absurd (hq t ht b hb R _ (vol_spec D h ht b hb) hbi) hw

lemma nearest_core (D : DTree α V w) (h : D.Valid) (withCallback asserts : Bool) (hab : D.size ≠ 0 ∨ withCallback = true ∨ asserts = false)
    (E : NEnv K) (hE : E.Valid D.P) (fuel : ℕ) (hft : 2 * D.P ≤ fuel)
    (hfb : ∀ r < D.P, 2 * (D.bottom r).n ≤ fuel) (cb : NPred α V K → α → T) (queries : ℕ → List (NPred α V K))
    (hq : ∀ s < D.P, ∀ q ∈ queries s, q.Fits D ∧ Covers D q) :
    ∃ res, D.nearest withCallback asserts E fuel cb queries = some res ∧ ∀ s < D.P, ∃ calls : ℕ → List α,
      (∃ rows : ℕ → List T, Crs.IsCrs (queries s).length rows (res s).1 ((res s).2.map some) ∧
        ∀ i (hi : i < (queries s).length), rows i = (calls i).map (cb (queries s)[i])) ∧
      ∀ i (hi : i < (queries s).length), IsKClosest (queries s)[i].q.dl (queries s)[i].q.inf (queries s)[i].q.k D.all (calls i) := by
  unfold DTree.nearest
  rw [if_neg (by simp [built_of_valid D h])]
  by_cases h0 : D.size = 0 ∧ withCallback = true
  · rw [if_pos h0]
    refine ⟨_, rfl, fun s hs => ⟨fun _ => [], ⟨fun _ => [], ⟨by simp, ?_, by simp⟩, fun _ _ => rfl⟩, ?_⟩⟩
    · intro i hi
      simp only [List.getElem?_replicate]
      rw [if_pos (by omega)]
      simp
    · intro i hi
      have : D.all = [] := List.length_eq_zero_iff.mp (by rw [all_length, h0.1])
      rw [this]
      exact ⟨[], by simp, by simp, by simp, by simp, by simp⟩
  rw [if_neg h0, if_neg (by
    rintro ⟨h1, h2⟩
    rcases hab with h3 | h3 | h3
    · exact h3 h1
    · exact h0 ⟨h1, h3⟩
    · rw [h3] at h2; simp at h2)]
  obtain ⟨far, hf1, hf2⟩ := phaseI_spec D h E hE fuel hft hfb queries (fun s hs q hm => (hq s hs q hm).1)
  rw [hf1, Option.bind_some]
  have : ∀ s, ∃ R : ℕ → K, s < D.P → far s = (List.range (queries s).length).map R ∧
      ∀ i (hi : i < (queries s).length), Enough D (queries s)[i] (R i) := by
    intro s
    by_cases hs : s < D.P
    · obtain ⟨R, h1, h2⟩ := hf2 s hs
      exact ⟨R, fun _ => ⟨h1, fun i hi => (h2 i hi).1⟩⟩
    · exact ⟨E.garbage s, fun h => absurd h hs⟩
  choose R hR using this
  exact phaseII_spec D h E hE fuel hft hfb cb queries hq far R (fun s hs => (hR s hs).1) (fun s hs => (hR s hs).2)

/-- What a distributed nearest query returns, whatever the predicate of the second phase: the closest values of the processes that it asks with the
distance `R` of the first phase. -/
lemma nearest_reached (D : DTree α V w) (h : D.Valid) (withCallback asserts : Bool) (h0 : D.size ≠ 0)
    (E : NEnv K) (hE : E.Valid D.P) (fuel : ℕ) (hft : 2 * D.P ≤ fuel)
    (hfb : ∀ r < D.P, 2 * (D.bottom r).n ≤ fuel) (cb : NPred α V K → α → T) (queries : ℕ → List (NPred α V K))
    (hq : ∀ s < D.P, ∀ q ∈ queries s, q.Fits D) :
    ∃ res, D.nearest withCallback asserts E fuel cb queries = some res ∧ ∀ s < D.P, ∃ (calls : ℕ → List α) (R : ℕ → K),
      (∃ rows : ℕ → List T, Crs.IsCrs (queries s).length rows (res s).1 ((res s).2.map some) ∧
        ∀ i (hi : i < (queries s).length), rows i = (calls i).map (cb (queries s)[i])) ∧
      ∀ i (hi : i < (queries s).length), Enough D (queries s)[i] (R i) ∧ Attained D (queries s)[i] (R i) ∧
        IsKClosest (queries s)[i].q.dl (queries s)[i].q.inf (queries s)[i].q.k (reached D (queries s)[i] (R i)) (calls i) := by
  unfold DTree.nearest
  rw [if_neg (by simp [built_of_valid D h]), if_neg (fun e => h0 e.1), if_neg (fun e => h0 e.1)]
  obtain ⟨far, hf1, hf2⟩ := phaseI_spec D h E hE fuel hft hfb queries hq
  rw [hf1, Option.bind_some]
  have : ∀ s, ∃ R : ℕ → K, s < D.P → far s = (List.range (queries s).length).map R ∧
      ∀ i (hi : i < (queries s).length), Enough D (queries s)[i] (R i) ∧ Attained D (queries s)[i] (R i) := by
    intro s
    by_cases hs : s < D.P
    · obtain ⟨R, h1, h2⟩ := hf2 s hs
      exact ⟨R, fun _ => ⟨h1, h2⟩⟩
    · exact ⟨E.garbage s, fun h => absurd h hs⟩
  choose R hR using this
  obtain ⟨res, h1, h2⟩ := phaseII_core D h E hE fuel hft hfb cb queries hq far R (fun s hs => (hR s hs).1)
  refine ⟨res, h1, fun s hs => ?_⟩
  obtain ⟨calls, h3, h4⟩ := h2 s hs
  exact ⟨calls, R s, h3, fun i hi => ⟨((hR s hs).2 i hi).1, ((hR s hs).2 i hi).2, h4 i hi⟩⟩

/-- **C29 (partial).** A distributed nearest query, all values at finite distance. On every process the result is the compressed row
storage of one row for each of its queries, in their order. The row of a query is the output of the callback for `min k n` values,
`n` the number of values of all processes, in non-decreasing distance, and no omitted value of any process is closer than a
returned one. `E` ranges over all executions. The full statement, without `hab`, is false, see `distributed_nearest_empty_aborts`.
Missing: the overload without callback on a tree without values, in builds with assertions. -/
theorem distributed_nearest_partial (D : DTree α V w) (h : D.Valid) (withCallback asserts : Bool)
    (hab : D.size ≠ 0 ∨ withCallback = true ∨ asserts = false) (E : NEnv K) (hE : E.Valid D.P) (fuel : ℕ) (hft : 2 * D.P ≤ fuel)
    (hfb : ∀ r < D.P, 2 * (D.bottom r).n ≤ fuel) (cb : NPred α V K → α → T) (queries : ℕ → List (NPred α V K))
    (hq : ∀ s < D.P, ∀ q ∈ queries s, q.Fits D ∧ q.Reaches D) :
    ∃ res, D.nearest withCallback asserts E fuel cb queries = some res ∧ ∀ s < D.P, ∃ calls : ℕ → List α,
      (∃ rows : ℕ → List T, Crs.IsCrs (queries s).length rows (res s).1 ((res s).2.map some) ∧
        ∀ i (hi : i < (queries s).length), rows i = (calls i).map (cb (queries s)[i])) ∧
      ∀ i (hi : i < (queries s).length),
        IsKNearest (queries s)[i].q.dl (queries s)[i].q.inf (queries s)[i].q.k D.all (calls i) ∧
        (calls i).length = min (queries s)[i].q.k D.size := by
  obtain ⟨res, h1, h2⟩ := nearest_core D h withCallback asserts hab E hE fuel hft hfb cb queries
    (fun s hs q hm => ⟨(hq s hs q hm).1, (hq s hs q hm).2.covers h⟩)
  refine ⟨res, h1, fun s hs => ?_⟩
  obtain ⟨calls, h3, h4⟩ := h2 s hs
  refine ⟨calls, h3, fun i hi => ?_⟩
  have hf := (hq s hs _ (List.getElem_mem hi)).2.finite
  have hn := (h4 i hi).isKNearest hf
  refine ⟨hn, ?_⟩
  rw [hn.length, ← all_length]
  congr 1
  rw [List.countP_eq_length]
  intro a ha
  simpa using hf a ha

/-- **C29.** A distributed nearest query when values may be at infinite distance, as for rays, where the second phase
asks every process the ray meets: the results are the `k` closest values, and with fewer than `k` results all at finite distance
are returned. Values at infinite distance may be returned after the others: trees with a single value always return it. -/
theorem distributed_nearest_infinite (D : DTree α V w) (h : D.Valid) (withCallback asserts : Bool)
    (hab : D.size ≠ 0 ∨ withCallback = true ∨ asserts = false) (E : NEnv K) (hE : E.Valid D.P) (fuel : ℕ) (hft : 2 * D.P ≤ fuel)
    (hfb : ∀ r < D.P, 2 * (D.bottom r).n ≤ fuel) (cb : NPred α V K → α → T) (queries : ℕ → List (NPred α V K))
    (hq : ∀ s < D.P, ∀ q ∈ queries s, q.Fits D ∧ q.ReachesAll D) :
    ∃ res, D.nearest withCallback asserts E fuel cb queries = some res ∧ ∀ s < D.P, ∃ calls : ℕ → List α,
      (∃ rows : ℕ → List T, Crs.IsCrs (queries s).length rows (res s).1 ((res s).2.map some) ∧
        ∀ i (hi : i < (queries s).length), rows i = (calls i).map (cb (queries s)[i])) ∧
      ∀ i (hi : i < (queries s).length), IsKClosest (queries s)[i].q.dl (queries s)[i].q.inf (queries s)[i].q.k D.all (calls i) :=
  nearest_core D h withCallback asserts hab E hE fuel hft hfb cb queries
    (fun s hs q hm => ⟨(hq s hs q hm).1, (hq s hs q hm).2.covers h⟩)

/-- **C29 (defect).** On a tree without values the overload without callback aborts in builds with assertions, whatever the
queries, although the tree and the queries are legal and the overload with a callback returns empty results. -/
theorem distributed_nearest_empty_aborts (D : DTree α V w) (h0 : D.size = 0) (E : NEnv K) (fuel : ℕ)
    (cb : NPred α V K → α → T) (queries : ℕ → List (NPred α V K)) : D.nearest false true E fuel cb queries = none := by
  unfold DTree.nearest
  split
  · rfl
  · simp [h0]

/-! ## Cases that meet the hypotheses -/

open Nearest (exampleQuery)

def someNPred : NPred ℕ (Finset ℕ) (WithTop ℕ) := ⟨exampleQuery, fun R v => decide (exampleQuery.dv v ≤ R)⟩

lemma small_height {α V : Type} {w : ℕ} (I : Input α V w) (hn : I.n ≤ 64) : StackFits I 64 := by
  intro T hT
  have h2 := Construction.cart_leaves_length hT
  rcases need_le_leaves T with h | h <;> omega

lemma someBottom_vol (t : ℕ) (a : ℕ) : (someBottom t).vol a = {a} := by
  unfold someBottom
  split_ifs <;> rfl

/-- The three values nearest to 3, of three processes. -/
example (D : DTree ℕ (Finset ℕ) 64) (hP : D.P = 3) (hb : D.bottom = someBottom) : someNPred.Fits D ∧ someNPred.Reaches D := by
  have hdv : ∀ u v : Finset ℕ, u ≤ v → exampleQuery.dv v ≤ exampleQuery.dv u := fun u v h => Finset.inf_mono h
  have had : ∀ a (v : Finset ℕ), {a} ≤ v → exampleQuery.dv v ≤ exampleQuery.dl a := fun a v h => Finset.inf_le (h (by simp))
  refine ⟨⟨?_, hdv, le_rfl, fun _ => bot_le, fun _ => bot_le, fun _ _ _ _ => le_top, ?_, ?_, ?_⟩, ⟨fun _ _ => WithTop.coe_lt_top _, ?_⟩⟩
  · intro t _ a v h
    rw [hb, someBottom_vol] at h
    exact had a v h
  · intro t _
    rw [hb]
    apply small_height
    unfold someBottom
    split_ifs <;> simp [Traversal.exampleInput]
  · intro t _
    apply small_height
    simp [DTree.top, hP]
  · intro R u v huv h
    simp only [someNPred, decide_eq_true_eq] at h ⊢
    exact (hdv u v huv).trans h
  · intro t _ a _ R v h1 h2
    rw [hb, someBottom_vol] at h1
    simp only [someNPred, decide_eq_true_eq]
    exact (had a v h1).trans h2

example (D : DTree ℕ (Finset ℕ) 64) (hP : D.P = 3) (hb : D.bottom = someBottom) : D.size = 6 := by
  unfold DTree.size
  rw [hP, hb]
  decide

/-- Some execution exists. -/
example (P : ℕ) (Q : QEnv) (hQ : Q.Valid) (L : LEnv) (hL : L.Valid) :
    (⟨Q, Q, fun _ => L, fun _ => L, fun _ => L, fun _ => L, fun _ n => (List.range n).reverse, fun _ _ => ⊤⟩ : NEnv (WithTop ℕ)).Valid P :=
  ⟨hQ, hQ, fun _ _ => hL, fun _ _ => hL, fun _ _ => hL, fun _ _ => hL, fun _ _ => List.reverse_perm _⟩

end ArborX.Distributed
