import Verif.Distributed.Collect
import Verif.Traversal.Theorems

/-!
# Distributed spatial queries (C28)
-/

namespace ArborX.Distributed

open BVH Traversal

variable {α V T : Type} {w : ℕ} [SemilatticeSup V] [OrderBot V]

/-! ## Specification -/

/-- The answers of a predicate fit together: a predicate that holds for a volume holds for every larger volume, and one that
holds for a value holds for every volume that contains the volume of the value. -/
structure Pred.Fits (q : Pred α V) (vol : α → V) : Prop where
  volumes : ∀ u v, u ≤ v → q.pv u = true → q.pv v = true
  values : ∀ a v, vol a ≤ v → q.pl a = true → q.pv v = true

/-- The values of process `t` that satisfy the predicate, as the callback outputs them. -/
def found (D : DTree α V w) (cb : Pred α V → α → List T) (q : Pred α V) (t : ℕ) : List T :=
  ((D.bottom t).stored.filter q.pl).flatMap (cb q)

/-! ## Lemmas -/

lemma bounds_spec (I : Input α V w) (h : I.Valid) (sched : List ℕ) (hf : I.Finished sched) :
    ∃ b, bounds I sched = some b ∧ ∀ a ∈ I.stored, I.vol a ≤ b := by
  unfold bounds
  by_cases h0 : I.n = 0
  · rw [if_pos h0]
    exact ⟨⊥, rfl, fun a ha => by simp [Input.stored, h0] at ha⟩
  rw [if_neg h0]
  by_cases h1 : I.n = 1
  · rw [if_pos h1]
    refine ⟨⊥ ⊔ I.vol (I.values 0), ?_, ?_⟩
    · simp [Input.build, h1]
    · intro a ha
      simp only [Input.stored, h1, List.range_one, List.map_cons, List.map_nil, List.mem_singleton] at ha
      subst ha
      exact le_sup_right
  rw [if_neg h1]
  obtain ⟨T, hT⟩ := build_wellFormed I h (by omega)
  have hw := hT sched hf
  have hsize := build_size I sched
  cases T with
  | leaf i =>
    have := hw.1
    rw [hsize] at this
    have := congrArg List.length this
    simp [BTree.leaves] at this
    omega
  | node a b =>
    obtain ⟨ia, ib, -, hi, -, -⟩ := hw.2
    rw [Nat.sub_self] at hi
    refine ⟨_, by rw [hi]; rfl, ?_⟩
    intro v hv
    have hv' := h.stored_perm.mem_iff.mpr hv
    obtain ⟨i, hi, rfl⟩ := List.mem_map.mp hv'
    exact BTree.le_vol (fun i => I.vol (I.values (I.perm i))) _ i (by rw [hw.1, hsize]; exact hi)

lemma top_spec (D : DTree α V w) (h : D.Valid) (fuel : ℕ) (hfuel : 2 * D.P ≤ fuel) (pv : V → Bool)
    (hpv : ∀ u v, u ≤ v → pv u = true → pv v = true) {r : ℕ} (hr : r < D.P) :
    ∃ calls, spatialQuery ((D.top r).build (D.tsched r)) (fun i => pv ((D.top r).vol i)) pv (fun _ => false) fuel = .done calls ∧
      calls.Perm ((List.range D.P).filter (fun i => pv ((D.top r).vol i))) := by
  obtain ⟨calls, h1, h2⟩ := spatial_query_exact (D.top r) (h.top r hr).1 (fun i => pv ((D.top r).vol i)) pv
    (fun a v hv ha => hpv _ _ hv ha) (D.tsched r) (h.top r hr).2 fuel hfuel
  refine ⟨calls, h1, ?_⟩
  have : (D.top r).stored = List.range D.P := by
    unfold Input.stored DTree.top
    exact List.map_id _
  rwa [this] at h2

/-- The ranks a query is sent to. -/
lemma ranks_spec (D : DTree α V w) (h : D.Valid) (fuel : ℕ) (hfuel : 2 * D.P ≤ fuel) (Lt : ℕ → LEnv) (hLt : ∀ r < D.P, (Lt r).Valid)
    (queries : ℕ → List (Pred α V)) (hq : ∀ s < D.P, ∀ q ∈ queries s, ∀ u v, u ≤ v → q.pv u = true → q.pv v = true) :
    ∃ t, collect D.P (fun r => crsQuery .spatial (fun _ => 0) (Lt r)
      (fun q : Pred α V => spatialQuery ((D.top r).build (D.tsched r)) (fun i => q.pv ((D.top r).vol i)) q.pv (fun _ => false) fuel)
      (fun _ i => [(i : ℤ)]) [] (queries r)) = some t ∧
      ∃ rk : ℕ → ℕ → List ℤ, ∀ s < D.P,
        (t s).2 = (List.range (queries s).length).flatMap (rk s) ∧
        (t s).1 = offsetsFrom 0 ((List.range (queries s).length).map (fun q => (rk s q).length)) ∧
        ∀ q (hqs : q < (queries s).length), (rk s q).Nodup ∧
          ∀ d, d ∈ rk s q ↔ ∃ i : ℕ, i < D.P ∧ d = i ∧ (queries s)[q].pv ((bounds (D.bottom i) (D.bsched i)).getD ⊥) = true := by
  have hc : ∀ r (q : Pred α V), ∃ calls, r < D.P → q ∈ queries r →
      spatialQuery ((D.top r).build (D.tsched r)) (fun i => q.pv ((D.top r).vol i)) q.pv (fun _ => false) fuel = .done calls ∧
      calls.Perm ((List.range D.P).filter (fun i => q.pv ((D.top r).vol i))) := by
    intro r q
    by_cases hr : r < D.P
    · by_cases hm : q ∈ queries r
      · obtain ⟨c, h1, h2⟩ := top_spec D h fuel hfuel q.pv (hq r hr q hm) hr
        exact ⟨c, fun _ _ => ⟨h1, h2⟩⟩
      · exact ⟨[], fun _ h => absurd h hm⟩
    · exact ⟨[], fun h => absurd h hr⟩
  choose calls hcalls using hc
  obtain ⟨t, ht1, ht2⟩ := collect_some (P := D.P) (f := fun r => crsQuery .spatial (fun _ => 0) (Lt r)
      (fun q : Pred α V => spatialQuery ((D.top r).build (D.tsched r)) (fun i => q.pv ((D.top r).vol i)) q.pv (fun _ => false) fuel)
      (fun _ i => [(i : ℤ)]) [] (queries r)) (fun r hr => crsQuery_spec .spatial (fun _ => 0) (Lt r) (hLt r hr) _ (calls r) _ [] (queries r)
        (fun q hm => (hcalls r q hr hm).1))
  refine ⟨t, ht1, fun s q => match (queries s)[q]? with | some p => (calls s p).map (fun i : ℕ => (i : ℤ)) | none => [], ?_⟩
  intro s hs
  have hl : queries s = (List.range (queries s).length).map (fun q => (queries s).getD q ⟨fun _ => false, fun _ => false⟩) := by
    apply List.ext_getElem
    · simp
    · intro i h1 h2
      simp [List.getD_eq_getElem?_getD, h1]
  have hflat : ∀ p : Pred α V, (calls s p).flatMap (fun i : ℕ => [(i : ℤ)]) = (calls s p).map (fun i : ℕ => (i : ℤ)) := by
    intro p
    induction calls s p with
    | nil => rfl
    | cons a l ih => simp [ih]
  refine ⟨?_, ?_, ?_⟩
  · rw [ht2 s hs]
    simp only
    conv_lhs => rw [hl, List.flatMap_map]
    apply List.flatMap_congr
    intro q hq
    have hq := List.mem_range.mp hq
    rw [hflat, List.getD_eq_getElem?_getD, List.getElem?_eq_getElem hq]
    rfl
  · rw [ht2 s hs]
    simp only
    congr 1
    conv_lhs => rw [hl, List.map_map]
    apply List.map_congr_left
    intro q hq
    have hq := List.mem_range.mp hq
    simp only [Function.comp]
    rw [hflat, List.getD_eq_getElem?_getD, List.getElem?_eq_getElem hq]
    rfl
  · intro q hqs
    have hm := List.getElem_mem hqs
    obtain ⟨-, hp⟩ := hcalls s (queries s)[q] hs hm
    beta_reduce
    rw [List.getElem?_eq_getElem hqs]
    simp only
    constructor
    · apply List.Nodup.map (fun a b hab => by simpa using hab)
      exact hp.nodup_iff.mpr (List.nodup_range.filter _)
    · intro d
      rw [List.mem_map]
      constructor
      · rintro ⟨i, hi, rfl⟩
        have := hp.mem_iff.mp hi
        rw [List.mem_filter, List.mem_range] at this
        exact ⟨i, this.1, rfl, this.2⟩
      · rintro ⟨i, hi, rfl, hpv⟩
        exact ⟨i, hp.mem_iff.mpr (List.mem_filter.mpr ⟨List.mem_range.mpr hi, hpv⟩), rfl⟩

lemma built_of_valid (D : DTree α V w) (h : D.Valid) : D.built = true := by
  unfold DTree.built
  rw [List.all_eq_true]
  intro r hr
  have hr := List.mem_range.mp hr
  obtain ⟨b, h1, -⟩ := bounds_spec (D.bottom r) (h.bottom r hr).1 (D.bsched r) (h.bottom r hr).2
  rw [h1]; rfl

/-- A process a query is not sent to has no values that satisfy it. -/
lemma not_sent (D : DTree α V w) (h : D.Valid) {t : ℕ} (ht : t < D.P) (q : Pred α V) (hq : q.Fits (D.bottom t).vol)
    (hn : q.pv ((bounds (D.bottom t) (D.bsched t)).getD ⊥) ≠ true) : (D.bottom t).stored.filter q.pl = [] := by
  obtain ⟨b, h1, h2⟩ := bounds_spec (D.bottom t) (h.bottom t ht).1 (D.bsched t) (h.bottom t ht).2
  rw [h1] at hn
  rw [List.filter_eq_nil_iff]
  intro a ha hpl
  exact hn (hq.values a b (h2 a ha) hpl)

omit [SemilatticeSup V] [OrderBot V] in
lemma size_zero {D : DTree α V w} (h : D.size = 0) : ∀ t < D.P, (D.bottom t).stored = [] := by
  intro t ht
  unfold DTree.size at h
  rw [List.sum_eq_zero_iff] at h
  have := h _ (List.mem_map_of_mem (List.mem_range.mpr ht))
  simp [Input.stored, this]

/-! ## The theorems -/

/-- **C28.** A distributed spatial query with output. On every process the result is the compressed row storage of one row for
each of its queries, in their order. The row of a query consists of what the callback outputs for the values of all processes that
satisfy the query, each once. Processes without values or without queries are included. `E`, `Lt`, `Lb` range over all
executions, `user` is the previous content of the views. -/
theorem distributed_spatial (D : DTree α V w) (h : D.Valid) (E : QEnv) (hE : E.Valid) (Lt Lb : ℕ → LEnv)
    (hLt : ∀ r < D.P, (Lt r).Valid) (hLb : ∀ r < D.P, (Lb r).Valid) (fuel : ℕ) (hft : 2 * D.P ≤ fuel)
    (hfb : ∀ r < D.P, 2 * (D.bottom r).n ≤ fuel) (cb : Pred α V → α → List T) (user : ℕ → List T) (queries : ℕ → List (Pred α V))
    (hq : ∀ s < D.P, ∀ q ∈ queries s, ∀ t < D.P, q.Fits (D.bottom t).vol) :
    ∃ res, D.spatial E Lt Lb fuel cb user queries = some res ∧ ∀ s < D.P, ∃ rows : ℕ → List T,
      Crs.IsCrs (queries s).length rows (res s).1 ((res s).2.map some) ∧
      ∀ q (hqs : q < (queries s).length), (rows q).Perm ((List.range D.P).flatMap (found D cb (queries s)[q])) := by
  unfold DTree.spatial
  rw [if_neg (by simp [built_of_valid D h])]
  by_cases h0 : D.size = 0
  · rw [if_pos h0]
    refine ⟨_, rfl, fun s hs => ⟨fun _ => [], ⟨by simp, ?_, ?_⟩, ?_⟩⟩
    · intro i hi
      simp only [List.getElem?_replicate]
      rw [if_pos (by omega)]
      simp
    · simp
    · intro q hqs
      have : (List.range D.P).flatMap (found D cb (queries s)[q]) = [] := by
        rw [List.flatMap_eq_nil_iff]
        intro t ht
        unfold found
        rw [size_zero h0 t (List.mem_range.mp ht)]
        rfl
      rw [this]
  rw [if_neg h0]
  have hpv : ∀ s < D.P, ∀ q ∈ queries s, ∀ u v, u ≤ v → q.pv u = true → q.pv v = true := fun s hs q hm =>
    (hq s hs q hm s hs).volumes
  obtain ⟨t, ht1, rk, hrk⟩ := ranks_spec D h fuel hft Lt hLt queries hpv
  rw [ht1, Option.bind_some]
  let qf : ℕ → ℕ → Pred α V := fun s q => (queries s).getD q ⟨fun _ => false, fun _ => false⟩
  have hqf : ∀ s q (hqs : q < (queries s).length), qf s q = (queries s)[q] := by
    intro s q hqs
    simp [qf, List.getD_eq_getElem?_getD, hqs]
  have hcalls : ∀ r (q : Pred α V), ∃ calls, r < D.P → q.Fits (D.bottom r).vol →
      spatialQuery ((D.bottom r).build (D.bsched r)) q.pl q.pv (fun _ => false) fuel = .done calls ∧
      calls.Perm ((D.bottom r).stored.filter q.pl) := by
    intro r q
    by_cases hr : r < D.P
    · by_cases hf : q.Fits (D.bottom r).vol
      · obtain ⟨c, h1, h2⟩ := spatial_query_exact (D.bottom r) (h.bottom r hr).1 q.pl q.pv hf.values (D.bsched r) (h.bottom r hr).2
          fuel (hfb r hr)
        exact ⟨c, fun _ _ => ⟨h1, h2⟩⟩
      · exact ⟨[], fun _ h => absurd h hf⟩
    · exact ⟨[], fun h => absurd h hr⟩
  choose calls hcalls using hcalls
  obtain ⟨res, hres1, hres2⟩ := forwardAndCommunicate_spec E hE (queries := queries) (n := fun s => (queries s).length) (qf := qf)
    (P := D.P) (rk := rk) (ranksTo := fun r => (t r).2) (offset := fun r => (t r).1)
    (fun s _ => by
      apply List.ext_getElem
      · simp
      · intro i h1 h2
        simp [qf, List.getD_eq_getElem?_getD, h1])
    (fun s hs q hqs d hd => by
      obtain ⟨i, hi, rfl, -⟩ := (((hrk s hs).2.2 q hqs).2 d).mp hd
      omega)
    (fun s hs q hqs => ((hrk s hs).2.2 q hqs).1) (fun s hs => (hrk s hs).1) (fun s hs => (hrk s hs).2.1)
    (fun q => ∀ t < D.P, q.Fits (D.bottom t).vol) (fun s hs q hqs => by rw [hqf s q hqs]; exact hq s hs _ (List.getElem_mem hqs))
    (fun t q row => row.Perm (found D cb q t))
    (bottom := fun r qs => crsQuery .spatial (fun _ => 0) (Lb r)
      (fun q : Pred α V => spatialQuery ((D.bottom r).build (D.bsched r)) q.pl q.pv (fun _ => false) fuel) cb (user r) qs)
    (by
      intro r hr qs hqs
      refine ⟨qs.map (fun q => (calls r q).flatMap (cb q)), by simp, ?_, ?_⟩
      · rw [crsQuery_spec .spatial (fun _ => 0) (Lb r) (hLb r hr) _ (calls r) cb (user r) qs (fun q hm => (hcalls r q hr (hqs q hm r hr)).1)]
        rw [List.map_map, ← List.flatMap_def]
        rfl
      · intro e he
        rw [List.zip_map_right] at he
        obtain ⟨⟨a, b⟩, hab, rfl⟩ := List.mem_map.mp he
        have hz : b = a ∧ a ∈ qs := by
          have : ∀ (l : List (Pred α V)) (x y : Pred α V), (x, y) ∈ l.zip l → y = x ∧ x ∈ l := by
            intro l x y hxy
            induction l with
            | nil => simp at hxy
            | cons c l ih =>
              rw [List.zip_cons_cons, List.mem_cons] at hxy
              rcases hxy with hxy | hxy
              · simp only [Prod.mk.injEq] at hxy
                exact ⟨by rw [hxy.1, hxy.2], by simp [hxy.1]⟩
              · exact ⟨(ih hxy).1, by simp [(ih hxy).2]⟩
          exact this qs a b hab
        obtain ⟨rfl, hm⟩ := hz
        simp only [Prod.map]
        unfold found
        exact (hcalls r _ hr (hqs _ hm r hr)).2.flatMap_right _)
  refine ⟨res, hres1, fun s hs => ?_⟩
  obtain ⟨rows, hr1, hr2⟩ := hres2 s hs
  refine ⟨rows, hr1, fun q hqs => ?_⟩
  obtain ⟨ρ, h1, h2, h3⟩ := hr2 q hqs
  rw [hqf s q hqs] at h1
  refine h3.trans ?_
  apply List.Perm.flatMap_left
  intro t' ht'
  have ht' := List.mem_range.mp ht'
  by_cases hm : (t' : ℤ) ∈ rk s q
  · exact h1 t' ht' hm
  · rw [h2 t' ht' hm]
    have : ¬ (queries s)[q].pv ((bounds (D.bottom t') (D.bsched t')).getD ⊥) = true := fun hp =>
      hm ((((hrk s hs).2.2 q hqs).2 t').mpr ⟨t', ht', rfl, hp⟩)
    unfold found
    rw [not_sent D h ht' _ (hq s hs _ (List.getElem_mem hqs) t' ht') this]
    rfl

/-- **C28.** A distributed spatial query with a callback and no output. On process `t` the callback is called for each
pair of a query of some process and a value of process `t` that satisfies it, each once. -/
theorem distributed_spatial_pure (D : DTree α V w) (h : D.Valid) (Es : ℕ → Env) (hE : ∀ i, (Es i).Valid) (Lt : ℕ → LEnv)
    (hLt : ∀ r < D.P, (Lt r).Valid) (fuel : ℕ) (hft : 2 * D.P ≤ fuel)
    (hfb : ∀ r < D.P, 2 * (D.bottom r).n ≤ fuel) (queries : ℕ → List (Pred α V))
    (hq : ∀ s < D.P, ∀ q ∈ queries s, ∀ t < D.P, q.Fits (D.bottom t).vol) :
    ∃ res, D.spatialPure Es Lt fuel queries = some res ∧ ∀ t < D.P, ∃ calls : List (Pred α V × List α),
      res t = calls.map (fun e => (e.1, Res.done e.2)) ∧
      (calls.flatMap (fun e => e.2.map (fun a => (e.1, a)))).Perm
        ((List.range D.P).flatMap (fun s => (queries s).flatMap (fun q => ((D.bottom t).stored.filter q.pl).map (fun a => (q, a))))) := by
  unfold DTree.spatialPure
  rw [if_neg (by simp [built_of_valid D h])]
  by_cases h0 : D.size = 0
  · rw [if_pos h0]
    refine ⟨_, rfl, fun t ht => ⟨[], rfl, ?_⟩⟩
    rw [size_zero h0 t ht]
    simp
  rw [if_neg h0]
  have hpv : ∀ s < D.P, ∀ q ∈ queries s, ∀ u v, u ≤ v → q.pv u = true → q.pv v = true := fun s hs q hm =>
    (hq s hs q hm s hs).volumes
  obtain ⟨t, ht1, rk, hrk⟩ := ranks_spec D h fuel hft Lt hLt queries hpv
  rw [ht1, Option.bind_some]
  let qf : ℕ → ℕ → Pred α V := fun s q => (queries s).getD q ⟨fun _ => false, fun _ => false⟩
  have hqf : ∀ s q (hqs : q < (queries s).length), qf s q = (queries s)[q] := by
    intro s q hqs
    simp [qf, List.getD_eq_getElem?_getD, hqs]
  have hql : ∀ s, queries s = (List.range (queries s).length).map (qf s) := by
    intro s
    apply List.ext_getElem
    · simp
    · intro i h1 h2
      simp [qf, List.getD_eq_getElem?_getD, h1]
  obtain ⟨-, fq, hf1, hf2⟩ := forward_spec Es hE (queries := queries) (n := fun s => (queries s).length) (qf := qf)
    (P := D.P) (rk := rk) (ranksTo := fun r => (t r).2) (offset := fun r => (t r).1) (fun s _ => hql s)
    (fun s hs q hqs d hd => by
      obtain ⟨i, hi, rfl, -⟩ := (((hrk s hs).2.2 q hqs).2 d).mp hd
      omega)
    (fun s hs => (hrk s hs).1) (fun s hs => (hrk s hs).2.1)
  rw [hf1, Option.map_some]
  refine ⟨_, rfl, fun t' ht' => ?_⟩
  have hcalls : ∀ q : Pred α V, ∃ calls, q.Fits (D.bottom t').vol →
      spatialQuery ((D.bottom t').build (D.bsched t')) q.pl q.pv (fun _ => false) fuel = .done calls ∧
      calls.Perm ((D.bottom t').stored.filter q.pl) := by
    intro q
    by_cases hf : q.Fits (D.bottom t').vol
    · obtain ⟨c, h1, h2⟩ := spatial_query_exact (D.bottom t') (h.bottom t' ht').1 q.pl q.pv hf.values (D.bsched t') (h.bottom t' ht').2
        fuel (hfb t' ht')
      exact ⟨c, fun _ => ⟨h1, h2⟩⟩
    · exact ⟨[], fun h => absurd h hf⟩
  choose calls hcalls using hcalls
  have hfit : ∀ e ∈ inbox D.P (fun s => (queries s).length) rk t', (qf e.1 e.2).Fits (D.bottom t').vol := by
    intro e he
    obtain ⟨h1, h2, -⟩ := mem_inbox.mp he
    rw [hqf _ _ h2]
    exact hq _ h1 _ (List.getElem_mem h2) t' ht'
  refine ⟨(inbox D.P (fun s => (queries s).length) rk t').map (fun e => (qf e.1 e.2, calls (qf e.1 e.2))), ?_, ?_⟩
  · rw [hf2 t' ht', List.map_map, List.map_map]
    apply List.map_congr_left
    intro e he
    simp only [Function.comp]
    rw [(hcalls _ (hfit e he)).1]
  · rw [List.flatMap_map]
    unfold inbox
    rw [List.flatMap_assoc]
    apply List.Perm.flatMap_left
    intro s hs
    have hs := List.mem_range.mp hs
    rw [List.flatMap_assoc]
    conv_rhs => rw [hql s, List.flatMap_map]
    apply List.Perm.flatMap_left
    intro q hqs
    have hqs := List.mem_range.mp hqs
    have hfits : (qf s q).Fits (D.bottom t').vol := by
      rw [hqf _ _ hqs]
      exact hq _ hs _ (List.getElem_mem hqs) t' ht'
    by_cases hm : (t' : ℤ) ∈ rk s q
    · have h1 : (rk s q).count (t' : ℤ) = 1 := List.count_eq_one_of_mem ((hrk s hs).2.2 q hqs).1 hm
      rw [h1]
      simp only [List.replicate_one, List.flatMap_cons, List.flatMap_nil, List.append_nil]
      exact (hcalls _ hfits).2.map _
    · rw [List.count_eq_zero.mpr hm]
      have : ¬ (queries s)[q].pv ((bounds (D.bottom t') (D.bsched t')).getD ⊥) = true := fun hp =>
        hm ((((hrk s hs).2.2 q hqs).2 t').mpr ⟨t', ht', rfl, hp⟩)
      rw [hqf _ _ hqs] at hfits ⊢
      rw [not_sent D h ht' _ hfits this]
      simp

/-! ## Cases that meet the hypotheses -/

lemma isSort_insertion (n : ℕ) (key : ℕ → ℕ) :
    Perm.IsSort n key (fun i => ((List.range n).insertionSort (fun a b => key a ≤ key b)).getD i 0) := by
  set l := (List.range n).insertionSort (fun a b => key a ≤ key b) with hl
  have hp : l.Perm (List.range n) := List.perm_insertionSort _ _
  have hs : l.Pairwise (fun a b => key a ≤ key b) := by
    have : Std.Total (fun a b : ℕ => key a ≤ key b) := ⟨fun a b => le_total _ _⟩
    have : IsTrans ℕ (fun a b => key a ≤ key b) := ⟨fun _ _ _ => le_trans⟩
    exact List.pairwise_insertionSort _ _
  have hlen : l.length = n := by rw [hp.length_eq]; simp
  refine ⟨?_, ?_⟩
  · have : (List.range n).map (fun i => l.getD i 0) = l := by
      apply List.ext_getElem
      · simp [hlen]
      · intro i h1 h2
        simp [List.getD_eq_getElem?_getD, h2]
    rw [this]; exact hp
  · intro i hi
    rw [List.pairwise_iff_getElem] at hs
    have := hs i (i + 1) (by omega) (by omega) (by omega)
    simpa [List.getD_eq_getElem?_getD, show i < l.length by omega, show i + 1 < l.length by omega] using this

lemma exists_isSort (n : ℕ) (key : ℕ → ℕ) : ∃ σ, Perm.IsSort n key σ := ⟨_, isSort_insertion n key⟩

/-- Some execution exists. -/
example : ∃ E : QEnv, E.Valid :=
  ⟨⟨fun _ => someEnv, fun _ => someEnv, fun _ ids => (List.range ids.length).reverse,
    fun _ ids => (exists_isSort ids.length (fun i => ids.getD i 0)).choose⟩,
    ⟨fun _ => someEnv_valid, fun _ => someEnv_valid, fun _ _ => List.reverse_perm _, fun _ _ => (exists_isSort _ _).choose_spec⟩⟩

/-- The queries in reverse order, one thread after the other. -/
def someLEnv : LEnv where
  permute n i := n - 1 - i
  sched1 n len := (List.range n).flatMap (fun t => List.replicate (2 * len t) t)
  sched2 n len := (List.range n).flatMap (fun t => List.replicate (2 * len t) t)

lemma sequential_fair (n : ℕ) (len : ℕ → ℕ) : ∀ t < n, 2 * len t ≤ ((List.range n).flatMap (fun t => List.replicate (2 * len t) t)).count t := by
  intro t ht
  have : (List.replicate (2 * len t) t).Sublist ((List.range n).flatMap (fun t => List.replicate (2 * len t) t)) := by
    rw [List.flatMap_def]
    exact List.sublist_flatten_of_mem (List.mem_map_of_mem (List.mem_range.mpr ht))
  have := this.count_le t
  rwa [List.count_replicate_self] at this

example : someLEnv.Valid where
  permute n := by
    have : (List.range n).map (someLEnv.permute n) = (List.range n).reverse := by
      apply List.ext_getElem
      · simp
      · intro i h1 h2
        simp [someLEnv]
    rw [this]
    exact List.reverse_perm _
  sched1 := sequential_fair
  sched2 := sequential_fair

open Traversal (exampleInput exampleInput_valid)

omit [SemilatticeSup V] [OrderBot V] in
lemma equalCodes_valid (I : Input α V 64) (hc : I.code = fun _ => 0) (hp : I.perm = fun i => i) (hn : I.n ≤ 2 ^ 63) : I.Valid where
  width := by decide
  fits := hn
  sorted := ⟨by rw [hp, List.map_id'], by intro i _; simp [hc]⟩
  top := by intro i _; simp [hc]

lemma exists_finished (I : Input α V w) (h : I.Valid) : ∃ sched, I.Finished sched := by
  by_cases hn : 2 ≤ I.n
  · obtain ⟨s, hs⟩ := Construction.exists_complete I.params (h.keys hn)
    exact ⟨s, fun _ => hs⟩
  · exact ⟨[], fun h => absurd h hn⟩

/-- Three processes: one with several values, one without values, one with a single value. -/
def someBottom (r : ℕ) : Input ℕ (Finset ℕ) 64 :=
  if r = 0 then exampleInput else ⟨if r = 1 then 0 else 1, fun _ => 4, fun a => {a}, fun _ => 0, fun i => i⟩

lemma someDTree_exists : ∃ D : DTree ℕ (Finset ℕ) 64, D.Valid ∧ D.P = 3 ∧ D.bottom = someBottom := by
  have hv : ∀ r, (someBottom r).Valid := by
    intro r
    by_cases h0 : r = 0
    · subst h0; exact exampleInput_valid
    · unfold someBottom
      rw [if_neg h0]
      refine equalCodes_valid _ rfl rfl ?_
      simp only
      split_ifs <;> norm_num
  choose bs hbs using fun r => exists_finished (someBottom r) (hv r)
  let D0 : DTree ℕ (Finset ℕ) 64 := ⟨3, someBottom, bs, fun _ _ => 0, fun _ i => i, fun _ => []⟩
  have ht : ∀ r, (D0.top r).Valid := fun r => equalCodes_valid _ rfl rfl (by simp [DTree.top, D0])
  choose ts hts using fun r => exists_finished (D0.top r) (ht r)
  exact ⟨⟨3, someBottom, bs, fun _ _ => 0, fun _ i => i, ts⟩, ⟨fun r _ => ⟨hv r, hbs r⟩, fun r _ => ⟨ht r, hts r⟩⟩, rfl, rfl⟩

/-- The even values. -/
def somePred : Pred ℕ (Finset ℕ) := ⟨fun a => a % 2 == 0, fun v => decide (∃ x ∈ v, x % 2 = 0)⟩

example (r : ℕ) : somePred.Fits (someBottom r).vol where
  volumes u v huv h := by
    simp only [somePred, decide_eq_true_eq] at *
    obtain ⟨x, hx, h⟩ := h
    exact ⟨x, huv hx, h⟩
  values a v h h' := by
    have : a ∈ v := by
      apply h
      unfold someBottom
      split_ifs <;> simp [exampleInput]
    simp only [somePred, beq_iff_eq, decide_eq_true_eq] at *
    exact ⟨a, this, h'⟩

/-- The query finds the values of the first and the third process. -/
example (D : DTree ℕ (Finset ℕ) 64) (h : D.bottom = someBottom) :
    (List.range 3).flatMap (found D (fun _ a => [a]) somePred) = [0, 2, 4, 4] := by
  unfold found
  rw [h]
  decide

end ArborX.Distributed
