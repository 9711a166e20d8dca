import Verif.Mpi.Isolation
import Verif.Distributed.Spatial
import Verif.Distributed.Nearest
import Verif.DistDbscan.Theorems

/-! # Distributed functions with processes and messages in any order

`AllEnd P eager p res` (`Verif/Mpi/Rounds.lean`): if the `P` processes execute the programs `p`, one step of some process or the matching of some message after another, in any order, then there is no infinite execution, every execution can be
continued until all processes have finished, their results are `res`, and no message or receive is left over. `eager` says which sends end without their receive. -/

namespace ArborX.Mpi

open Distributed DistDbscan BVH Traversal Dbscan

variable {α V T K X : Type} {w : ℕ} [SemilatticeSup V] [OrderBot V]

/-- **C97, spatial queries.** Each process constructs the distributed tree from its values and queries it: the executions of all processes end, and the results are those of C28. -/
theorem distributed_spatial_processes (D : DTree α V w) (h : D.Valid) (hP : ∀ i ≥ D.P, (D.bottom i).n = 0) (E : QEnv) (hE : E.Valid) (Lt Lb : ℕ → LEnv)
    (hLt : ∀ r < D.P, (Lt r).Valid) (hLb : ∀ r < D.P, (Lb r).Valid) (fuel : ℕ) (hft : 2 * D.P ≤ fuel)
    (hfb : ∀ r < D.P, 2 * (D.bottom r).n ≤ fuel) (cb : Pred α V → α → List T) (user : ℕ → List T) (queries : ℕ → List (Pred α V))
    (hq : ∀ s < D.P, ∀ q ∈ queries s, ∀ t < D.P, q.Fits (D.bottom t).vol) :
    ∃ res : ℕ → List ℕ × List T,
      (∀ eager, AllEnd D.P eager (fun r => constructP (localOf D r) (spatialP (localOf D r) D.P r E (Lt r) (Lb r) fuel cb (user r) (queries r))) fun r => some (res r)) ∧
      ∀ s < D.P, ∃ rows : ℕ → List T, Crs.IsCrs (queries s).length rows (res s).1 ((res s).2.map some) ∧
        ∀ q (hqs : q < (queries s).length), (rows q).Perm ((List.range D.P).flatMap (found D cb (queries s)[q])) := by
  obtain ⟨res, h1, h2⟩ := distributed_spatial D h E hE Lt Lb hLt hLb fuel hft hfb cb user queries hq
  exact ⟨res, runs_allEnd (spatial_runs hP hE h1), h2⟩

/-- **C97, queries with a callback and no output.** -/
theorem distributed_spatial_pure_processes (D : DTree α V w) (h : D.Valid) (hP : ∀ i ≥ D.P, (D.bottom i).n = 0) (Es : ℕ → Env) (hE : ∀ i, (Es i).Valid) (Lt : ℕ → LEnv)
    (hLt : ∀ r < D.P, (Lt r).Valid) (fuel : ℕ) (hft : 2 * D.P ≤ fuel) (hfb : ∀ r < D.P, 2 * (D.bottom r).n ≤ fuel) (queries : ℕ → List (Pred α V))
    (hq : ∀ s < D.P, ∀ q ∈ queries s, ∀ t < D.P, q.Fits (D.bottom t).vol) :
    ∃ res : ℕ → List (Pred α V × Res (List α)),
      (∀ eager, AllEnd D.P eager (fun r => constructP (localOf D r) (spatialPureP (T := T) (localOf D r) D.P r Es (Lt r) fuel (queries r))) fun r => some (res r)) ∧
      ∀ t < D.P, ∃ calls : List (Pred α V × List α), res t = calls.map (fun e => (e.1, Res.done e.2)) ∧
        (calls.flatMap (fun e => e.2.map (fun a => (e.1, a)))).Perm
          ((List.range D.P).flatMap (fun s => (queries s).flatMap (fun q => ((D.bottom t).stored.filter q.pl).map (fun a => (q, a))))) := by
  obtain ⟨res, h1, h2⟩ := distributed_spatial_pure D h Es hE Lt hLt fuel hft hfb queries hq
  exact ⟨res, runs_allEnd (spatialPure_runs hP hE h1), h2⟩

/-- **C97, nearest queries** (where C29 holds: `distributed_nearest_infinite`). -/
theorem distributed_nearest_processes [LinearOrder K] (D : DTree α V w) (h : D.Valid) (hP : ∀ i ≥ D.P, (D.bottom i).n = 0) (withCallback asserts : Bool)
    (hab : D.size ≠ 0 ∨ withCallback = true ∨ asserts = false) (E : NEnv K) (hE : E.Valid D.P) (fuel : ℕ) (hft : 2 * D.P ≤ fuel)
    (hfb : ∀ r < D.P, 2 * (D.bottom r).n ≤ fuel) (cb : NPred α V K → α → T) (queries : ℕ → List (NPred α V K))
    (hq : ∀ s < D.P, ∀ q ∈ queries s, q.Fits D ∧ q.ReachesAll D) :
    ∃ res : ℕ → List ℕ × List T,
      (∀ eager, AllEnd D.P eager (fun r => constructP (localOf D r) (nearestP (localOf D r) D.P r withCallback asserts E fuel cb (queries r))) fun r => some (res r)) ∧
      ∀ s < D.P, ∃ calls : ℕ → List α,
        (∃ rows : ℕ → List T, Crs.IsCrs (queries s).length rows (res s).1 ((res s).2.map some) ∧
          ∀ i (hi : i < (queries s).length), rows i = (calls i).map (cb (queries s)[i])) ∧
        ∀ i (hi : i < (queries s).length), IsKClosest (queries s)[i].q.dl (queries s)[i].q.inf (queries s)[i].q.k D.all (calls i) := by
  obtain ⟨res, h1, h2⟩ := distributed_nearest_infinite D h withCallback asserts hab E hE fuel hft hfb cb queries hq
  exact ⟨res, runs_allEnd (nearest_runs hP hE.one hE.two h1), h2⟩

/-- **C97, a tree is queried several times and destroyed.** A process may be several calls ahead of another one. -/
theorem distributed_calls_processes (D : DTree α V w) (h : D.Valid) (hP : ∀ i ≥ D.P, (D.bottom i).n = 0) (calls : List (Call α V T))
    (hE : ∀ c ∈ calls, c.E.Valid) (hLt : ∀ c ∈ calls, ∀ r < D.P, (c.Lt r).Valid) (hLb : ∀ c ∈ calls, ∀ r < D.P, (c.Lb r).Valid)
    (hft : ∀ c ∈ calls, 2 * D.P ≤ c.fuel) (hfb : ∀ c ∈ calls, ∀ r < D.P, 2 * (D.bottom r).n ≤ c.fuel)
    (hq : ∀ c ∈ calls, ∀ s < D.P, ∀ q ∈ c.queries s, ∀ t < D.P, q.Fits (D.bottom t).vol) :
    ∃ out : Call α V T → ℕ → List ℕ × List T,
      (∀ eager, AllEnd D.P eager (fun r => constructP (localOf D r) fun vols sizes => callsP (localOf D r) D.P r vols sizes calls []) fun r => some (calls.map fun c => out c r)) ∧
      ∀ c ∈ calls, ∀ s < D.P, ∃ rows : ℕ → List T, Crs.IsCrs (c.queries s).length rows (out c s).1 ((out c s).2.map some) ∧
        ∀ q (hqs : q < (c.queries s).length), (rows q).Perm ((List.range D.P).flatMap (found D c.cb (c.queries s)[q])) := by
  have : ∀ c ∈ calls, ∃ res, D.spatial c.E c.Lt c.Lb c.fuel c.cb c.user c.queries = some res ∧ ∀ s < D.P, ∃ rows : ℕ → List T,
      Crs.IsCrs (c.queries s).length rows (res s).1 ((res s).2.map some) ∧ ∀ q (hqs : q < (c.queries s).length), (rows q).Perm ((List.range D.P).flatMap (found D c.cb (c.queries s)[q])) :=
    fun c hc => distributed_spatial D h c.E (hE c hc) c.Lt c.Lb (hLt c hc) (hLb c hc) c.fuel (hft c hc) (hfb c hc) c.cb c.user c.queries (hq c hc)
  choose! out h1 h2 using this
  refine ⟨out, fun eager => runs_allEnd (construct_runs (built_of_valid D h) hP ?_) eager, h2⟩
  simpa using calls_runs calls hE out h1 (fun _ => [])

/-- **C97, distributed DBSCAN** (where C48 holds: `distributed_dbscan_partial`), if no message with the tag of the library is under way when it is called. -/
theorem distributed_dbscan_processes_partial {Y D' : Type} (c : Codes X Y D') (D : In X V) (hD : D.Geometry) (hP : ∀ i ≥ D.P, D.points i = []) (h2 : 2 ≤ D.minPts) (star : Bool) (E : XEnv X w) (hE : E.Valid D)
    (hL : E.Local D star) (hc : ∀ r n, InOrder (E.csched r n)) (queryFuel : ℕ) (hq : 2 * D.P ≤ queryFuel) (hfew : D.FewLabels E queryFuel) :
    ∃ N, ∀ fuel ≥ N, ∃ res : ℕ → List ℤ,
      (∀ eager, AllEnd D.P eager (fun r => dbscanP c (argsOf D r) E queryFuel fuel r) fun r => some (res r)) ∧ (∀ r < D.P, (res r).length = (D.points r).length) ∧
      IsClustering star D.all.length (nearOf D.near D.all) D.minPts (labelAt ((List.range D.P).flatMap res)) := by
  obtain ⟨N, h⟩ := distributed_dbscan_partial D hD h2 star E hE hL hc queryFuel hq hfew
  refine ⟨N, fun fuel hf => ?_⟩
  obtain ⟨res, h1, h2, h3⟩ := h fuel hf
  exact ⟨res, runs_allEnd (dbscan_runs c hP hE.fwd hE.back hE.merge h1), h2, h3⟩

/-- **C97, distributed DBSCAN, whatever the number of labels**: all processes finish with labels of their points (C48's first part). -/
theorem distributed_dbscan_ends_partial {Y D' : Type} (c : Codes X Y D') (D : In X V) (hD : D.Geometry) (hP : ∀ i ≥ D.P, D.points i = []) (h2 : 2 ≤ D.minPts) (star : Bool) (E : XEnv X w) (hE : E.Valid D)
    (hL : E.Local D star) (hc : ∀ r n, InOrder (E.csched r n)) (queryFuel : ℕ) (hq : 2 * D.P ≤ queryFuel) :
    ∃ N, ∀ fuel ≥ N, ∃ res : ℕ → List ℤ,
      (∀ eager, AllEnd D.P eager (fun r => dbscanP c (argsOf D r) E queryFuel fuel r) fun r => some (res r)) ∧ (∀ r < D.P, (res r).length = (D.points r).length) ∧
      ∀ g < D.all.length, labelAt ((List.range D.P).flatMap res) g = -1 ↔
        ¬ Core D.all.length (nearOf D.near D.all) D.minPts g ∧ (star = true ∨ ¬ NearCore D.all.length (nearOf D.near D.all) D.minPts g) := by
  obtain ⟨N, h⟩ := distributed_dbscan_sound_partial D hD h2 star E hE hL hc queryFuel hq
  refine ⟨N, fun fuel hf => ?_⟩
  obtain ⟨res, h1, h2, h3, -⟩ := h fuel hf
  exact ⟨res, runs_allEnd (dbscan_runs c hP hE.fwd hE.back hE.merge h1), h2, h3⟩

/-- **C97 is false for messages of the user of distributed DBSCAN.** Two processes with the points `[1]` and `[3, 0]`, `eps = 1`, `core_min_size = 2`: the labels are `[0]` and `[-1, 0]`. Before the call the first process has sent a number to the second one, with the tag
the library uses, which the second one intends to receive after the call. The library receives it as a point. If sends need not wait for their receive, all executions end with the labels `[0]` and `[-1, -1]`: the point 0 is noise, although the point 1 is near. If sends
wait, no process ever finishes. -/
theorem user_message_defect : ∃ (D : In ℤ Interval) (E : XEnv ℤ 64), D.Geometry ∧ D.minPts = 2 ∧ E.Valid D ∧ E.Local D false ∧ (∀ r n, InOrder (E.csched r n)) ∧ D.P = 2 ∧ D.points 0 = [1] ∧ D.points 1 = [3, 0] ∧
    (∃ res, D.dbscan E 4 10 = some res ∧ res 0 = [0] ∧ res 1 = [-1, 0]) ∧
    let p : ℕ → LProg Interval ℤ (List ℤ) := fun r => if r = 0 then .isend 1 [some 7] (dbscanP .raw (argsOf D 0) E 4 10 0) else dbscanP .raw (argsOf D r) E 4 10 r
    (∀ σ, Reach 2 (fun _ _ _ => true) (start p) σ → ∃ τ, Reach 2 (fun _ _ _ => true) σ τ ∧ τ.prog 0 = .done (some [0]) ∧ τ.prog 1 = .done (some [-1, -1])) ∧
    ∀ σ, Reach 2 (fun _ _ _ => false) (start p) σ → ∀ s < 2, ∀ r, σ.prog s ≠ .done r := by
  refine ⟨twoIn, twoEnv, lineOf_geometry _, rfl, twoEnv_valid, twoEnv_local, lineEnv_inOrder, rfl, rfl, rfl, ?_, ?_, ?_⟩
  · have := two_run
    cases hres : twoIn.dbscan twoEnv 4 10 with
    | none => rw [hres] at this; simp at this
    | some res =>
      rw [hres] at this
      simp only [Option.map_some, Option.some.injEq, show List.range 2 = [0, 1] from rfl, List.map_cons, List.map_nil, List.cons.injEq, and_true] at this
      exact ⟨res, rfl, this.1, this.2⟩
  · intro σ hσ
    obtain ⟨h1, h2, h3⟩ := user_eager
    exact ⟨_, all_reach (greedy_reach 2 _ 100 (start userP)) h1 hσ, resultOf_some h2, resultOf_some h3⟩
  · intro σ hσ s hs r hr
    obtain ⟨h1, h2, h3⟩ := user_waits
    have := done_stays (all_reach (greedy_reach 2 _ 100 (start userP)) h1 hσ) hr
    have h : s = 0 ∨ s = 1 := by omega
    rcases h with rfl | rfl
    · rw [this] at h2; cases h2
    · rw [this] at h3; cases h3

/-- The processes must agree on the arguments: if one of them passes a `core_min_size` that the library rejects, it fails, and the others wait for ever. -/
theorem one_process_fails {Y D' : Type} (c : Codes X Y D') (D : In X V) (hP : 2 ≤ D.P) (h2 : 2 ≤ D.minPts) (E : XEnv X w) (queryFuel fuel : ℕ) (eager : ℕ → ℕ → List (Option D') → Bool) :
    let p : ℕ → LProg V D' (List ℤ) := fun r => dbscanP c (if r = 0 then { argsOf D 0 with minPts := 1 } else argsOf D r) E queryFuel fuel r
    ∀ σ, Reach D.P eager (start p) σ → σ.prog 0 = .done none ∧ ∀ s, 0 < s → s < D.P → ∀ r, σ.prog s ≠ .done r := by
  intro p σ hσ
  have hp0 : p 0 = .done none := by
    simp only [p, if_true]
    unfold dbscanP
    rw [if_pos (by show 1 < 2; decide)]
  have hp : ∀ s, 0 < s → ∃ x k, p s = .enter .boxes x k := by
    intro s hs
    simp only [p, if_neg hs.ne']
    unfold dbscanP
    rw [if_neg (by show ¬ D.minPts < 2; omega)]
    exact ⟨_, _, rfl⟩
  have inv : σ.prog 0 = .done none ∧ σ.hist 0 = [] ∧ ∀ s, 0 < s → (∃ x k, σ.prog s = .enter .boxes x k ∧ σ.hist s = []) ∨ ∃ x k, σ.prog s = .leave .boxes k ∧ σ.hist s = [(.boxes, x)] := by
    induction hσ with
    | refl =>
      refine ⟨hp0, rfl, fun s hs => ?_⟩
      obtain ⟨x, k, h⟩ := hp s hs
      exact .inl ⟨x, k, h, rfl⟩
    | @tail σ τ _ hstep ih =>
      obtain ⟨i1, i2, i3⟩ := ih
      cases hstep with
      | act s hs h =>
        unfold act at h
        rcases Nat.eq_zero_or_pos s with rfl | h0
        · rw [i1] at h; cases h
        rcases i3 s h0 with ⟨x, k, hk, hh⟩ | ⟨x, k, hk, hh⟩
        · rw [hk] at h
          simp only [Option.some.injEq] at h
          subst h
          refine ⟨by simp [h0.ne, i1], by simp [h0.ne, i2], fun t ht => ?_⟩
          by_cases e : t = s
          · subst e
            exact .inr ⟨x, k, by simp, by simp [hh]⟩
          · simpa [e] using i3 t ht
        · rw [hk] at h
          obtain ⟨xs, hxs, -⟩ := Option.map_eq_some_iff.1 h
          unfold gather at hxs
          rw [hh] at hxs
          have : (List.range D.P).mapM (fun t => contribution Kind.boxes 0 (σ.hist t)) = some xs := hxs
          rw [show D.P = (D.P - 1) + 1 by omega, List.range_succ_eq_map, List.mapM_cons, i2] at this
          cases this
      | deliver s r _ _ h =>
        obtain ⟨_, _, _, _, _, rfl⟩ := deliver_eq_some h
        exact ⟨i1, i2, i3⟩
  refine ⟨inv.1, fun s hs _ r hr => ?_⟩
  rcases inv.2.2 s hs with ⟨x, k, h, -⟩ | ⟨x, k, h, -⟩ <;> rw [hr] at h <;> cases h

/-! ## Cases that meet the hypotheses -/

/-- Two processes with two points each (`Verif/DistDbscan/Defect.lean`): with any environment of messages, the labels are `[0, 0]` and `[0, 0]`. -/
example : (∀ i ≥ pairIn.P, pairIn.points i = []) ∧ pairIn.Geometry ∧ lineEnv.Valid pairIn ∧ lineEnv.Local pairIn false ∧ pairIn.FewLabels lineEnv 4 := by
  refine ⟨fun i hi => ?_, lineOf_geometry _, pairEnv_valid, lineEnv_local _, pair_few⟩
  have hi : 2 ≤ i := hi
  show ([[1, 0], [2, 3]] : List (List ℤ)).getD i [] = []
  rw [List.getD_eq_getElem?_getD, List.getElem?_eq_none (by simpa using hi)]
  rfl

/-- The six values of three processes (`Verif/Distributed/Spatial.lean`), and no others. -/
example : ∃ D : DTree ℕ (Finset ℕ) 64, D.Valid ∧ D.P = 3 ∧ (∀ i < 3, D.bottom i = someBottom i) ∧ ∀ i ≥ D.P, (D.bottom i).n = 0 := by
  let B : ℕ → Input ℕ (Finset ℕ) 64 := fun r => if r < 3 then someBottom r else someBottom 1
  have hs : ∀ r, (someBottom r).Valid := by
    intro r
    by_cases h0 : r = 0
    · subst h0; exact Traversal.exampleInput_valid
    · unfold someBottom
      rw [if_neg h0]
      refine equalCodes_valid _ rfl rfl ?_
      simp only
      split_ifs <;> norm_num
  have hv : ∀ r, (B r).Valid := by
    intro r
    simp only [B]
    split_ifs
    · exact hs r
    · exact hs 1
  choose bs hbs using fun r => exists_finished (B r) (hv r)
  let D0 : DTree ℕ (Finset ℕ) 64 := ⟨3, B, bs, fun _ _ => 0, fun _ i => i, fun _ => []⟩
  have ht : ∀ r, (D0.top r).Valid := fun r => equalCodes_valid _ rfl rfl (by simp [DTree.top, D0])
  choose ts hts using fun r => exists_finished (D0.top r) (ht r)
  refine ⟨⟨3, B, bs, fun _ _ => 0, fun _ i => i, ts⟩, ⟨fun r _ => ⟨hv r, hbs r⟩, fun r _ => ⟨ht r, hts r⟩⟩, rfl, fun i hi => if_pos hi, fun i hi => ?_⟩
  have hi : 3 ≤ i := hi
  show (if i < 3 then someBottom i else someBottom 1).n = 0
  rw [if_neg (by omega)]
  rfl

/-- An exchange in which process 0 sends a message to process 1 and process 1 one to process 0, and then both again: every execution ends with both messages in order, although process 0 may have sent its second message before process 1 has received the first one. -/
example (eager : ℕ → ℕ → ℕ → Bool) :
    AllEnd (C := Unit) (X := Unit) 2 eager
      (fun r => exchange [1 - r] [(1 - r, r)] fun g => exchange [1 - r] [(1 - r, 10 + r)] fun g' => .done (g (1 - r) ++ g' (1 - r)))
      (fun r => [1 - r, 10 + (1 - r)]) := by
  refine runs_allEnd (.exch (fun r => [1 - r]) (fun r => [(1 - r, r)]) _ (fun _ _ => rfl) ?_ ?_ ?_ (.exch (fun r => [1 - r]) (fun r => [(1 - r, 10 + r)]) _ (fun _ _ => rfl) ?_ ?_ ?_ (.done ?_))) eager
  · intro r hr s hs; simp at hs; omega
  · intro s hs y hy; simp at hy; subst hy; simp
  · decide
  · intro r hr s hs; simp at hs; omega
  · intro s hs y hy; simp at hy; subst hy; simp
  · decide
  · intro s hs
    have : s = 0 ∨ s = 1 := by omega
    rcases this with rfl | rfl <;> rfl

end ArborX.Mpi
