import Verif.Mpi.Refinement
import Verif.Mpi.Session
import Verif.Distributed.Spatial
import Verif.Distributed.Nearest
import Verif.DistDbscan.Theorems
import Verif.DistDbscan.Defect
import Mathlib.Tactic.IntervalCases

/-! # Calls of a distributed tree among the communication of the user

The user's processes run any programs (`UProg`, `Verif/Mpi/Library.lean`) that communicate on any communicators of their own and call functions of a distributed tree, which communicates on its duplicate of the communicator. `CAllEnd` is `AllEnd` (C97) for several
communicators (`Verif/Mpi/Comms.lean`). -/

namespace ArborX.Mpi

open Distributed BVH Traversal DistDbscan Dbscan

section

variable {G CU XU MU CL XL ML A B R : Type} [DecidableEq G] [DecidableEq CU] [DecidableEq CL]

/-- **C98, any library.** `body s a` is what the library does on process `s` when it is called with arguments `a`. If its operations are executed operation by operation on all processes at once whenever `out` says that the arguments of the processes fit together (`Runs`), then the user can
regard a call as one collective operation: if all executions of the user's program in which each call is one collective operation end with the results `res`, so do all executions in which each call is executed message by message, in any order with the other operations of the processes. -/
theorem calls_are_collective [hA : Nonempty A] (P : ℕ) (out : List A → Option (ℕ → B)) (body : ℕ → A → Prog CL XL ML B)
    (hlib : ∀ (as : ℕ → A) (b : ℕ → B), out ((List.range P).map as) = some b → Runs P (fun r => body r (as r)) b)
    (u : ℕ → UProg G CU XU MU A B R) (res : ℕ → R) (eager : Option G → ℕ → ℕ → MU ⊕ ML → Bool)
    (h : CAllEnd P (fun g s d m => eager g s d (.inl m)) (fun s => (u s).atomic out s) res) : CAllEnd P eager (fun s => (u s).real body s) res := by
  obtain ⟨τ, h1, h2, h3, h4⟩ := h.exists_end
  obtain ⟨a⟩ := hA
  obtain ⟨N, args, e, ρ, r1, hS⟩ := sim_reach hlib h1 (fun s hs ha => by rw [h2 s hs] at ha; cases ha) (sim_start (fun _ _ => a) u)
  refine callEnd_of r1 (fun s hs => ?_) (fun x => ?_) (fun x => ?_)
  · have := hS.proc s hs
    rw [h2 s hs] at this
    exact this.done
  · obtain ⟨g, y⟩ := x
    cases g with
    | none => exact hS.quiet.chan y
    | some g => rw [hS.chan, h3]; rfl
  · obtain ⟨g, y⟩ := x
    cases g with
    | none => exact hS.quiet.want y
    | some g => rw [hS.want, h4]

/-- All processes make the same call, and it is a legal one. -/
noncomputable def sameCall (legal : A → Prop) (out : A → ℕ → B) : List A → Option (ℕ → B)
  | [] => none
  | a :: l => open Classical in if legal a ∧ ∀ a' ∈ l, a' = a then some (out a) else none

omit [DecidableEq G] [DecidableEq CU] [DecidableEq CL] in
lemma sameCall_runs {P : ℕ} {legal : A → Prop} {out : A → ℕ → B} {body : ℕ → A → Prog CL XL ML B} (h : ∀ a, legal a → Runs P (fun r => body r a) (out a)) (as : ℕ → A) (b : ℕ → B)
    (hb : sameCall legal out ((List.range P).map as) = some b) : Runs P (fun r => body r (as r)) b := by
  cases P with
  | zero => cases hb
  | succ P =>
    rw [List.range_succ_eq_map] at hb
    simp only [List.map_cons, sameCall] at hb
    split at hb
    · rename_i hl
      cases hb
      refine (h _ hl.1).congr fun s hs => ?_
      rcases Nat.eq_zero_or_pos s with rfl | h0
      · rfl
      · rw [hl.2 (as s) (by simp only [List.map_map, List.mem_map, List.mem_range]; exact ⟨s - 1, by omega, by simp only [Function.comp]; congr 1; omega⟩)]
    · cases hb

/-- A user program: process 1 sends a message to process 0 and calls the library; process 0 calls the library and receives the message then. -/
def messageAcrossCall (a : A) (s : ℕ) : UProg Unit Unit Unit ℕ A B (List ℕ × B) :=
  if s = 0 then .call a fun b => .irecv () 1 (.wait () fun ms => .done (ms 1, b)) else .isend () 0 7 (.call a fun b => .wait () fun _ => .done ([], b))

/-- If calls are collective operations, all executions of this program end: process 0 has received the message of process 1. -/
lemma messageAcrossCall_ends {out : List A → Option (ℕ → B)} {a : A} {b : ℕ → B} (hb : out [a, a] = some b) (eager : Option Unit → ℕ → ℕ → ℕ → Bool) :
    CAllEnd 2 eager (fun s => (messageAcrossCall a s).atomic out s) fun s => (if s = 0 then [7] else [], b s) := by
  have hac : ∀ (s : ℕ) (k : B → CProg (Option Unit) (Unit ⊕ Unit) (Unit ⊕ A) ℕ (List ℕ × B)), afterCall out s k [.inr a, .inr a] = k (b s) := by
    intro s k
    unfold afterCall
    rw [show rights [(Sum.inr a : Unit ⊕ A), .inr a] = [a, a] from rfl, hb]
  let K0 : B → CProg (Option Unit) (Unit ⊕ Unit) (Unit ⊕ A) ℕ (List ℕ × B) := fun b => .irecv (some ()) 1 (.wait (some ()) fun ms => .done (ms 1, b))
  let K1 : B → CProg (Option Unit) (Unit ⊕ Unit) (Unit ⊕ A) ℕ (List ℕ × B) := fun b => .wait (some ()) fun _ => .done ([], b)
  have r1 : CReach 2 eager _ _ := .single (.act 1 (by decide) (cact_isend (P := 2) (eager := eager) (s := 1) (σ := cstart fun s => (messageAcrossCall (B := B) a s).atomic out s) (g := some ()) (t := 0) (m := 7)
    (k := .enter none (.inr ()) (.inr a) (afterCall out 1 K1)) rfl (by decide)))
  have r2 := r1.tail (.act 1 (by decide) (cact_enter (g := none) (c := .inr ()) (x := .inr a) (k := afterCall out 1 K1) rfl))
  have r3 := r2.tail (.act 0 (by decide) (cact_enter (g := none) (c := .inr ()) (x := .inr a) (k := afterCall out 0 K0) rfl))
  have r4 := r3.tail (.act 0 (by decide) (cact_leave (g := none) (c := .inr ()) (k := afterCall out 0 K0) rfl (xs := [.inr a, .inr a]) rfl))
  rw [hac] at r4
  have r5 := r4.tail (.act 1 (by decide) (cact_leave (g := none) (c := .inr ()) (k := afterCall out 1 K1) rfl (xs := [.inr a, .inr a]) rfl))
  rw [hac] at r5
  have r6 := r5.tail (.act 0 (by decide) (cact_irecv (g := some ()) (t := 1) (k := .wait (some ()) fun ms => .done (ms 1, b 0)) rfl (by decide)))
  have r7 := r6.tail (.deliver (some (), 1, 0) (by decide) (by decide) (cdeliver_of (n := 0) (m := 7) (q := []) rfl rfl))
  have r8 := r7.tail (.act 0 (by decide) (cact_wait (g := some ()) (k := fun ms => .done (ms 1, b 0)) rfl ⟨by intro t ht; interval_cases t <;> rfl, by intro d hd m hm; interval_cases d <;> cases hm⟩))
  have r9 := r8.tail (.act 1 (by decide) (cact_wait (g := some ()) (k := fun _ => .done ([], b 1)) rfl ⟨by intro t ht; interval_cases t <;> rfl, by intro d hd m hm; interval_cases d <;> cases hm⟩))
  refine callEnd_of r9 ?_ ?_ ?_
  · intro s hs
    interval_cases s <;> rfl
  · intro x
    by_cases hx : x = (some (), 1, 0)
    · subst hx; rfl
    · simp [hx, cstart]
  · intro x
    by_cases hx : x = (some (), 1, 0)
    · subst hx; rfl
    · simp [hx, cstart]

end

variable {α V T K : Type} {w : ℕ} [SemilatticeSup V] [OrderBot V] {G CU XU MU R : Type} [DecidableEq G] [DecidableEq CU]

private def someEnv : Distributed.Env := ⟨true, true, fun _ l => l, fun _ _ => [], fun _ _ => [], fun _ => []⟩
private def someQEnv : QEnv := ⟨fun _ => someEnv, fun _ => someEnv, fun _ l => l, fun _ _ => id⟩
private def someLEnv : LEnv := ⟨fun _ => id, fun _ _ => [], fun _ _ => []⟩

/-- What a call of `query` for spatial predicates requires (C28). -/
structure Call.Legal (D : DTree α V w) (c : Call α V T) : Prop where
  E : c.E.Valid
  Lt : ∀ r < D.P, (c.Lt r).Valid
  Lb : ∀ r < D.P, (c.Lb r).Valid
  top : 2 * D.P ≤ c.fuel
  bottom : ∀ r < D.P, 2 * (D.bottom r).n ≤ c.fuel
  fits : ∀ s < D.P, ∀ q ∈ c.queries s, ∀ t < D.P, q.Fits (D.bottom t).vol

/-- **C98, spatial queries.** A distributed tree is queried any number of times among any communication of the user on other communicators. There are results with the properties of C28 such that, whatever the user's programs are: if all their executions end with the results `res` when
each call is a collective operation with these results, then so do all executions in which the library exchanges its messages. -/
theorem distributed_spatial_among_user (D : DTree α V w) (h : D.Valid) :
    ∃ out : Call α V T → ℕ → List ℕ × List T,
      (∀ c, c.Legal D → ∀ s < D.P, ∃ rows : ℕ → List T, Crs.IsCrs (c.queries s).length rows (out c s).1 ((out c s).2.map some) ∧
        ∀ q (hqs : q < (c.queries s).length), (rows q).Perm ((List.range D.P).flatMap (found D c.cb (c.queries s)[q]))) ∧
      ∀ (u : ℕ → UProg G CU XU MU (Call α V T) (Option (List ℕ × List T)) R) (res : ℕ → R),
        (∀ eager, CAllEnd D.P eager (fun s => (u s).atomic (sameCall (Call.Legal D) fun c r => some (out c r)) s) res) →
        ∀ eager, CAllEnd D.P eager (fun s => (u s).real (fun r c => spatialP (localOf D r) D.P r c.E (c.Lt r) (c.Lb r) c.fuel c.cb (c.user r) (c.queries r) (D.top r).vol fun i => (D.bottom i).n) s) res := by
  have : ∀ c : Call α V T, c.Legal D → ∃ res, D.spatial c.E c.Lt c.Lb c.fuel c.cb c.user c.queries = some res ∧ ∀ s < D.P, ∃ rows : ℕ → List T,
      Crs.IsCrs (c.queries s).length rows (res s).1 ((res s).2.map some) ∧ ∀ q (hqs : q < (c.queries s).length), (rows q).Perm ((List.range D.P).flatMap (found D c.cb (c.queries s)[q])) :=
    fun c hc => distributed_spatial D h c.E hc.E c.Lt c.Lb hc.Lt hc.Lb c.fuel hc.top hc.bottom c.cb c.user c.queries hc.fits
  choose! out h1 h2 using this
  refine ⟨out, h2, fun u res hu eager => ?_⟩
  have : Nonempty (Call α V T) := ⟨⟨someQEnv, fun _ => someLEnv, fun _ => someLEnv, 0, fun _ _ => [], fun _ => [], fun _ => []⟩⟩
  exact calls_are_collective D.P _ _ (sameCall_runs fun c hc => spatial_runs' hc.E (h1 c hc)) u res eager (hu _)

/-- A call of `query` for nearest predicates: what all processes pass and how they execute it. -/
structure NCall (α V K T : Type) [LinearOrder K] where
  withCallback : Bool
  asserts : Bool
  E : NEnv K
  fuel : ℕ
  cb : NPred α V K → α → T
  queries : ℕ → List (NPred α V K)

/-- What it requires (C29). -/
structure NCall.Legal [LinearOrder K] (D : DTree α V w) (c : NCall α V K T) : Prop where
  empty : D.size ≠ 0 ∨ c.withCallback = true ∨ c.asserts = false
  E : c.E.Valid D.P
  top : 2 * D.P ≤ c.fuel
  bottom : ∀ r < D.P, 2 * (D.bottom r).n ≤ c.fuel
  fits : ∀ s < D.P, ∀ q ∈ c.queries s, q.Fits D ∧ q.ReachesAll D

/-- **C98, nearest queries.** As `distributed_spatial_among_user`, with the results of C29. -/
theorem distributed_nearest_among_user [LinearOrder K] [Nonempty K] [Nonempty T] (D : DTree α V w) (h : D.Valid) :
    ∃ out : NCall α V K T → ℕ → List ℕ × List T,
      (∀ c, c.Legal D → ∀ s < D.P, ∃ calls : ℕ → List α,
        (∃ rows : ℕ → List T, Crs.IsCrs (c.queries s).length rows (out c s).1 ((out c s).2.map some) ∧
          ∀ i (hi : i < (c.queries s).length), rows i = (calls i).map (c.cb (c.queries s)[i])) ∧
        ∀ i (hi : i < (c.queries s).length), IsKClosest (c.queries s)[i].q.dl (c.queries s)[i].q.inf (c.queries s)[i].q.k D.all (calls i)) ∧
      ∀ (u : ℕ → UProg G CU XU MU (NCall α V K T) (Option (List ℕ × List T)) R) (res : ℕ → R),
        (∀ eager, CAllEnd D.P eager (fun s => (u s).atomic (sameCall (NCall.Legal D) fun c r => some (out c r)) s) res) →
        ∀ eager, CAllEnd D.P eager (fun s => (u s).real (fun r c => nearestP (localOf D r) D.P r c.withCallback c.asserts c.E c.fuel c.cb (c.queries r) (D.top r).vol fun i => (D.bottom i).n) s) res := by
  have : ∀ c : NCall α V K T, c.Legal D → ∃ res, D.nearest c.withCallback c.asserts c.E c.fuel c.cb c.queries = some res ∧ ∀ s < D.P, ∃ calls : ℕ → List α,
        (∃ rows : ℕ → List T, Crs.IsCrs (c.queries s).length rows (res s).1 ((res s).2.map some) ∧
          ∀ i (hi : i < (c.queries s).length), rows i = (calls i).map (c.cb (c.queries s)[i])) ∧
        ∀ i (hi : i < (c.queries s).length), IsKClosest (c.queries s)[i].q.dl (c.queries s)[i].q.inf (c.queries s)[i].q.k D.all (calls i) :=
    fun c hc => distributed_nearest_infinite D h c.withCallback c.asserts hc.empty c.E hc.E c.fuel hc.top hc.bottom c.cb c.queries hc.fits
  choose! out h1 h2 using this
  refine ⟨out, h2, fun u res hu eager => ?_⟩
  obtain ⟨k⟩ := ‹Nonempty K›
  obtain ⟨t⟩ := ‹Nonempty T›
  have : Nonempty (NCall α V K T) := ⟨⟨true, true, ⟨someQEnv, someQEnv, fun _ => someLEnv, fun _ => someLEnv, fun _ => someLEnv, fun _ => someLEnv, fun _ _ => [], fun _ _ => k⟩, 0, fun _ _ => t, fun _ => []⟩⟩
  exact calls_are_collective D.P _ _ (sameCall_runs fun c hc => nearest_runs' hc.E.one hc.E.two (h1 c hc)) u res eager (hu _)

/-- A call of distributed DBSCAN: what all processes pass and how they execute it. -/
structure DCall (X V : Type) (w : ℕ) where
  I : In X V
  star : Bool
  E : XEnv X w
  queryFuel : ℕ

/-- What it requires (C48). -/
structure DCall.Legal {X : Type} (P : ℕ) (c : DCall X V w) : Prop where
  processes : c.I.P = P
  geometry : c.I.Geometry
  points : ∀ i ≥ P, c.I.points i = []
  minPts : 2 ≤ c.I.minPts
  E : c.E.Valid c.I
  local' : c.E.Local c.I c.star
  order : ∀ r n, InOrder (c.E.csched r n)
  queryFuel : 2 * P ≤ c.queryFuel
  few : c.I.FewLabels c.E c.queryFuel

/-- **C98, distributed DBSCAN on a communicator that is used for nothing else** (the user can duplicate theirs; otherwise the property fails, see `user_message_defect`), where C48 holds. `fuel c` bounds the steps of the union-find loops. -/
theorem distributed_dbscan_among_user_partial {X Y D' : Type} (codes : Codes X Y D') (P : ℕ) (hne : Nonempty (DCall X V w)) :
    ∃ N : DCall X V w → ℕ, ∀ fuel : DCall X V w → ℕ, (∀ c, N c ≤ fuel c) → ∃ out : DCall X V w → ℕ → List ℤ,
      (∀ c, c.Legal P → (∀ r < P, (out c r).length = (c.I.points r).length) ∧
        IsClustering c.star c.I.all.length (nearOf c.I.near c.I.all) c.I.minPts (labelAt ((List.range P).flatMap (out c)))) ∧
      ∀ (u : ℕ → UProg G CU XU MU (DCall X V w) (Option (List ℤ)) R) (res : ℕ → R),
        (∀ eager, CAllEnd P eager (fun s => (u s).atomic (sameCall (DCall.Legal P) fun c r => some (out c r)) s) res) →
        ∀ eager, CAllEnd P eager (fun s => (u s).real (fun r c => dbscanP codes (argsOf c.I r) c.E c.queryFuel (fuel c) r) s) res := by
  have : ∀ c : DCall X V w, c.Legal P → ∃ N, ∀ fuel ≥ N, ∃ res, c.I.dbscan c.E c.queryFuel fuel = some res ∧ (∀ r < c.I.P, (res r).length = (c.I.points r).length) ∧
      IsClustering c.star c.I.all.length (nearOf c.I.near c.I.all) c.I.minPts (labelAt ((List.range c.I.P).flatMap res)) :=
    fun c hc => distributed_dbscan_partial c.I hc.geometry hc.minPts c.star c.E hc.E hc.local' hc.order c.queryFuel (by rw [hc.processes]; exact hc.queryFuel) hc.few
  choose! N hN using this
  refine ⟨N, fun fuel hf => ?_⟩
  have : ∀ c : DCall X V w, c.Legal P → ∃ res, c.I.dbscan c.E c.queryFuel (fuel c) = some res ∧ (∀ r < c.I.P, (res r).length = (c.I.points r).length) ∧
      IsClustering c.star c.I.all.length (nearOf c.I.near c.I.all) c.I.minPts (labelAt ((List.range c.I.P).flatMap res)) := fun c hc => hN c hc (fuel c) (hf c)
  choose! out h1 h2 h3 using this
  refine ⟨out, fun c hc => ?_, fun u res hu eager => ?_⟩
  · have a := h2 c hc
    have b := h3 c hc
    rw [hc.processes] at a b
    exact ⟨a, b⟩
  · exact calls_are_collective P _ _ (sameCall_runs fun c hc => hc.processes ▸ dbscan_runs codes (fun i hi => hc.points i (hc.processes ▸ hi)) hc.E.fwd hc.E.back hc.E.merge (h1 c hc)) u res eager (hu _)

/-! ## Cases that meet the hypotheses -/

/-- The message of the user that is under way during a call: for every tree of two processes and every legal call, process 0 receives it afterwards. -/
example (D : DTree α V w) (h : D.Valid) (hP : D.P = 2) (c : Call α V T) (hc : c.Legal D) :
    ∃ out : ℕ → List ℕ × List T, ∀ eager, CAllEnd 2 eager
      (fun s => (messageAcrossCall c s).real (fun r c => spatialP (localOf D r) D.P r c.E (c.Lt r) (c.Lb r) c.fuel c.cb (c.user r) (c.queries r) (D.top r).vol fun i => (D.bottom i).n) s)
      fun s => (if s = 0 then [7] else [], some (out s)) := by
  obtain ⟨out, -, h2⟩ := distributed_spatial_among_user (T := T) (G := Unit) (CU := Unit) (XU := Unit) (MU := ℕ) (R := List ℕ × Option (List ℕ × List T)) D h
  refine ⟨out c, ?_⟩
  rw [← hP]
  refine h2 _ _ fun eager => ?_
  rw [hP]
  refine messageAcrossCall_ends (b := fun s => some (out c s)) ?_ eager
  simp [sameCall, hc]

/-- Two processes with two points each (`Verif/DistDbscan/Defect.lean`). -/
example : (⟨pairIn, false, lineEnv, 4⟩ : DCall ℤ Interval 64).Legal 2 := by
  refine ⟨rfl, lineOf_geometry _, fun i hi => ?_, le_rfl, pairEnv_valid, lineEnv_local _, lineEnv_inOrder, le_rfl, pair_few⟩
  show ([[1, 0], [2, 3]] : List (List ℤ)).getD i [] = []
  rw [List.getD_eq_getElem?_getD, List.getElem?_eq_none (by simpa using hi)]
  rfl

end ArborX.Mpi
