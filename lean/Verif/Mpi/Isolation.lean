import Verif.Mpi.Session
import Verif.DistDbscan.Defect

/-! # Distributed DBSCAN and the messages of its user

The distributed tree duplicates the communicator "to isolate library's communication from user's" (`src/distributed/ArborX_DistributedTree.hpp` 168-176). Distributed DBSCAN uses the communicator of its user
(`src/cluster/ArborX_DistributedDBSCAN.hpp` 91-202, `src/cluster/detail/ArborX_DistributedDBSCANHelpers.hpp` 302, 371), and its messages have the tag 123 (`src/distributed/detail/ArborX_Distributor.hpp` 391, 403). -/

namespace ArborX.Mpi

open Distributed DistDbscan BVH Traversal Dbscan

/-! ## Executing programs -/

section

variable {C X M R : Type} [DecidableEq C]

/-- Act or deliver, whatever is possible first. -/
def greedy (P : ℕ) (eager : ℕ → ℕ → M → Bool) : ℕ → State C X M R → State C X M R
  | 0, σ => σ
  | n + 1, σ =>
    match ((List.range P).findSome? fun s => act P eager s σ) with
    | some τ => greedy P eager n τ
    | none =>
      match ((List.range P).findSome? fun s => (List.range P).findSome? fun r => deliver (s, r) σ) with
      | some τ => greedy P eager n τ
      | none => σ

lemma greedy_reach (P : ℕ) (eager : ℕ → ℕ → M → Bool) (n : ℕ) : ∀ σ : State C X M R, Reach P eager σ (greedy P eager n σ) := by
  induction n with
  | zero => intro σ; exact .refl
  | succ n ih =>
    intro σ
    unfold greedy
    split
    · rename_i τ h
      obtain ⟨s, hs, h⟩ := List.exists_of_findSome?_eq_some h
      exact .head (.act s (List.mem_range.1 hs) h) (ih τ)
    · split
      · rename_i τ h
        obtain ⟨s, hs, h⟩ := List.exists_of_findSome?_eq_some h
        obtain ⟨r, hr, h⟩ := List.exists_of_findSome?_eq_some h
        exact .head (.deliver s r (List.mem_range.1 hs) (List.mem_range.1 hr) h) (ih τ)
      · exact .refl

/-- Nothing can happen. -/
def stuck (P : ℕ) (eager : ℕ → ℕ → M → Bool) (σ : State C X M R) : Bool :=
  (List.range P).all fun s => (act P eager s σ).isNone && (List.range P).all fun r => (deliver (s, r) σ).isNone

lemma stuck_step {P : ℕ} {eager : ℕ → ℕ → M → Bool} {σ : State C X M R} (h : stuck P eager σ = true) (τ : State C X M R) : ¬ Step P eager σ τ := by
  unfold stuck at h
  rw [List.all_eq_true] at h
  intro hs
  cases hs with
  | act s hs h' => have := h s (List.mem_range.2 hs); simp [h'] at this
  | deliver s r hs hr h' =>
    have := h s (List.mem_range.2 hs)
    simp only [Bool.and_eq_true, List.all_eq_true] at this
    have := this.2 r (List.mem_range.2 hr)
    simp [h'] at this

/-- The result of a process that has finished. -/
def resultOf : Prog C X M R → Option R
  | .done r => some r
  | _ => none

omit [DecidableEq C] in
lemma resultOf_some {p : Prog C X M R} {r : R} (h : resultOf p = some r) : p = .done r := by
  cases p <;> simp_all [resultOf]

/-- If one execution ends in `τ`, all do. -/
lemma all_reach {P : ℕ} {eager : ℕ → ℕ → M → Bool} {σ τ υ : State C X M R} (h : Reach P eager σ τ) (hτ : stuck P eager τ = true) (hυ : Reach P eager σ υ) : Reach P eager υ τ :=
  ((diamond P eager).all h (stuck_step hτ)).2 υ hυ

end

/-! ## Two processes -/

/-- The first process has the point 1, the second one the points 3 and 0: the points 1 and 0 are a cluster. -/
def twoIn : In ℤ Interval := lineOf [[1], [3, 0]]

noncomputable def twoDbscan (pts : List ℤ) : List ℤ :=
  if pts = [3, 0, 1] then [-1, 1, 1] else if pts = [3, 0, 7] then [-1, -1, -1] else lineDbscan pts

noncomputable def twoEnv : XEnv ℤ 64 := { lineEnv with dbscan := fun _ pts => some (twoDbscan pts) }

lemma twoDbscan_spec (pts : List ℤ) : (twoDbscan pts).length = pts.length ∧
    IsClustering false pts.length (nearOf lineNear pts) 2 (labelAt (twoDbscan pts)) ∧
    Canonical pts.length (nearOf lineNear pts) 2 (labelAt (twoDbscan pts)) := by
  unfold twoDbscan
  split_ifs with h1 h2
  · subst h1
    have hn : ∀ i < 3, ∀ j < 3, Core 3 (nearOf lineNear [3, 0, 1]) 2 i → Core 3 (nearOf lineNear [3, 0, 1]) 2 j → nearOf lineNear [3, 0, 1] i j = true := by decide
    have hch : ∀ i < 3, ∀ j < 3, Core 3 (nearOf lineNear [3, 0, 1]) 2 i → Core 3 (nearOf lineNear [3, 0, 1]) 2 j → Chained 3 (nearOf lineNear [3, 0, 1]) 2 i j :=
      fun i hi j hj ci cj => .single ⟨hi, hj, ci, cj, hn i hi j hj ci cj⟩
    refine ⟨rfl, ?_, ?_⟩
    · unfold IsClustering
      simp only [Bool.false_eq_true, if_false]
      refine ⟨by decide, fun i hi j hj ci cj => iff_of_true ?_ (hch i hi j hj ci cj), by unfold NearCore; decide, by unfold NearCore; decide⟩
      revert i j
      decide
    · intro i hi ci
      refine ⟨1, ?_, by decide, by decide, hch i hi 1 (by decide) ci (by decide), fun j hj cj h => ?_⟩
      · revert i; decide
      · clear h hch hn ci hi; revert j; decide
  · subst h2
    have hn : ∀ i < 3, ¬ Core 3 (nearOf lineNear [3, 0, 7]) 2 i := by decide
    refine ⟨rfl, ?_, fun i hi ci => absurd ci (hn i hi)⟩
    unfold IsClustering
    simp only [Bool.false_eq_true, if_false]
    exact ⟨by decide, fun i hi j hj ci => absurd ci (hn i hi), by unfold NearCore; decide, by unfold NearCore; decide⟩
  · exact lineDbscan_spec pts

lemma twoEnv_local : twoEnv.Local twoIn false := fun _ _ pts _ => ⟨twoDbscan pts, rfl, twoDbscan_spec pts⟩

lemma twoEnv_valid : twoEnv.Valid twoIn := by
  have h := lineEnv_valid_of [[1], [3, 0]] (fun r hr prims hp => ?_)
  · exact ⟨h.scan, h.tree, h.query, h.fwd, h.threads, h.back, h.sort, h.offsetOrder, h.mergeOrder, h.merge⟩
  have hr : r < 2 := hr
  have hprims : ∀ r < 2, twoIn.prims lineEnv r = some ([[1], [0]].getD r []) := by decide +kernel
  have hp : twoIn.prims lineEnv r = some prims := hp
  rw [hprims r hr] at hp
  obtain rfl := Option.some.inj hp
  have : ∀ r < 2, ([[1], [0]].getD r [] : List ℕ).length = 1 := by decide
  refine ⟨equalCodes_valid _ rfl rfl ?_, fun h => ?_⟩
  · exact (this r hr).le.trans (by norm_num)
  · have h : 2 ≤ ([[1], [0]].getD r [] : List ℕ).length := h
    rw [this r hr] at h
    omega

/-- The call of process `r`. -/
noncomputable def twoP (r : ℕ) : LProg Interval ℤ (List ℤ) := dbscanP .raw (argsOf twoIn r) twoEnv 4 10 r

/-- The first process has sent a message to the second one before: the number 7, with the tag 123. -/
noncomputable def userP (r : ℕ) : LProg Interval ℤ (List ℤ) := if r = 0 then .isend 1 [some 7] (twoP 0) else twoP r

lemma two_run : (twoIn.dbscan twoEnv 4 10).map (fun res => (List.range 2).map res) = some [[0], [-1, 0]] := by decide +kernel

lemma user_eager : let σ := greedy 2 (fun _ _ _ => true) 100 (start userP)
    stuck 2 (fun _ _ _ => true) σ = true ∧ resultOf (σ.prog 0) = some (some [0]) ∧ resultOf (σ.prog 1) = some (some [-1, -1]) := by decide +kernel

lemma user_waits : let σ := greedy 2 (fun _ _ _ => false) 100 (start userP)
    stuck 2 (fun _ _ _ => false) σ = true ∧ resultOf (σ.prog 0) = none ∧ resultOf (σ.prog 1) = none := by decide +kernel

end ArborX.Mpi
