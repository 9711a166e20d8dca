import Verif.Layout
import Mathlib.Data.Int.Basic
import Mathlib.Logic.Function.Basic
import Mathlib.Data.List.Perm.Basic

/-!
# Model of `findParents` and `reduceLabels`

Models `src/spatial/detail/ArborX_TreeNodeLabeling.hpp`.
-/

namespace ArborX.Labels

open Function (update)

variable {α V : Type}

/-- `getLeftChild` (`src/spatial/detail/ArborX_HappyTreeFriends.hpp` 66-71). -/
def leftChild (mem : Mem α V) (i : ℕ) : Option ℕ := (mem.internal (i - mem.size)).map (·.left)

/-- `getRope` (lines 80-85). `none`: the node has not been written, or the rope is the sentinel. -/
def rope (mem : Mem α V) (i : ℕ) : Option ℕ :=
  if i < mem.size then (mem.leaf i).bind (·.rope) else (mem.internal (i - mem.size)).bind (·.rope)

/-- `getRightChild` (lines 73-78). -/
def rightChild (mem : Mem α V) (i : ℕ) : Option ℕ := (leftChild mem i).bind (rope mem)

/-- Assignment number `k` of `findParents` (lines 37-38): iteration `n + k / 2`, left child for
even `k`, right child for odd `k`. -/
def assign (mem : Mem α V) (par : ℕ → Option ℕ) (k : ℕ) : Option (ℕ → Option ℕ) :=
  let i := mem.size + k / 2
  (if k % 2 = 0 then leftChild mem i else rightChild mem i).bind
    (fun c => if c < 2 * mem.size - 1 then some (update par c (some i)) else none)

/-- `findParents` (lines 25-40): the assignments happen in the order `ord`, any permutation of
`0 .. 2 (n - 1) - 1`. `none`: the assertion fails or an access is out of bounds. -/
def findParents (mem : Mem α V) (ord : List ℕ) : Option (ℕ → Option ℕ) :=
  if mem.size < 2 then none
  else ord.foldl (fun p k => p.bind (fun par => assign mem par k)) (some (fun _ => none))

/-- Local state of the thread of one leaf in `reduceLabels` (lines 61-89): about to read the label
of node `i`; about to execute the compare-exchange; about to store `indeterminate`. -/
inductive TS where
  | read (i : ℕ)
  | cas (i : ℕ) (label : ℤ)
  | mark (p : ℕ)
  | done
  | fault
  deriving DecidableEq

structure State where
  lab : ℕ → ℤ
  thr : ℕ → TS

/-- Lines 87-88: go on from the parent unless it is the root. -/
def climb (n p : ℕ) : TS := if p = n then .done else .read p

/-- One step of thread `t`, one access to `labels`, when every load returns the latest value. The
entries of `parents` are constant. -/
def step (n : ℕ) (par : ℕ → Option ℕ) (s : State) (t : ℕ) : State :=
  if n ≤ t then s
  else match s.thr t with
  | .read i => { s with thr := update s.thr t (.cas i (s.lab i)) }             -- line 71
  | .cas i label =>
    match par i with                                                           -- line 72
    | none => { s with thr := update s.thr t .fault }
    | some p =>
      if s.lab p = -2 then                                                     -- lines 74-81
        { lab := update s.lab p label, thr := update s.thr t .done }
      else if s.lab p ≠ label then { s with thr := update s.thr t (.mark p) }  -- line 84
      else { s with thr := update s.thr t (climb n p) }
  | .mark p => { lab := update s.lab p (-1), thr := update s.thr t (climb n p) }  -- line 85
  | .done => s
  | .fault => s

/-- The labels of the internal nodes are reset (lines 56-58), one thread per leaf starts. -/
def init (n : ℕ) (lab : ℕ → ℤ) : State :=
  { lab := fun i => if n ≤ i ∧ i < 2 * n - 1 then -2 else lab i, thr := fun t => .read t }

/-- The threads under a schedule when every load returns the latest value. -/
def run (n : ℕ) (par : ℕ → Option ℕ) (lab : ℕ → ℤ) (sched : List ℕ) : State :=
  sched.foldl (step n par) (init n lab)

/-- State on weak memory. `past i`: the earlier values of the label of node `i`, latest first.
`floor t`: how many of them thread `t` can no longer see after its last access. -/
structure WState extends State where
  past : ℕ → List ℤ
  floor : ℕ → ℕ

/-- A plain load of `labels(i)` (line 71) by thread `t` returns, as the memory chooses by `k`, the
current value or an earlier one, but none older than what the thread has already seen or stored
there. -/
def WState.load (s : WState) (t i k : ℕ) : ℤ :=
  if k < (s.past i).length - s.floor t then (s.past i)[k]?.getD (s.lab i) else s.lab i

/-- One step of thread `x.1` of `reduceLabels` (lines 61-89). The compare-exchange (lines 74-75)
acts on the latest value; the store of `indeterminate` (line 85) and the load (line 71) are plain. -/
def wstep (n : ℕ) (par : ℕ → Option ℕ) (s : WState) (x : ℕ × ℕ) : WState :=
  let t := x.1
  if n ≤ t then s
  else match s.thr t with
  | .read i => { s with thr := update s.thr t (.cas i (s.load t i x.2)) }      -- line 71
  | .cas i label =>
    match par i with                                                           -- line 72
    | none => { s with thr := update s.thr t .fault }
    | some p =>
      if s.lab p = -2 then                                                     -- lines 74-81
        { lab := update s.lab p label
          past := update s.past p (s.lab p :: s.past p)
          floor := update s.floor t ((s.past p).length + 1)
          thr := update s.thr t .done }
      else
        { s with
          floor := update s.floor t (s.past p).length
          thr := update s.thr t (if s.lab p ≠ label then .mark p else climb n p) }  -- line 84
  | .mark p =>                                                                 -- line 85
    { lab := update s.lab p (-1)
      past := update s.past p (s.lab p :: s.past p)
      floor := update s.floor t ((s.past p).length + 1)
      thr := update s.thr t (climb n p) }
  | .done => s
  | .fault => s

/-- `reduceLabels` under a schedule, with the choices of the memory. The resets (lines 56-58) are
complete before the kernel starts. -/
def wrun (n : ℕ) (par : ℕ → Option ℕ) (lab : ℕ → ℤ) (sched : List (ℕ × ℕ)) : WState :=
  sched.foldl (wstep n par) { init n lab with past := fun _ => [], floor := fun _ => 0 }

/-- All threads have returned. -/
def Complete (n : ℕ) (s : State) : Prop := ∀ t < n, s.thr t = .done

end ArborX.Labels
