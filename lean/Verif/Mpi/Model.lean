import Mathlib.Logic.Relation
import Mathlib.Logic.Function.Basic
import Mathlib.Data.List.Basic

/-!
# Processes that communicate

The other models of distributed functions execute an exchange of messages or a collective operation on all processes at once. Here each of the `P` processes runs its own program on one communicator: it enters and leaves collective operations
(`MPI_Allgather`, `MPI_Allgatherv`, `MPI_Alltoall`, `MPI_Dist_graph_create`, `MPI_Comm_dup`, `MPI_Comm_free`), posts receives and sends (`MPI_Irecv`, `MPI_Isend`, all with the same tag, `src/distributed/detail/ArborX_Distributor.hpp` 388-404) and waits for them (`MPI_Waitall`, line 408).
A process can be ahead of another one by any number of operations.

What MPI guarantees (specification): messages from one process to another are matched with the receives for this source in the order in which both were posted; a process leaves a collective operation if all processes have entered it (it may not leave before; some collectives
of MPI allow this, but the results of those used here depend on all processes). `MPI_Waitall` returns when the receives are matched; whether the end of a send waits for its match is up to MPI (`eager`).
-/

namespace ArborX.Mpi

/-- Program of a process. `C`: kinds of collective operations, `X`: contributions to them, `M`: messages, `R`: results. -/
inductive Prog (C X M R : Type) where
  | done (r : R)
  /-- Enter a collective operation with a contribution; continue with the contributions of all processes. -/
  | enter (c : C) (x : X) (k : List X → Prog C X M R)
  /-- Inside of a collective operation. -/
  | leave (c : C) (k : List X → Prog C X M R)
  | irecv (source : ℕ) (k : Prog C X M R)
  | isend (dest : ℕ) (m : M) (k : Prog C X M R)
  /-- Continue with the messages received from each source since the last wait, in order. -/
  | wait (k : (ℕ → List M) → Prog C X M R)

variable {C X M R : Type}

/-- `chan (s, r)`: messages sent by `s` to `r` that are not matched. `want (s, r)`: number of receives of `r` from `s` that are not matched. `got (s, r)`: messages of `s` matched with receives of `r` since its last wait.
`hist s`: the collective operations `s` has entered, with its contributions. -/
structure State (C X M R : Type) where
  prog : ℕ → Prog C X M R
  chan : ℕ × ℕ → List M
  want : ℕ × ℕ → ℕ
  got : ℕ × ℕ → List M
  hist : ℕ → List (C × X)

/-- The contribution to operation number `n`, which must be of kind `c`. -/
def contribution [DecidableEq C] (c : C) (n : ℕ) (h : List (C × X)) : Option X :=
  match h[n]? with
  | some (c', x) => if c' = c then some x else none
  | none => none

/-- The contributions of all processes. -/
def gather [DecidableEq C] (P : ℕ) (hist : ℕ → List (C × X)) (c : C) (n : ℕ) : Option (List X) :=
  (List.range P).mapM (fun t => contribution c n (hist t))

variable [DecidableEq C]

/-- The next action of process `s`; `none` if it cannot act (it waits, it has finished, or it names a process that does not exist). -/
def act (P : ℕ) (eager : ℕ → ℕ → M → Bool) (s : ℕ) (σ : State C X M R) : Option (State C X M R) :=
  match σ.prog s with
  | .done _ => none
  | .enter c x k => some { σ with prog := Function.update σ.prog s (.leave c k), hist := Function.update σ.hist s (σ.hist s ++ [(c, x)]) }
  | .leave c k => (gather P σ.hist c ((σ.hist s).length - 1)).map fun xs => { σ with prog := Function.update σ.prog s (k xs) }
  | .irecv t k => if t < P then some { σ with prog := Function.update σ.prog s k, want := Function.update σ.want (t, s) (σ.want (t, s) + 1) } else none
  | .isend d m k => if d < P then some { σ with prog := Function.update σ.prog s k, chan := Function.update σ.chan (s, d) (σ.chan (s, d) ++ [m]) } else none
  | .wait k =>
    if (∀ t < P, σ.want (t, s) = 0) ∧ ∀ d < P, ∀ m ∈ σ.chan (s, d), eager s d m = true then
      some { σ with prog := Function.update σ.prog s (k fun t => σ.got (t, s)), got := fun x => if x.2 = s then [] else σ.got x }
    else none

/-- The first message of a channel is matched with the first receive for it. -/
def deliver (x : ℕ × ℕ) (σ : State C X M R) : Option (State C X M R) :=
  match σ.want x, σ.chan x with
  | n + 1, m :: q => some { σ with chan := Function.update σ.chan x q, want := Function.update σ.want x n, got := Function.update σ.got x (σ.got x ++ [m]) }
  | _, _ => none

/-- A step of an execution. -/
inductive Step (P : ℕ) (eager : ℕ → ℕ → M → Bool) : State C X M R → State C X M R → Prop
  | act (s : ℕ) (hs : s < P) {σ σ'} (h : act P eager s σ = some σ') : Step P eager σ σ'
  | deliver (s r : ℕ) (hs : s < P) (hr : r < P) {σ σ'} (h : deliver (s, r) σ = some σ') : Step P eager σ σ'

/-- The beginning: no messages, no operations. -/
def start (p : ℕ → Prog C X M R) : State C X M R := ⟨p, fun _ => [], fun _ => 0, fun _ => [], fun _ => []⟩

/-! ## Programs -/

def irecvs : List ℕ → Prog C X M R → Prog C X M R
  | [], k => k
  | t :: l, k => .irecv t (irecvs l k)

def isends : List (ℕ × M) → Prog C X M R → Prog C X M R
  | [], k => k
  | (d, m) :: l, k => .isend d m (isends l k)

/-- `doPostsAndWaits` (`src/distributed/detail/ArborX_Distributor.hpp` 375-408): receives for all sources, sends to all destinations, wait. -/
def exchange (src : List ℕ) (msgs : List (ℕ × M)) (k : (ℕ → List M) → Prog C X M R) : Prog C X M R := irecvs src (isends msgs (.wait k))

end ArborX.Mpi
