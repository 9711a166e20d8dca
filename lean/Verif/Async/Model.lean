import Mathlib.Logic.Relation
import Mathlib.Data.List.Basic

/-!
# Asynchronous execution

The other models run the kernels of a function one after the other. In Kokkos a kernel or a `deep_copy` given an instance of an execution space is only put in the queue of this instance: it may
run at any later time, in the order of the queue, until the host calls `fence` on the instance. Reductions and scans with a result on the host wait for their end. A message of MPI is written or
read at any time between the call of `MPI_Irecv` or `MPI_Isend` and the end of `MPI_Waitall`. This is modelled here; the functions of the library are in `Functions.lean`.

Simplification: an operation is executed in one step, and an array is one location; the interleavings inside of kernels are the subject of the other models. A managed `View` keeps its memory until the
operations on it are finished (guaranteed by Kokkos).
-/

namespace ArborX.Async

variable {L V : Type}

/-- An operation (a kernel, a copy, the transfer of a message, a piece of host code): the locations it may read and write, and an arbitrary function that computes what it writes from what it reads. -/
structure Op (L V : Type) where
  reads : List L
  writes : List L
  effect : List V → L → V

variable [DecidableEq L]

/-- Execution of an operation. -/
def Op.run (o : Op L V) (m : L → V) : L → V := fun l => if l ∈ o.writes then o.effect (o.reads.map m) l else m l

/-- A host program. `launch s o`: put `o` in queue `s`. `wait w`: wait until the queues `s` with `w s` are empty (`fence` of an instance, global `fence`, `MPI_Waitall`, reductions with a result on the host).
`host o`: the host executes `o` itself. `test r`: how the program continues depends on the content of the locations `r`. -/
inductive Prog (L V : Type) where
  | done
  | launch (s : ℕ) (o : Op L V) (k : Prog L V)
  | wait (w : ℕ → Bool) (k : Prog L V)
  | host (o : Op L V) (k : Prog L V)
  | test (r : List L) (k : List V → Prog L V)

/-- Memory, the operations in the queues in the order of their launch, and the rest of the host program. -/
structure State (L V : Type) where
  mem : L → V
  pending : List (ℕ × Op L V)
  prog : Prog L V

/-- One step of an execution: some operation which is the first of its queue is executed, or the host goes on. -/
inductive Step : State L V → State L V → Prop
  | retire (m : L → V) (a b : List (ℕ × Op L V)) (s : ℕ) (o : Op L V) (p : Prog L V) (h : ∀ e ∈ a, e.1 ≠ s) :
      Step ⟨m, a ++ (s, o) :: b, p⟩ ⟨o.run m, a ++ b, p⟩
  | launch (m : L → V) (q : List (ℕ × Op L V)) (s : ℕ) (o : Op L V) (k : Prog L V) : Step ⟨m, q, .launch s o k⟩ ⟨m, q ++ [(s, o)], k⟩
  | wait (m : L → V) (q : List (ℕ × Op L V)) (w : ℕ → Bool) (k : Prog L V) (h : ∀ e ∈ q, w e.1 = false) : Step ⟨m, q, .wait w k⟩ ⟨m, q, k⟩
  | host (m : L → V) (q : List (ℕ × Op L V)) (o : Op L V) (k : Prog L V) : Step ⟨m, q, .host o k⟩ ⟨o.run m, q, k⟩
  | test (m : L → V) (q : List (ℕ × Op L V)) (r : List L) (k : List V → Prog L V) : Step ⟨m, q, .test r k⟩ ⟨m, q, k (r.map m)⟩

/-- The program runs to its end with every operation executed at once: the other models. -/
def seq : Prog L V → (L → V) → (L → V)
  | .done, m => m
  | .launch _ o k, m => seq k (o.run m)
  | .wait _ k, m => seq k m
  | .host o k, m => seq k (o.run m)
  | .test r k, m => seq (k (r.map m)) m

/-- An execution of `p` from memory `m` in which all operations have been executed ends with memory `m'`. -/
def Ends (p : Prog L V) (m m' : L → V) : Prop := Relation.ReflTransGen Step ⟨m, [], p⟩ ⟨m', [], .done⟩

/-- All executions of `p` end, none of them gets stuck, and their results are that of `seq`. -/
def Deterministic (p : Prog L V) : Prop :=
  ∀ m, Acc (fun a b : State L V => Step b a) ⟨m, [], p⟩ ∧
    (∀ s, Relation.ReflTransGen Step ⟨m, [], p⟩ s → (s.prog = .done ∧ s.pending = []) ∨ ∃ s', Step s s') ∧
    ∀ m', Ends p m m' → m' = seq p m

end ArborX.Async
