import Mathlib.Logic.Function.Basic
import Mathlib.Data.List.Basic

/-!
# Threads that share an array

The iterations of a `Kokkos::parallel_for` which read and write one `Kokkos::View`. Each iteration is
a program whose steps are single reads and single writes; the steps of the iterations are interleaved in
any way (sequential consistency). Reading or writing outside of the view is a fault, and so is reading an
entry which was not written since the view was allocated `WithoutInitializing`.
-/

namespace ArborX.Shared

variable {T R S : Type}

/-- A program of one thread. -/
inductive Prog (T R : Type) where
  | ret (r : R)
  | fault
  | read (a : ℕ) (k : T → Prog T R)
  | write (a : ℕ) (v : T) (k : Prog T R)

/-- Run a program and go on with its result. -/
def Prog.bind : Prog T R → (R → Prog T S) → Prog T S
  | .ret r, f => f r
  | .fault, _ => .fault
  | .read a k, f => .read a (fun v => (k v).bind f)
  | .write a v k, f => .write a v (k.bind f)

/-- The view and what the threads have still to do. -/
structure State (T R : Type) where
  mem : ℕ → Option T
  thr : ℕ → Prog T R

/-- One step of thread `t` of `n`, on a view of `size` entries. -/
def step (n size : ℕ) (s : State T R) (t : ℕ) : State T R :=
  if t < n then
    match s.thr t with
    | .ret _ => s
    | .fault => s
    | .read a k =>
      if a < size then
        match s.mem a with
        | some v => { s with thr := Function.update s.thr t (k v) }
        | none => { s with thr := Function.update s.thr t .fault }
      else { s with thr := Function.update s.thr t .fault }
    | .write a v k =>
      if a < size then ⟨Function.update s.mem a (some v), Function.update s.thr t k⟩
      else { s with thr := Function.update s.thr t .fault }
  else s

/-- The threads run under a schedule; the view starts without any value. -/
def run (n size : ℕ) (prog : ℕ → Prog T R) (sched : List ℕ) : State T R :=
  sched.foldl (step n size) ⟨fun _ => none, prog⟩

end ArborX.Shared
