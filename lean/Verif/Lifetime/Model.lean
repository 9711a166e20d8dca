import Mathlib.Data.Fintype.Card
import Mathlib.Data.Fintype.Fin
import Mathlib.Data.List.Count

/-! # Lifetime of distributed trees

Models how objects of `src/distributed/ArborX_DistributedTree.hpp` own the duplicate of the communicator of their user: the member `_comm_ptr` (lines 112-113), the constructor that
duplicates the communicator (lines 158-181), and the copies, moves, assignments and the destructor that the compiler generates (no such member is declared, lines 32-118), which copy, move and
destroy the members one by one. `std::shared_ptr` is modelled by its specification: the objects that share a control block are counted, and the deleter of the block is called when the count
reaches zero. MPI is a trace of calls; freeing a communicator that is not there, and the use of one, are undefined (`none`).

Simplifications: the other members (`_bottom_tree`, `_top_tree`, `_top_tree_size`, `_bottom_tree_sizes`, lines 114-117) are one immutable value, which copies share; their memory is counted
by `Kokkos::View` and is not modelled. -/

namespace ArborX.Lifetime

variable {γ : Type} {m : ℕ}

/-- Calls of MPI: `MPI_Comm_dup` (line 174) that creates communicator `c`, `MPI_Comm_free` (line 179), and the use of a communicator by a query of a tree with contents `v`
(`src/distributed/detail/ArborX_DistributedTreeSpatial.hpp` 55-57). -/
inductive Event (γ : Type)
  | dup (c : ℕ)
  | free (c : ℕ)
  | use (c : ℕ) (v : γ)
deriving DecidableEq, Repr

/-- The control block of a `std::shared_ptr<MPI_Comm>`: the communicator pointed at (`none`: `MPI_COMM_NULL`), whether it has the custom deleter of lines 178-181 (otherwise that of
`std::unique_ptr`, line 113, which only gives back memory), and the number of owners. -/
structure Block where
  comm : Option ℕ
  custom : Bool
  count : ℕ
deriving DecidableEq, Repr

/-- A `DistributedTreeBase` (lines 32-118): `_comm_ptr` (`none`: a null pointer, after a move) and the other members (`none`: default constructed, an empty tree). -/
structure Tree (γ : Type) where
  ptr : Option ℕ
  val : Option γ

/-- The memory of a process with `m` variables for trees: control blocks (`nb` of them have been made), the number of communicators duplicated so far, the variables (`none`: no object there),
and the calls of MPI so far. -/
structure State (γ : Type) (m : ℕ) where
  blocks : ℕ → Block
  nb : ℕ
  nc : ℕ
  vars : Fin m → Option (Tree γ)
  trace : List (Event γ)

/-- No objects yet. -/
def State.init : State γ m := ⟨fun _ => ⟨none, false, 0⟩, 0, 0, fun _ => none, []⟩

/-- `std::shared_ptr` from a raw pointer and a deleter: a new control block with one owner. -/
def State.alloc (s : State γ m) (comm : Option ℕ) (custom : Bool) : State γ m :=
  { s with blocks := Function.update s.blocks s.nb ⟨comm, custom, 1⟩, nb := s.nb + 1 }

/-- Copying a `std::shared_ptr` adds an owner. -/
def State.retain (s : State γ m) : Option ℕ → State γ m
  | none => s
  | some b => { s with blocks := Function.update s.blocks b { s.blocks b with count := (s.blocks b).count + 1 } }

/-- `MPI_Comm_free` (line 179): undefined for `MPI_COMM_NULL` and for a communicator that has not been made or has been freed. -/
def State.freeComm [DecidableEq γ] (s : State γ m) : Option ℕ → Option (State γ m)
  | none => none
  | some c => if Event.dup c ∈ s.trace ∧ Event.free c ∉ s.trace then some { s with trace := s.trace ++ [.free c] } else none

/-- The destructor of a `std::shared_ptr`: the last owner calls the deleter (lines 178-181). Undefined if there is no owner left. -/
def State.release [DecidableEq γ] (s : State γ m) : Option ℕ → Option (State γ m)
  | none => some s
  | some b =>
    if (s.blocks b).count = 0 then none
    else
      let s' := { s with blocks := Function.update s.blocks b { s.blocks b with count := (s.blocks b).count - 1 } }
      if (s.blocks b).count = 1 ∧ (s.blocks b).custom then s'.freeComm (s.blocks b).comm else some s'

/-- Write a variable. -/
def State.set (s : State γ m) (x : Fin m) (t : Option (Tree γ)) : State γ m := { s with vars := Function.update s.vars x t }

/-- `MPI_Comm_dup` (line 174): a new communicator. -/
def State.dup (s : State γ m) : State γ m := { s with nc := s.nc + 1, trace := s.trace ++ [.dup s.nc] }

/-- The first part of the constructor (lines 112-113, 169-181): `_comm_ptr` gets a block with `MPI_COMM_NULL`, the communicator is duplicated, `reset` makes a block with the custom deleter
and gives up the first one. The result has the block `s.nb + 1`, with one owner. -/
def State.make [DecidableEq γ] (s : State γ m) : Option (State γ m) :=
  let s := s.alloc none false
  let s := s.dup
  let s := s.alloc (some (s.nc - 1)) true
  s.release (some (s.nb - 2))

/-- What a program does with variables for trees. -/
inductive Op (γ : Type) (m : ℕ)
  /-- `DistributedTree x;` (line 53) -/
  | default (x : Fin m)
  /-- `DistributedTree x(comm, space, v);` (lines 158-255) -/
  | create (x : Fin m) (v : γ)
  /-- The same, but the construction of the bottom or top tree throws an exception. -/
  | createFails (x : Fin m)
  /-- `DistributedTree x(y);` -/
  | copy (x y : Fin m)
  /-- `DistributedTree x(std::move(y));` -/
  | move (x y : Fin m)
  /-- `x = y;` -/
  | assign (x y : Fin m)
  /-- `x = std::move(y);` -/
  | moveAssign (x y : Fin m)
  /-- The end of the lifetime of `x`. -/
  | destroy (x : Fin m)
  /-- `x.query(...)` (lines 84-102). -/
  | query (x : Fin m)

/-- One operation. `none`: undefined behaviour. -/
def step [DecidableEq γ] (s : State γ m) : Op γ m → Option (State γ m)
  | .default x => some ((s.alloc none false).set x (some ⟨some s.nb, none⟩))
  | .create x v => do
    let s' ← s.make
    some (s'.set x (some ⟨some (s.nb + 1), some v⟩))
  | .createFails _ => do
    -- the members made so far are destroyed
    let s' ← s.make
    s'.release (some (s.nb + 1))
  | .copy x y => do
    let t ← s.vars y
    some ((s.retain t.ptr).set x (some t))
  | .move x y => do
    let t ← s.vars y
    some ((s.set y (some ⟨none, t.val⟩)).set x (some t))
  | .assign x y => do
    let t ← s.vars y
    let o ← s.vars x
    -- `shared_ptr(r).swap(*this)`
    ((s.retain t.ptr).set x (some t)).release o.ptr
  | .moveAssign x y => do
    let t ← s.vars y
    let o ← s.vars x
    -- `shared_ptr(std::move(r)).swap(*this)`
    ((s.set y (some ⟨none, t.val⟩)).set x (some t)).release o.ptr
  | .destroy x => do
    let o ← s.vars x
    (s.set x none).release o.ptr
  | .query x => do
    let t ← s.vars x
    match t.val with
    -- `tree.empty()` (`ArborX_DistributedTreeSpatial.hpp` 40-46, 73-74)
    | none => some s
    | some v =>
      -- `*_comm_ptr` (line 107), then collective operations
      let b ← t.ptr
      let c ← (s.blocks b).comm
      if Event.dup c ∈ s.trace ∧ Event.free c ∉ s.trace then some { s with trace := s.trace ++ [.use c v] } else none

/-- A history. -/
def runFrom [DecidableEq γ] (s : State γ m) : List (Op γ m) → Option (State γ m)
  | [] => some s
  | o :: os => do runFrom (← step s o) os

/-- A history of a process that has no trees at the start. -/
def run [DecidableEq γ] (h : List (Op γ m)) : Option (State γ m) := runFrom .init h

end ArborX.Lifetime
