import Verif.Lifetime.Model

/-! # Specification of the lifetime of distributed trees

What a user has to know to follow which tree is which: nothing of pointers, counters and deleters. -/

namespace ArborX.Lifetime

variable {γ : Type} {m : ℕ}

/-- What is in a variable. -/
inductive Obj (γ : Type)
  /-- a default-constructed tree -/
  | empty
  /-- the `k`-th tree that was constructed on a communicator, or a copy of it, with contents `v` -/
  | built (k : ℕ) (v : γ)
  /-- what a move leaves behind -/
  | moved
deriving DecidableEq, Repr

/-- The user's view of the program: what is in the variables, how many constructions on a communicator there have been, and what queries have been asked: of which tree. -/
structure View (γ : Type) (m : ℕ) where
  obj : Fin m → Option (Obj γ)
  made : ℕ
  asked : List (ℕ × γ)

def View.init : View γ m := ⟨fun _ => none, 0, []⟩

/-- What an operation means, and (`none`) what a program must not do: construct where there is an object, use a variable without an object or what a move left behind (it may be assigned to and
destroyed), move an object to itself. -/
def View.step (w : View γ m) : Op γ m → Option (View γ m)
  | .default x => if w.obj x = none then some { w with obj := Function.update w.obj x (some .empty) } else none
  | .create x v => if w.obj x = none then some { w with obj := Function.update w.obj x (some (.built w.made v)), made := w.made + 1 } else none
  | .createFails x => if w.obj x = none then some { w with made := w.made + 1 } else none
  | .copy x y =>
    match w.obj y with
    | none => none
    | some .moved => none
    | some o => if w.obj x = none then some { w with obj := Function.update w.obj x (some o) } else none
  | .move x y =>
    match w.obj y with
    | none => none
    | some .moved => none
    | some o => if w.obj x = none then some { w with obj := Function.update (Function.update w.obj y (some .moved)) x (some o) } else none
  | .assign x y =>
    match w.obj y with
    | none => none
    | some .moved => none
    | some o => if w.obj x = none then none else some { w with obj := Function.update w.obj x (some o) }
  | .moveAssign x y =>
    match w.obj y with
    | none => none
    | some .moved => none
    | some o => if w.obj x = none ∨ x = y then none else some { w with obj := Function.update (Function.update w.obj y (some .moved)) x (some o) }
  | .destroy x => if w.obj x = none then none else some { w with obj := Function.update w.obj x none }
  | .query x =>
    match w.obj x with
    | some .empty => some w
    | some (.built k v) => some { w with asked := w.asked ++ [(k, v)] }
    | _ => none

def View.runFrom (w : View γ m) : List (Op γ m) → Option (View γ m)
  | [] => some w
  | o :: os => (w.step o).bind fun w' => w'.runFrom os

/-- A correct history of a user, and what they have at its end. -/
def View.run (h : List (Op γ m)) : Option (View γ m) := View.runFrom .init h

/-- Every communicator is used and freed only after it has been made and before it has been freed. -/
def Proper (trace : List (Event γ)) : Prop :=
  ∀ l e r, trace = l ++ e :: r →
    match e with
    | .dup c => .dup c ∉ l ∧ .free c ∉ l
    | .free c => .dup c ∈ l ∧ .free c ∉ l
    | .use c _ => .dup c ∈ l ∧ .free c ∉ l

/-- The uses in a trace. -/
def uses (trace : List (Event γ)) : List (ℕ × γ) := trace.filterMap fun | .use c v => some (c, v) | _ => none

end ArborX.Lifetime
