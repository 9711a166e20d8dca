import Verif.Construction.Theorems

/-!
# The construction kernel on a machine with weak memory: model

`Verif/Construction/Model.lean` lets every read return the last write. Here a read of a node returns what was written only if the write is ordered before the read by
the memory fences of the code; otherwise it may return anything, since the memory of the nodes is not initialised (`src/spatial/ArborX_LinearBVH.hpp` 176-184). Nodes are
written once. The atomic variables `_ranges` have a total order of modifications each, and a compare-exchange always meets the last of them, as on every machine.
-/

namespace ArborX.Construction

open Function (update)

/-- The nodes in memory. -/
inductive Loc where
  | leaf (i : ℕ)
  | internal (k : ℕ)
deriving DecidableEq

/-- What the primitives guarantee (`src/spatial/detail/ArborX_TreeConstruction.hpp` 241, 265, 280, 289): `release`, that a thread which reads a value stored by
`atomic_compare_exchange` and then executes an acquiring fence sees the writes before that compare-exchange; `acquire`, that `load_fence` is such a fence. -/
structure Order where
  release : Bool
  acquire : Bool

/-- `base` has the latest writes and the local states; `view t` are the nodes whose writes are ordered before the next read of thread `t`; `msg p` those that are
published with the value of `_ranges(p)`. -/
structure WState (α V : Type) where
  base : State α V
  view : ℕ → Loc → Bool
  msg : ℕ → Loc → Bool

/-- Before the kernel. -/
def initW {α V : Type} : WState α V := ⟨initState, fun _ _ => false, fun _ _ => false⟩

variable {α V : Type} [SemilatticeSup V] [OrderBot V]

/-- Read the bounding volume of a child (266-270, 290-294): if the write is not ordered before, the result can be any volume (`some g`) or the one written. -/
def readW (P : Params α V) (w : WState α V) (t : ℕ) (g : Option V) (isLeaf : Bool) (c : ℕ) : Option V :=
  if w.view t (if isLeaf then .leaf c else .internal c) then readVol P w.base isLeaf c
  else match g with
    | some v => some v
    | none => readVol P w.base isLeaf c

/-- Add a node to the view of `t`. -/
def addView {β : Type} (view : ℕ → β → Bool) [DecidableEq β] (t : ℕ) (x : β) : ℕ → β → Bool := update view t (fun y => view t y || decide (y = x))

/-- The compare-exchange on `_ranges(p)` by thread `t` and the fence after it (241-249 and 265, 280-282 and 289): if it stores, it publishes the view of `t`, otherwise `t`
gets what was published. The fence is executed before the next access to a node. -/
def casW (O : Order) (w : WState α V) (s' : State α V) (t p : ℕ) : WState α V :=
  match w.base.ranges p with
  | none => ⟨s', w.view, update w.msg p (fun y => O.release && w.view t y)⟩
  | some _ => ⟨s', update w.view t (fun y => w.view t y || (O.acquire && w.msg p y)), w.msg⟩

/-- Continue after a read. -/
def afterRead (s : State α V) (t : ℕ) (v : Option V) (k : V → TS V) : State α V :=
  match v with
  | some v => setThr s t (k v)
  | none => setThr s t .fault

/-- One step of thread `t`, as `step`; `g` is what a read returns that is not ordered after the write. -/
def stepW (O : Order) (P : Params α V) (w : WState α V) (tg : ℕ × Option V) : WState α V :=
  let t := tg.1
  if t > P.m then w else
  match w.base.thr t with
  | .init => ⟨step P w.base t, addView w.view t (.leaf t), w.msg⟩
  | .loop _ l r dl dr _ => casW O w (step P w.base t) t (if dr < dl then r else l - 1)
  | .readR i l r dl bv p =>
      ⟨afterRead w.base t (readW P w t tg.2 (p + 1 == r) (p + 1)) (fun v => .write l r dl (delta P r) (bv ⊔ v) i), w.view, w.msg⟩
  | .readL l r dr bv p =>
      ⟨afterRead w.base t (readW P w t tg.2 (p == l) p)
        (fun v => .write l r (delta P ((l : ℤ) - 1)) dr (bv ⊔ v) (if p == l then p else internalIndex P p)), w.view, w.msg⟩
  | .write l r dl dr _ _ => ⟨step P w.base t, addView w.view t (.internal (if dr < dl then r else l)), w.msg⟩
  | .done => w
  | .fault => w

/-- The kernel; after it every write is visible (end of `parallel_for`, 104-106). -/
def runW (O : Order) (P : Params α V) (sched : List (ℕ × Option V)) : WState α V := sched.foldl (stepW O P) initW

end ArborX.Construction
