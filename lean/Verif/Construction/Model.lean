import Mathlib.Order.Lattice
import Mathlib.Order.BoundedOrder.Lattice
import Mathlib.Logic.Function.Basic
import Verif.Layout

/-!
# Model of the parallel bottom-up construction of the hierarchy

Models `src/spatial/detail/ArborX_TreeConstruction.hpp`, struct
`GenerateHierarchy` (lines 71-322), as a transition system: one thread per
leaf, one step per shared-memory interaction, threads interleaved arbitrarily.
-/

namespace ArborX.Construction

/-- Inputs of `GenerateHierarchy` (lines 80-100, 313-321).
* `m` is `_num_internal_nodes`; there are `m + 1` leaves.
* `key i` is the value of `delta(i)` for `0 ≤ i < m` (lines 163-165; the bit-level
  definition is in `Verif/Morton`), `maxv` the value `max_value` of lines 143-144.
* `value i` is `_values(_permutation_indices(i))` (lines 200-204).
* `vol a` is the bounding volume of the geometry of a value, so that
  `expand(bv, _indexable_getter(a))` is `bv ⊔ vol a`. -/
structure Params (α V : Type) where
  m : ℕ
  key : ℕ → ℤ
  maxv : ℤ
  value : ℕ → α
  vol : α → V

variable {α V : Type}

/-- `delta` (lines 130-170): `max_value` outside `[0, m)`. -/
def delta (P : Params α V) (i : ℤ) : ℤ :=
  if i < 0 ∨ i ≥ (P.m : ℤ) then P.maxv else P.key i.toNat

/-- `internalIndex` (lines 127-128). -/
def internalIndex (P : Params α V) (i : ℕ) : ℕ := i + P.m + 1

/-- The rope computed by `setRope` (lines 172-195). -/
def setRope (P : Params α V) (r : ℕ) (dr : ℤ) : Option ℕ :=
  if r ≠ P.m then
    some (if dr < delta P ((r : ℤ) + 1) then r + 1 else internalIndex P (r + 1))
  else none

/-- Local state of one thread of `operator()` (lines 197-311).
* `init`: before line 200;
* `loop i l r dl dr bv`: at the top of the `do` body (line 222) with the local
  variables `i`, `range_left`, `range_right`, `delta_left`, `delta_right`,
  `bounding_volume`;
* `readR`/`readL`: the compare-exchange returned another thread's value; about to
  read the sibling's bounding volume (lines 255-270, 284-297). `p` is
  `apetrei_parent`;
* `write`: about to write the parent node (lines 300-310);
* `done`: returned; `fault`: out-of-bounds access or use of memory that no thread
  has written. -/
inductive TS (V : Type) where
  | init
  | loop (i l r : ℕ) (dl dr : ℤ) (bv : V)
  | readR (i l r : ℕ) (dl : ℤ) (bv : V) (p : ℕ)
  | readL (l r : ℕ) (dr : ℤ) (bv : V) (p : ℕ)
  | write (l r : ℕ) (dl dr : ℤ) (bv : V) (left : ℕ)
  | done
  | fault

/-- Shared memory and the local states of the threads. `ranges p = none` is the
marker `UNTOUCHED_NODE` (line 102); a node that no thread has written is `none`. -/
structure State (α V : Type) where
  ranges : ℕ → Option ℕ
  leaf : ℕ → Option (LeafNode α)
  internal : ℕ → Option (InternalNode V)
  thr : ℕ → TS V

/-- State before the kernel (lines 97-106). -/
def initState : State α V where
  ranges := fun _ => none
  leaf := fun _ => none
  internal := fun _ => none
  thr := fun _ => TS.init

open Function (update)

variable [SemilatticeSup V] [OrderBot V]

/-- Set the local state of thread `t`. -/
def setThr (s : State α V) (t : ℕ) (x : TS V) : State α V :=
  { s with thr := update s.thr t x }

/-- Read the bounding volume of a child (lines 266-270 and 290-294): `none` when
the memory has not been written. -/
def readVol (P : Params α V) (s : State α V) (isLeaf : Bool) (c : ℕ) : Option V :=
  if isLeaf then (s.leaf c).map (fun x => P.vol x.value)
  else (s.internal c).map (fun x => x.vol)

/-- One step of thread `t`. Each step touches shared memory at most once, except
that the three fields of a node are written in one step (no other thread reads
them before the compare-exchange that publishes the node). Threads `t > m` do not
exist; stepping them, or a thread that has returned, changes nothing. -/
def step (P : Params α V) (s : State α V) (t : ℕ) : State α V :=
  if t > P.m then s else
  match s.thr t with
  | .init =>
      -- lines 200-216
      let dl := delta P ((t : ℤ) - 1)
      let dr := delta P t
      { s with
        leaf := update s.leaf t (some ⟨setRope P t dr, P.value t⟩)
        thr := update s.thr t (.loop t t t dl dr (⊥ ⊔ P.vol (P.value t))) }
  | .loop i l r dl dr bv =>
      if dr < dl then
        -- lines 227-249: left child, compare-exchange on `_ranges(range_right)`
        if r < P.m then
          match s.ranges r with
          | none => { s with ranges := update s.ranges r (some l), thr := update s.thr t .done }
          | some x => setThr s t (.readR i l x dl bv r)
        else setThr s t .fault
      else
        -- lines 272-282: right child, compare-exchange on `_ranges(range_left - 1)`
        if 0 < l ∧ l - 1 < P.m then
          match s.ranges (l - 1) with
          | none => { s with ranges := update s.ranges (l - 1) (some r),
                             thr := update s.thr t .done }
          | some x => setThr s t (.readL x r dr bv (l - 1))
        else setThr s t .fault
  | .readR i l r dl bv p =>
      -- lines 255-270
      let rightChild := p + 1
      match readVol P s (rightChild == r) rightChild with
      | some v => setThr s t (.write l r dl (delta P r) (bv ⊔ v) i)
      | none => setThr s t .fault
  | .readL l r dr bv p =>
      -- lines 284-297
      match readVol P s (p == l) p with
      | some v => setThr s t (.write l r (delta P ((l : ℤ) - 1)) dr (bv ⊔ v)
                    (if p == l then p else internalIndex P p))
      | none => setThr s t .fault
  | .write l r dl dr bv left =>
      -- lines 300-310
      let k := if dr < dl then r else l
      if k < P.m then
        { s with
          internal := update s.internal k (some ⟨left, setRope P r dr, bv⟩)
          thr := update s.thr t
            (if internalIndex P k ≠ internalIndex P 0 then
              .loop (internalIndex P k) l r dl dr bv else .done) }
      else setThr s t .fault
  | .done => s
  | .fault => s

/-- The kernel under a schedule: the list of the threads taking a step, in order
(`parallel_for` over the leaves, lines 104-106). -/
def run (P : Params α V) (sched : List ℕ) : State α V :=
  sched.foldl (step P) initState

/-- All threads have returned. -/
def Complete (P : Params α V) (s : State α V) : Prop :=
  ∀ t ≤ P.m, s.thr t = TS.done

end ArborX.Construction
