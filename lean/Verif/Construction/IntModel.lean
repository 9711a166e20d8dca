import Verif.BVH.Build

/-!
# Model: the node numbers are of type `int`

`Construction.step` and the traversals compute with natural numbers. Here the values of type `int` that the code computes are listed, and a value that an `int` cannot
hold (signed overflow, which is undefined, or a conversion that changes the value) is a fault.
-/

namespace ArborX

/-- The values of an `int` of 32 bits. -/
def IsInt (x : ℤ) : Prop := -2 ^ 31 ≤ x ∧ x < 2 ^ 31

instance (x : ℤ) : Decidable (IsInt x) := inferInstanceAs (Decidable (_ ∧ _))

/-- All values of a list. -/
def AreInts (l : List ℤ) : Prop := ∀ x ∈ l, IsInt x

instance (l : List ℤ) : Decidable (AreInts l) := inferInstanceAs (Decidable (∀ x ∈ l, IsInt x))

namespace Construction

variable {α V : Type}

/-- `internalIndex` (`src/spatial/detail/ArborX_TreeConstruction.hpp` 127-128): `i + _num_internal_nodes + 1`, from left to right. -/
def internalIndexInts (P : Params α V) (i : ℕ) : List ℤ := [(i : ℤ) + P.m, (i : ℤ) + P.m + 1]

/-- `delta` (lines 130-170): the argument and, inside of the array, the index `i + 1` (line 163). -/
def deltaInts (P : Params α V) (i : ℤ) : List ℤ := if i < 0 ∨ i ≥ (P.m : ℤ) then [i] else [i, i + 1]

/-- `setRope` (lines 172-195): `range_right + 1`, the additional evaluation of `delta`, and the index. -/
def setRopeInts (P : Params α V) (r : ℕ) (dr : ℤ) : List ℤ :=
  if r ≠ P.m then
    ((r : ℤ) + 1) :: deltaInts P ((r : ℤ) + 1) ++ (if dr < delta P ((r : ℤ) + 1) then [] else internalIndexInts P (r + 1))
  else [-1]

/-- The values of type `int` computed in one step of thread `t`, `_num_internal_nodes` (`extent_int`, line 100) and the index of the thread (line 197)
included. -/
def ints (P : Params α V) (s : State α V) (t : ℕ) : List ℤ :=
  (P.m : ℤ) :: (t : ℤ) :: match s.thr t with
  | .init =>
      -- lines 210-220
      ((t : ℤ) - 1) :: deltaInts P ((t : ℤ) - 1) ++ deltaInts P t ++ setRopeInts P t (delta P t) ++ internalIndexInts P 0
  | .loop _ l _ dl dr _ => if dr < dl then [] else [(l : ℤ) - 1] -- line 277
  | .readR _ _ r _ _ p => ((p : ℤ) + 1) :: deltaInts P r -- lines 256-259
  | .readL l _ _ _ p => ((l : ℤ) - 1) :: deltaInts P ((l : ℤ) - 1) ++ (if p == l then [] else internalIndexInts P p) -- lines 287-297
  | .write l r dl dr _ left => (left : ℤ) :: setRopeInts P r dr ++ internalIndexInts P (if dr < dl then r else l) -- lines 301-309
  | .done => []
  | .fault => []

variable [SemilatticeSup V] [OrderBot V]

/-- One step of thread `t` (lines 197-311), with `int`s. -/
def stepI (P : Params α V) (s : State α V) (t : ℕ) : State α V :=
  if t > P.m then s else if AreInts (ints P s t) then step P s t else setThr s t .fault

/-- The kernel under a schedule, with `int`s (lines 104-106). -/
def runI (P : Params α V) (sched : List ℕ) : State α V := sched.foldl (stepI P) initState

end Construction

namespace BVH

open Construction

variable {α V : Type} {w : ℕ} [SemilatticeSup V] [OrderBot V]

/-- The node arrays after the constructor, with `int`s (as `Input.build`). -/
def Input.buildI (I : Input α V w) (sched : List ℕ) : Mem α V :=
  if I.n = 0 then ⟨0, fun _ => none, fun _ => none⟩
  else if I.n = 1 then
    ⟨1, fun i => if i = 0 then some ⟨none, I.values 0⟩ else none, fun _ => none⟩
  else ⟨I.n, (runI I.params sched).leaf, (runI I.params sched).internal⟩

/-- The construction kernel has finished. -/
def Input.FinishedI (I : Input α V w) (sched : List ℕ) : Prop :=
  2 ≤ I.n → Complete I.params (runI I.params sched)

end BVH

namespace Traversal

variable {α V : Type}

/-- The values of type `int` computed to visit node `node`: the number itself, `(int)bvh.size()` in `isLeaf` and `internalIndex`
(`src/spatial/detail/ArborX_HappyTreeFriends.hpp` 33-45), the difference if the node is internal, and, in builds with assertions (`debug`), the bound
`2 * (int)bvh.size() - 1` of line 36. -/
def nodeInts (debug : Bool) (size node : ℕ) : List ℤ :=
  (node : ℤ) :: (size : ℤ) :: (if debug then [2 * (size : ℤ), 2 * (size : ℤ) - 1] else []) ++
    (if node < size then [] else [(node : ℤ) - size])

/-- The loop of the spatial traversal (`src/spatial/detail/ArborX_TreeTraversal.hpp` 97-119, see `spatialLoop`), with `int`s. -/
def spatialLoopI (debug : Bool) (mem : Mem α V) (pl : α → Bool) (pv : V → Bool) (stop : List α → Bool) :
    ℕ → Option ℕ → List α → Res (List α)
  | _, none, acc => .done acc
  | 0, some _, _ => .timeout
  | fuel + 1, some node, acc =>
    if AreInts (nodeInts debug mem.size node) then
      if node < mem.size then
        match mem.leaf node with
        | none => .fault
        | some lf =>
          if pl lf.value then
            if stop (acc ++ [lf.value]) then .done (acc ++ [lf.value])
            else spatialLoopI debug mem pl pv stop fuel lf.rope (acc ++ [lf.value])
          else spatialLoopI debug mem pl pv stop fuel lf.rope acc
      else
        match mem.internal (node - mem.size) with
        | none => .fault
        | some nd =>
          if pv nd.vol then spatialLoopI debug mem pl pv stop fuel (some nd.left) acc
          else spatialLoopI debug mem pl pv stop fuel nd.rope acc
    else .fault

/-- One query (lines 48-66), with `int`s. -/
def spatialQueryI (debug : Bool) (mem : Mem α V) (pl : α → Bool) (pv : V → Bool) (stop : List α → Bool) (fuel : ℕ) : Res (List α) :=
  if mem.size = 0 then .done []
  else if mem.size = 1 then spatialOneLeaf mem pl
  else spatialLoopI debug mem pl pv stop fuel (some mem.size) []

end Traversal

end ArborX
