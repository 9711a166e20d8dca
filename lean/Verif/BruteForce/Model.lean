import Verif.Heap.Model
import Mathlib.Order.Defs.LinearOrder
import Mathlib.Data.Int.Log
import Mathlib.Algebra.Order.Floor.Defs
import Mathlib.Data.Rat.Floor

/-!
# Model of the brute-force index

Models `src/spatial/detail/ArborX_BruteForceImpl.hpp`.
-/

namespace ArborX.BruteForce

/-! ## Spatial query (lines 51-151) -/

/-- Round a rational to an integer, ties to even. -/
def roundEven (x : ℚ) : ℤ :=
  let f := ⌊x⌋
  if x - f < 1 / 2 then f
  else if 1 / 2 < x - f then f + 1
  else if f % 2 = 0 then f else f + 1

/-- Nearest single-precision number to a non-negative rational (24 significant bits, ties to
even). Simplification: no subnormal numbers and no overflow, which the tile counts do not
reach. -/
def f32 (x : ℚ) : ℚ :=
  if x ≤ 0 then 0
  else
    let u : ℚ := 2 ^ (Int.log 2 x - 23)
    roundEven (x / u) * u

/-- Number of tiles: `std::ceil((float)n / per_team)` (lines 89-92). Both the conversion and
the division round; `per_team` is converted too. -/
def tiles (n per : ℕ) : ℕ := ⌈f32 (f32 n / f32 per)⌉₊

/-- Indices in tile `t`: `start = per * t`, `min(per, n - start)` of them (lines 103-112).
A negative count is an empty range, as for the natural subtraction. -/
def tile (n per t : ℕ) : List ℕ := (List.range (min per (n - per * t))).map (fun j => per * t + j)

/-- All calls `(query, value)` of the callback, team after team (lines 97-150), with `tI`
tiles of values and `tP` tiles of predicates. The calls of
different teams and threads run in any order; the order of this list is immaterial. The
predicate `p q j` is evaluated on copies in scratch memory (lines 119-130), which have
the same values. `nI, nP` numbers of values and predicates, `perI, perP` tile sizes. -/
def leagueCalls (nI nP perI perP tI tP : ℕ) (p : ℕ → ℕ → Bool) : List (ℕ × ℕ) :=
  (List.range (tI * tP)).flatMap fun team =>
    (tile nI perI (team % tI)).flatMap fun j =>
      ((tile nP perP (team / tI)).filter (fun q => p q j)).map (fun q => (q, j))

/-- The query (lines 51-151). `none`: the number of tiles, the number of teams (line 93) or
the first index of a tile (lines 103-107) does not fit an `int`, which is undefined
behaviour. -/
def spatialCalls (nI nP perI perP : ℕ) (p : ℕ → ℕ → Bool) : Option (List (ℕ × ℕ)) :=
  let tI := tiles nI perI
  let tP := tiles nP perP
  if tI < 2 ^ 31 ∧ tP < 2 ^ 31 ∧ tI * tP < 2 ^ 31 ∧
      (tI * tP = 0 ∨ perI * (tI - 1) < 2 ^ 31 ∧ perP * (tP - 1) < 2 ^ 31) then
    some (leagueCalls nI nP perI perP tI tP p)
  else none

/-! ## Nearest query (lines 153-228) -/

variable {α D : Type} [LinearOrder D]

/-- `CompareDistance` (lines 185-193). -/
def cmp (x y : ℕ × D) : Bool := decide (x.2 < y.2)

/-- First loop (lines 209-213): indices `0 .. min n k - 1` are pushed. The buffer has `k`
entries. -/
def fill (d : ℕ → D) (k : ℕ) : List ℕ → List (ℕ × D) → Option (List (ℕ × D))
  | [], heap => some heap
  | j :: js, heap =>
    match Heap.push cmp k heap (j, d j) with
    | none => none
    | some heap' => fill d k js heap'

/-- Second loop (lines 214-222): indices `k .. n-1`, with the radius. -/
def improve (d : ℕ → D) : List ℕ → List (ℕ × D) → D → Option (List (ℕ × D))
  | [], heap, _ => some heap
  | j :: js, heap, radius =>
    if d j < radius then
      match Heap.popPush cmp heap (j, d j) with
      | none => none
      | some heap' =>
        match Heap.top heap' with
        | none => none
        | some t => improve d js heap' t.2
    else improve d js heap radius

/-- One query (lines 170-227): indices of the values the callback is called on. `inf` is the
initial radius. -/
def nearest (d : ℕ → D) (inf : D) (n k : ℕ) : Option (List ℕ) :=
  if k < 1 then some []
  else
    match fill d k (List.range (min n k)) [] with
    | none => none
    | some heap =>
      match improve d (List.range' k (n - k)) heap inf with
      | none => none
      | some heap' =>
        match Heap.sortHeap cmp heap' heap'.length with
        | none => none
        | some sorted => some (sorted.map (·.1))

end ArborX.BruteForce
