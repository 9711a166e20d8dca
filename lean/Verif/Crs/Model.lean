import Mathlib.Logic.Function.Basic
import Mathlib.Data.List.Basic
import Mathlib.Data.Int.Basic

/-!
# Model of the queries that return compressed row storage

Models `src/spatial/detail/ArborX_CrsGraphWrapperImpl.hpp`. The calls of the output
functor made by one traversal are a list of threads, each inserting its values one after
the other; threads are interleaved arbitrarily and each insertion is two steps, the atomic
increment of the counter and the write of the value.
-/

namespace ArborX.Crs

variable {T : Type}

open Function (update)

/-- State of one pass: the array `counts`, the array `out` (`none` is uninitialised), and
for each thread the insertions `(predicate index, value)` still to do and the write it has
pending. `fault` is set by a write out of bounds. -/
structure State (T : Type) where
  counts : ℕ → ℕ
  out : ℕ → Option T
  thr : ℕ → List (ℕ × T) × Option (ℕ × T)
  fault : Bool

/-- One step of thread `t` of a pass (`InsertGenerator::operator()`, lines 70-112).
`target q old` is the place the value is written to if the counter of predicate index `q`
was `old` (none: it is not written); `len` is the size of `out`. -/
def step (nt : ℕ) (target : ℕ → ℕ → Option ℕ) (len : ℕ) (s : State T) (t : ℕ) : State T :=
  if nt ≤ t then s else
  match s.thr t with
  | (rest, some (slot, v)) =>
    { s with
      out := update s.out slot (some v)
      fault := s.fault || decide (len ≤ slot)
      thr := update s.thr t (rest, none) }
  | ((q, v) :: rest, none) =>
    { s with
      counts := update s.counts q (s.counts q + 1)
      thr := update s.thr t (rest, (target q (s.counts q)).map (fun slot => (slot, v))) }
  | ([], none) => s

/-- A pass: threads `0 .. nt-1` with programs `prog`, under the schedule `sched`. -/
def runPass (nt : ℕ) (prog : ℕ → List (ℕ × T)) (target : ℕ → ℕ → Option ℕ) (c0 : ℕ → ℕ) (len : ℕ)
    (out0 : ℕ → Option T) (sched : List ℕ) : State T :=
  sched.foldl (step nt target len) ⟨c0, out0, fun t => (prog t, none), false⟩

/-- All threads of the pass have finished. -/
def finished (nt : ℕ) (s : State T) : Bool :=
  (List.range nt).all (fun t => (s.thr t).1.isEmpty && (s.thr t).2.isNone)

/-- `BufferStatus` (lines 35-40). -/
inductive Status where
  | none
  | hard
  | soft
  deriving DecidableEq

/-- `toBufferStatus` (lines 42-49). -/
def toBufferStatus (bufferSize : ℤ) : Status :=
  if bufferSize = 0 then .none else if bufferSize > 0 then .soft else .hard

/-- `exclusive_scan`: entry `j` is the sum of the first `j` entries. -/
def scan (f : ℕ → ℕ) : ℕ → ℕ
  | 0 => 0
  | j + 1 => scan f j + f j

/-- Where the first pass writes: `FirstPassTag` (lines 76-90) below the size of the buffer of
the query, `FirstPassNoBufferOptimizationTag` (lines 91-96) nowhere. -/
def target1 (status : Status) (permute : ℕ → ℕ) (offset : ℕ → ℕ) (q old : ℕ) : Option ℕ :=
  match status with
  | .none => none
  | _ =>
    if old < offset (permute q + 1) - offset (permute q) then some (offset (permute q) + old)
    else none

/-- Where the second pass writes: the counter itself (lines 97-110). -/
def target2 (_q old : ℕ) : Option ℕ := some old

/-- `permuted_offset(i) = counts(i)` for all `i < n` (lines 232-242). -/
def copyCounts (permute counts : ℕ → ℕ) (offset : ℕ → ℕ) : ℕ → ℕ → ℕ
  | 0 => offset
  | n + 1 => update (copyCounts permute counts offset n) (permute n) (counts n)

/-- The inner loop of the compression (lines 302-307): `count` values. -/
def copyRow (src : ℕ → Option T) (dest from_ : ℕ) (dst : ℕ → Option T) : ℕ → ℕ → Option T
  | 0 => dst
  | k + 1 => update (copyRow src dest from_ dst k) (dest + k) (src (from_ + k))

/-- The compression (lines 294-309), queries `0 .. n-1`. -/
def compress (offset pre : ℕ → ℕ) (src : ℕ → Option T) : ℕ → ℕ → Option T
  | 0 => fun _ => none
  | i + 1 => copyRow src (offset i) (pre i) (compress offset pre src i) (offset (i + 1) - offset i)

/-- Result of a query: the two arrays, an exception, an out-of-bounds write, or a pass whose
schedule was cut short. -/
inductive Outcome (T : Type) where
  | done (offset : List ℕ) (out : List (Option T))
  | throw
  | fault
  | running
  deriving DecidableEq

/-- First `n` entries of an array. -/
def toList {β : Type} (f : ℕ → β) (n : ℕ) : List β := (List.range n).map f

/-- `overflow`: some query has more results than its buffer; always set without buffer (lines
185-198 and 217-220). -/
def overflowed (n : ℕ) (permute : ℕ → ℕ) (status : Status) (offset0 counts : ℕ → ℕ) : Bool :=
  match status with
  | .none => true
  | _ => (List.range n).any (fun i =>
      decide (counts i > offset0 (permute i + 1) - offset0 (permute i)))

/-- `queryImpl` (lines 145-323). `n` queries; `out` initially has `len0` entries; `sched1`,
`sched2` are the schedules of the two passes. -/
def queryImpl (nt : ℕ) (prog : ℕ → List (ℕ × T)) (n : ℕ) (permute : ℕ → ℕ) (status : Status)
    (offset0 : ℕ → ℕ) (len0 : ℕ) (out0 : ℕ → Option T) (sched1 sched2 : List ℕ) : Outcome T :=
  let p1 := runPass nt prog (target1 status permute offset0) (fun _ => 0) len0 out0 sched1
  if !finished nt p1 then .running
  else if p1.fault then .fault
  else
    -- lines 185-198, 217-220
    let overflow := overflowed n permute status offset0 p1.counts
    -- lines 200-210
    let underflow := !overflow && decide (scan p1.counts n < len0)
    -- lines 232-245
    let offset := scan (copyCounts permute p1.counts offset0 n)
    let nResults := offset n
    if nResults = 0 then .done (toList offset (n + 1)) []
    else if overflow then
      if status = .hard then .throw
      else
        let p2 := runPass nt prog target2 (fun i => offset (permute i)) nResults (fun _ => none) sched2
        if !finished nt p2 then .running
        else if p2.fault then .fault
        else .done (toList offset (n + 1)) (toList p2.out nResults)
    else if underflow then
      .done (toList offset (n + 1)) (toList (compress offset offset0 p1.out n) nResults)
    else .done (toList offset (n + 1)) (toList p1.out len0)

/-- Kind of predicates. -/
inductive Kind where
  | spatial
  | ordered
  | nearest
  deriving DecidableEq

/-- `allocateAndInitializeStorage` (lines 325-374) and the choice of the buffer status and of
the permutation in `queryDispatch` (lines 396-428). For spatial predicates and a zero buffer
size `out` keeps the `userLen` entries it had. `ks i` is `getK` of the predicates. -/
def query (kind : Kind) (bufferSize : ℤ) (ks : ℕ → ℕ) (userLen : ℕ) (userOut : ℕ → Option T)
    (nt : ℕ) (prog : ℕ → List (ℕ × T)) (n : ℕ) (permute : ℕ → ℕ) (sched1 sched2 : List ℕ) :
    Outcome T :=
  let b := bufferSize.natAbs
  let status := if kind = .spatial then toBufferStatus bufferSize else .soft
  match kind with
  | .nearest =>
    let offset := scan ks
    queryImpl nt prog n permute status offset (offset n) (fun _ => none) sched1 sched2
  | _ =>
    if b ≠ 0 then
      queryImpl nt prog n permute status (scan (fun _ => b)) (n * b) (fun _ => none) sched1 sched2
    else
      queryImpl nt prog n permute status (fun _ => 0) userLen userOut sched1 sched2

end ArborX.Crs
