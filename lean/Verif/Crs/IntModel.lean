import Verif.Crs.Model

/-!
# Queries that return compressed row storage, with counters and offsets of type `int`

The same code as in `Verif.Crs.Model`, `src/spatial/detail/ArborX_CrsGraphWrapperImpl.hpp`,
with the arrays `offset` and `counts`, the number of results and the buffer sizes of type
`int`: 32 bits, wrapping around. Atomic increments and the scan of Kokkos wrap around on the
usual hardware; in C++ an overflow of plain additions of `int` is undefined behaviour. The
numbers of queries and of values are not bounded here.
-/

namespace ArborX.Crs.Int32

variable {T : Type}

open Function (update)

/-- State of one pass, as `Crs.State`; places in `out` are signed. -/
structure State (T : Type) where
  counts : ℕ → BitVec 32
  out : ℕ → Option T
  thr : ℕ → List (ℕ × T) × Option (ℤ × T)
  fault : Bool

/-- One step of thread `t` of a pass (`InsertGenerator::operator()`, lines 70-112), as
`Crs.step`. -/
def step (nt : ℕ) (target : ℕ → BitVec 32 → Option ℤ) (len : ℕ) (s : State T) (t : ℕ) : State T :=
  if nt ≤ t then s else
  match s.thr t with
  | (rest, some (slot, v)) =>
    { s with
      out := update s.out slot.toNat (some v)
      fault := s.fault || decide (slot < 0 ∨ (len : ℤ) ≤ slot)
      thr := update s.thr t (rest, none) }
  | ((q, v) :: rest, none) =>
    { s with
      counts := update s.counts q (s.counts q + 1)
      thr := update s.thr t (rest, (target q (s.counts q)).map (fun slot => (slot, v))) }
  | ([], none) => s

/-- A pass, as `Crs.runPass`. -/
def runPass (nt : ℕ) (prog : ℕ → List (ℕ × T)) (target : ℕ → BitVec 32 → Option ℤ)
    (c0 : ℕ → BitVec 32) (len : ℕ) (out0 : ℕ → Option T) (sched : List ℕ) : State T :=
  sched.foldl (step nt target len) ⟨c0, out0, fun t => (prog t, none), false⟩

/-- All threads of the pass have finished. -/
def finished (nt : ℕ) (s : State T) : Bool :=
  (List.range nt).all (fun t => (s.thr t).1.isEmpty && (s.thr t).2.isNone)

/-- `exclusive_scan`: entry `j` is the sum of the first `j` entries, as `int`. -/
def scan (f : ℕ → BitVec 32) : ℕ → BitVec 32
  | 0 => 0
  | j + 1 => scan f j + f j

/-- Where the first pass writes (lines 76-96): `count_old < buffer_size` compares `int`s. -/
def target1 (status : Status) (permute : ℕ → ℕ) (offset : ℕ → BitVec 32) (q : ℕ)
    (old : BitVec 32) : Option ℤ :=
  match status with
  | .none => none
  | _ =>
    if old.toInt < (offset (permute q + 1) - offset (permute q)).toInt then
      some (offset (permute q) + old).toInt
    else none

/-- Where the second pass writes: the counter itself (lines 97-110). -/
def target2 (_q : ℕ) (old : BitVec 32) : Option ℤ := some old.toInt

/-- `permuted_offset(i) = counts(i)` for all `i < n` (lines 232-242). -/
def copyCounts (permute : ℕ → ℕ) (counts offset : ℕ → BitVec 32) : ℕ → ℕ → BitVec 32
  | 0 => offset
  | n + 1 => update (copyCounts permute counts offset n) (permute n) (counts n)

/-- The result, as `Crs.Outcome`, with signed offsets. -/
inductive Outcome (T : Type) where
  | done (offset : List ℤ) (out : List (Option T))
  | throw
  | fault
  | running
  deriving DecidableEq

/-- `overflow` (lines 185-198 and 217-220). -/
def overflowed (n : ℕ) (permute : ℕ → ℕ) (status : Status) (offset0 counts : ℕ → BitVec 32) : Bool :=
  match status with
  | .none => true
  | _ => (List.range n).any (fun i =>
      decide ((counts i).toInt > (offset0 (permute i + 1) - offset0 (permute i)).toInt))

/-- Some row that the compression copies (lines 294-309) begins at a negative place: it reads or
writes out of bounds. -/
def negative (n : ℕ) (offset pre : ℕ → BitVec 32) : Bool :=
  (List.range n).any (fun i =>
    decide (0 < (offset (i + 1) - offset i).toInt ∧ ((offset i).toInt < 0 ∨ (pre i).toInt < 0)))

/-- `queryImpl` (lines 145-323), as `Crs.queryImpl`. If the number of results is negative, the
allocation of `out` (line 281) fails with an exception. -/
def queryImpl (nt : ℕ) (prog : ℕ → List (ℕ × T)) (n : ℕ) (permute : ℕ → ℕ) (status : Status)
    (offset0 : ℕ → BitVec 32) (len0 : ℕ) (out0 : ℕ → Option T) (sched1 sched2 : List ℕ) :
    Outcome T :=
  let p1 := runPass nt prog (target1 status permute offset0) (fun _ => 0) len0 out0 sched1
  if !finished nt p1 then .running
  else if p1.fault then .fault
  else
    let overflow := overflowed n permute status offset0 p1.counts
    let underflow := !overflow && decide ((scan p1.counts n).toInt < (BitVec.ofNat 32 len0).toInt)
    let offset := scan (copyCounts permute p1.counts offset0 n)
    let nResults := (offset n).toInt
    let offsets := (List.range (n + 1)).map (fun j => (offset j).toInt)
    if nResults = 0 then .done offsets []
    else if overflow then
      if status = .hard then .throw
      else if nResults < 0 then .throw
      else
        let p2 := runPass nt prog target2 (fun i => offset (permute i)) nResults.toNat (fun _ => none)
          sched2
        if !finished nt p2 then .running
        else if p2.fault then .fault
        else .done offsets (toList p2.out nResults.toNat)
    else if underflow then
      if nResults < 0 then .throw
      else if negative n offset offset0 then .fault
      else .done offsets (toList (compress (fun j => (offset j).toInt.toNat)
        (fun j => (offset0 j).toInt.toNat) p1.out n) nResults.toNat)
    else .done offsets (toList p1.out len0)

/-- `allocateAndInitializeStorage` (lines 325-374) and `queryDispatch` (lines 396-428), as
`Crs.query`. The size `n_queries * buffer_size` of `out` (line 349) is computed in the type of
`predicates.size()`, which has 64 bits; the size for nearest queries is the last offset, and
if that is negative the allocation fails. -/
def query (kind : Kind) (bufferSize : ℤ) (ks : ℕ → ℕ) (userLen : ℕ) (userOut : ℕ → Option T)
    (nt : ℕ) (prog : ℕ → List (ℕ × T)) (n : ℕ) (permute : ℕ → ℕ) (sched1 sched2 : List ℕ) :
    Outcome T :=
  let b := bufferSize.natAbs
  let status := if kind = .spatial then toBufferStatus bufferSize else .soft
  match kind with
  | .nearest =>
    let offset := scan (fun j => BitVec.ofNat 32 (ks j))
    if (offset n).toInt < 0 then .throw
    else queryImpl nt prog n permute status offset (offset n).toInt.toNat (fun _ => none) sched1 sched2
  | _ =>
    if b ≠ 0 then
      queryImpl nt prog n permute status (scan (fun _ => BitVec.ofNat 32 b)) (n * b) (fun _ => none)
        sched1 sched2
    else
      queryImpl nt prog n permute status (fun _ => 0) userLen userOut sched1 sched2

end ArborX.Crs.Int32
