import Verif.Distributed.Distributor
import Verif.Construction.IntModel

/-!
# Model: the `Distributor` with numbers of type `int` and messages counted in bytes

`Distributor.lean` counts the items of a message with natural numbers. Here the offsets are of type `int` (a value that does not fit is a fault), and MPI is
told the size of a message in bytes, in an argument of type `int`: `src/distributed/detail/ArborX_Distributor.hpp` 385-391 and 402-404 pass a `size_t`, which is
converted modulo `2 ^ 32`.
-/

namespace ArborX.Distributed

/-- The argument `count` of `MPI_Irecv` and `MPI_Isend` for `n` items of `sz` bytes (lines 385-389, 403): the product is a `size_t`, the conversion to `int` keeps the
lowest 32 bits. -/
def byteCount (sz n : ℕ) : ℤ := ((n * sz : ℕ) : ℤ).bmod (2 ^ 32)

/-- The number of items that `c` bytes contain, the last one perhaps only partially. -/
def itemsBegun (sz c : ℕ) : ℕ := c / sz + if c % sz = 0 then 0 else 1

/-- What is sent of the items `m`: nothing (`none`, MPI reports an error) if the count is negative, otherwise as many bytes as the count says. An item of which only
a part is sent is not usable; it is given as `none`. -/
def onWire {T : Type} (sz : ℕ) (m : List (Option T)) : Option (List (Option T)) :=
  let c := byteCount sz m.length
  if c < 0 then none else some (m.take (c.toNat / sz) ++ if c.toNat % sz = 0 then [] else [none])

/-- The offsets of a distributor are of type `int` (lines 542-543, computed at 143-190 and 470-531); `extent_int` (line 245) is the last offset. -/
def Plan.ints (p : Plan) : List ℤ := (p.layout.destOffsets ++ p.srcOffsets).map (fun n : ℕ => (n : ℤ))

/-- `createFromSends(space, destination_ranks)` (233-273) with `int`s. Simplification: an overflow on one process fails on that process only. -/
def createFromSendsI (E : Env) (P : ℕ) (dest : ℕ → List ℤ) (r : ℕ) : Option Plan :=
  (createFromSends E P dest r).bind (fun p => if AreInts p.ints then some p else none)

variable {T : Type}

/-- The messages process `s` sends to process `r` (397-406), as sent. -/
def messagesI (E : Env) (sz s r : ℕ) (p : Plan) (exports : List T) : Option (List (List (Option T))) :=
  (messages E s r p exports).bind (fun l => l.mapM (onWire sz))

/-- Completion of the receive posted for source `i` (380-391). A negative count, and a message with more bytes than the count, are errors. -/
def receiveI (sz : ℕ) (p : Plan) (i : ℕ) (msgs : Option (List (List (Option T)))) (buf : ℕ → Option T) : Option (ℕ → Option T) :=
  match msgs with
  | some [m] =>
    let c := byteCount sz (p.srcOffsets.getD (i + 1) 0 - p.srcOffsets.getD i 0)
    if c < 0 then none
    else if m.length ≤ itemsBegun sz c.toNat then some (store (p.srcOffsets.getD i 0) m buf)
    else none
  | _ => none

/-- One receive, posted for source `i` if it is not the process itself. -/
def receiveStepI (sz r : ℕ) (p : Plan) (msgs : ℕ → Option (List (List (Option T)))) (b : Option (ℕ → Option T)) (i : ℕ) :
    Option (ℕ → Option T) :=
  match b, p.sources[i]? with
  | some buf, some s => if s = (r : ℤ) then some buf else receiveI sz p i (msgs s.toNat) buf
  | _, _ => none

/-- Some process makes an invalid call of `MPI_Isend`. The default error handler of MPI ends all processes. -/
def invalidSend (E : Env) (P sz : ℕ) (plan : ℕ → Plan) (exports : ℕ → List T) : Bool :=
  (List.range P).any (fun s => (List.range P).any (fun r => decide (s ≠ r) && (messagesI E sz s r (plan s) (exports s)).isNone))

/-- `doPostsAndWaits` (275-440) on process `r` for items of `sz` bytes: the content of `imports`, of size `n`. -/
def exchangeI (E : Env) (P sz : ℕ) (plan : ℕ → Plan) (exports : ℕ → List T) (r n : ℕ) : Option (List (Option T)) :=
  let msgs := fun s => messagesI E sz s r (plan s) (exports s)
  if invalidSend E P sz plan exports then none
  else if n ≠ (plan r).imports then none
  else if (List.range P).any (fun s => unexpected r (plan r) s (msgs s)) then none
  else
    match permutedExports E r (plan r) (exports r) with
    | none => none
    | some permuted =>
      match (E.arrive r (plan r).sources.length).foldl (receiveStepI sz r (plan r) msgs) (some (fun _ => none)) with
      | none => none
      | some importsComm => finish E r n (plan r) permuted importsComm

end ArborX.Distributed
