import Mathlib.Data.List.Basic

/-!
# Model of the heap algorithms and of the priority queue

Models `src/misc/ArborX_Heap.hpp` and `src/misc/ArborX_PriorityQueue.hpp`. An array
(the range starting at `first`) is a list; every read or write outside of it makes
the result `none`. `comp` is the comparison functor.
-/

namespace ArborX.Heap

variable {T : Type} (comp : T → T → Bool)

/-- `*(first + i) = v`. -/
def write (a : List T) (i : ℕ) (v : T) : Option (List T) :=
  if i < a.length then some (a.set i v) else none

/-- `bubbleUp` (`ArborX_Heap.hpp` 40-54). Unsigned arithmetic: `(pos - 1) / 2` is
used only for `pos > top ≥ 0`. -/
def bubbleUp (a : List T) (pos top : ℕ) (val : T) : Option (List T) :=
  if _h : top < pos then
    match a[(pos - 1) / 2]? with
    | none => none
    | some p =>
      if comp p val then
        match write a pos p with
        | none => none
        | some a' => bubbleUp a' ((pos - 1) / 2) top val
      else write a pos val
  else write a pos val
  termination_by pos

/-- `pushHeap` (`ArborX_Heap.hpp` 56-70) on the first `n` elements. -/
def pushHeap (a : List T) (n : ℕ) : Option (List T) :=
  if 1 < n then
    match a[n - 1]? with
    | none => none
    | some v => bubbleUp comp a (n - 1) 0 v
  else some a

/-- The choice of the child in `bubbleDown` (lines 77-80 and 86-88). -/
def pickChild (a : List T) (pos len : ℕ) : Option ℕ :=
  if 2 * pos + 1 + 1 < len then
    match a[2 * pos + 1]?, a[2 * pos + 1 + 1]? with
    | some x, some y => some (if comp x y then 2 * pos + 1 + 1 else 2 * pos + 1)
    | _, _ => none
  else some (2 * pos + 1)

theorem pickChild_gt {a : List T} {pos len c : ℕ} (h : pickChild comp a pos len = some c) :
    pos < c := by
  unfold pickChild at h
  split at h
  · split at h
    · simp at h; split at h <;> omega
    · simp at h
  · simp at h; omega

/-- `bubbleDown` (`ArborX_Heap.hpp` 72-92). -/
def bubbleDown (a : List T) (pos len : ℕ) (val : T) : Option (List T) :=
  match _hc : pickChild comp a pos len with
  | none => none
  | some child =>
    if _h : child < len then
      match a[child]? with
      | none => none
      | some c =>
        if comp val c then
          match write a pos c with
          | none => none
          | some a' => bubbleDown a' child len val
        else write a pos val
    else write a pos val
  termination_by len - pos
  decreasing_by have := pickChild_gt comp _hc; omega

/-- `popHeap` (`ArborX_Heap.hpp` 94-109) on the first `n` elements. -/
def popHeap (a : List T) (n : ℕ) : Option (List T) :=
  if 1 < n then
    match a[0]?, a[n - 1]? with
    | some value, some l =>
      match bubbleDown comp a 0 (n - 1) l with
      | none => none
      | some a' => write a' (n - 1) value
    | _, _ => none
  else some a

/-- `makeHeap` (`ArborX_Heap.hpp` 111-118): `k` elements remain to be pushed after the
first `n`. -/
def makeHeapLoop (a : List T) (n : ℕ) : ℕ → Option (List T)
  | 0 => some a
  | k + 1 =>
    match pushHeap comp a (n + 1) with
    | none => none
    | some a' => makeHeapLoop a' (n + 1) k

/-- `makeHeap` on a whole array. -/
def makeHeap (a : List T) : Option (List T) := makeHeapLoop comp a 0 a.length

/-- `sortHeap` (`ArborX_Heap.hpp` 120-126) on the first `n` elements. -/
def sortHeap (a : List T) : ℕ → Option (List T)
  | 0 => some a
  | n + 1 =>
    match popHeap comp a (n + 1) with
    | none => none
    | some a' => sortHeap a' n

/-! The priority queue (`src/misc/ArborX_PriorityQueue.hpp`): `c` is the content of the
container, `cap` its capacity (`UnmanagedStaticVector`). -/

/-- `PriorityQueue::top` (lines 60-61). -/
def top (c : List T) : Option T := c[0]?

/-- `PriorityQueue::push` (lines 64-73); exceeding the capacity writes past the
buffer. -/
def push (cap : ℕ) (c : List T) (v : T) : Option (List T) :=
  if c.length < cap then pushHeap comp (c ++ [v]) (c.length + 1) else none

/-- `PriorityQueue::pop` (lines 80-84); on an empty queue `popBack` is undefined. -/
def pop (c : List T) : Option (List T) :=
  if c.length = 0 then none
  else match popHeap comp c c.length with
    | none => none
    | some a => some a.dropLast

/-- `PriorityQueue::popPush` (lines 88-94); `KOKKOS_ASSERT(!empty())`. -/
def popPush (c : List T) (v : T) : Option (List T) :=
  if c.length = 0 then none else bubbleDown comp c 0 c.length v

end ArborX.Heap
