import Verif.Nearest.NanModel

/-!
# Model: minima and maxima of views

The threads of a `Kokkos::parallel_reduce` share out the indices, reduce their own ones from the identity of the reduction, and the partial results are joined in
some order. Entries are `some x`, or `none` for NaN.
-/

namespace ArborX.Reduce

open Nearest

variable {D : Type} [LinearOrder D]

/-- How the indices are shared out and the partial results joined. -/
inductive Schedule where
  | thread (items : List ℕ)
  | join (dest src : Schedule)

/-- The indices of a schedule. -/
def Schedule.items : Schedule → List ℕ
  | .thread l => l
  | .join a b => a.items ++ b.items

/-- A schedule for `RangePolicy(space, 0, n)`: every index once. -/
def Schedule.For (S : Schedule) (n : ℕ) : Prop := S.items.Perm (List.range n)

/-- The body of the loop of `min_reduce` and the first half of the one of `minmax_reduce` (`src/kokkos_ext/ArborX_KokkosExtMinMaxReduce.hpp` 47-50, 80-81). -/
def minBody (v : ℕ → Option D) (update : Option D) (i : ℕ) : Option D := if nanLt (v i) update then v i else update

/-- The body of the loop of `max_reduce`, `if (v(i) > update)` (107-108); `if (partial_max < val)` (51-54) is the same test. -/
def maxBody (v : ℕ → Option D) (update : Option D) (i : ℕ) : Option D := if nanLt update (v i) then v i else update

/-- `Kokkos::Min::join(dest, src)`, by its specification: `if (src < dest) dest = src`. -/
def minJoin (dest src : Option D) : Option D := if nanLt src dest then src else dest

/-- `Kokkos::Max::join(dest, src)`, by its specification: `if (src > dest) dest = src`. -/
def maxJoin (dest src : Option D) : Option D := if nanLt dest src then src else dest

/-- `Kokkos::parallel_reduce`: `init` is the identity of the reduction. -/
def run {α : Type} (init : α) (body : α → ℕ → α) (join : α → α → α) : Schedule → α
  | .thread l => l.foldl body init
  | .join a b => join (run init body join a) (run init body join b)

/-- `min_reduce` (60-85); `top` is the identity of `Kokkos::Min`, the largest finite value of the type. `none` is a failed assertion (line 72). -/
def minReduce (top : D) (n : ℕ) (v : ℕ → Option D) (S : Schedule) : Option (Option D) :=
  if n > 0 then some (run (some top) (minBody v) minJoin S) else none

/-- `max_reduce` (87-112); `bot` is the identity of `Kokkos::Max`, the smallest finite value of the type. -/
def maxReduce (bot : D) (n : ℕ) (v : ℕ → Option D) (S : Schedule) : Option (Option D) :=
  if n > 0 then some (run (some bot) (maxBody v) maxJoin S) else none

/-- `minmax_reduce` (23-58): both reductions in one loop, joined component by component. -/
def minmaxReduce (bot top : D) (n : ℕ) (v : ℕ → Option D) (S : Schedule) : Option (Option D × Option D) :=
  if n > 0 then
    some (run (some top, some bot) (fun u i => (minBody v u.1 i, maxBody v u.2 i)) (fun d s => (minJoin d.1 s.1, maxJoin d.2 s.2)) S)
  else none

end ArborX.Reduce
