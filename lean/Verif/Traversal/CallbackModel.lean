import Verif.Traversal.Model
import Verif.Perm.Model

/-!
# Model of a batch of spatial queries with callbacks

Models `BoundingVolumeHierarchy::query` with a callback (`src/spatial/ArborX_LinearBVH.hpp`
258-313) for spatial predicates: the queries are the iterations of a `parallel_for`, taken in
the order of a space-filling curve or as they come, and they share whatever the callback reads
and writes. One step of a thread visits one node (`ArborX_TreeTraversal.hpp` 97-119); a call of
the callback is part of the step, that is, its effect on the shared data is atomic.
-/

namespace ArborX.Traversal

open Function (update)

variable {α V σ : Type}

/-- A thread: before the test of the only value of a tree with one value
(`operator()(OneLeafTree, int)`, lines 80-90); at a node (`none` is `ROPE_SENTINEL`: the query
has ended); after a bad access. -/
inductive QThr where
  | one
  | at (node : Option ℕ)
  | fault

/-- The data shared by the callbacks, the threads, and the calls made so far: which query, on
which value, and whether the callback answered `early_exit`. -/
structure QState (α σ : Type) where
  user : σ
  thr : ℕ → QThr
  log : List (ℕ × α × Bool)

/-- The queries: `pl i a` is predicate `i` on the indexable of the value `a`, `pv i v` on a volume.
The callback is given the predicate, which carries its index `i`
(`ArborX_AttachIndices.hpp` 54-57), and a value; it changes the shared data and answers whether
to stop (`invoke_callback_and_check_early_exit`, `ArborX_Callbacks.hpp` 96-118). -/
structure Batch (α V σ : Type) where
  n : ℕ
  pl : ℕ → α → Bool
  pv : ℕ → V → Bool
  callback : σ → ℕ → α → σ × Bool

/-- The call of query `i` on the value `a`, after which the thread `t` is at `rope`, or has ended. -/
def Batch.call (Q : Batch α V σ) (s : QState α σ) (t i : ℕ) (a : α) (rope : Option ℕ) : QState α σ :=
  ⟨(Q.callback s.user i a).1,
    update s.thr t (.at (if (Q.callback s.user i a).2 then none else rope)),
    s.log ++ [(i, a, (Q.callback s.user i a).2)]⟩

/-- The thread `t` goes to another state. -/
def QState.goto (s : QState α σ) (t : ℕ) (x : QThr) : QState α σ := ⟨s.user, update s.thr t x, s.log⟩

/-- One step of thread `t`. It executes query `permute t` (`PermutedData::operator()`,
`ArborX_PermutedData.hpp` 32-35). -/
def Batch.step (Q : Batch α V σ) (mem : Mem α V) (permute : ℕ → ℕ) (s : QState α σ) (t : ℕ) : QState α σ :=
  if Q.n ≤ t then s
  else match s.thr t with
    | .fault => s
    | .at none => s
    | .one =>
      match mem.leaf 0 with
      | none => s.goto t .fault
      | some lf =>
        if Q.pl (permute t) lf.value then Q.call s t (permute t) lf.value none
        else s.goto t (.at none)
    | .at (some node) =>
      if node < mem.size then
        match mem.leaf node with
        | none => s.goto t .fault
        | some lf =>
          if Q.pl (permute t) lf.value then Q.call s t (permute t) lf.value lf.rope
          else s.goto t (.at lf.rope)
      else
        match mem.internal (node - mem.size) with
        | none => s.goto t .fault
        | some nd => s.goto t (.at (if Q.pv (permute t) nd.vol then some nd.left else nd.rope))

/-- The dispatch on the size of the tree (`ArborX_TreeTraversal.hpp` 48-66). -/
def startThr (mem : Mem α V) : QThr :=
  if mem.size = 0 then .at none else if mem.size = 1 then .one else .at (some mem.size)

/-- The kernel under a schedule. -/
def Batch.run (Q : Batch α V σ) (mem : Mem α V) (permute : ℕ → ℕ) (u : σ) (sched : List ℕ) : QState α σ :=
  sched.foldl (Q.step mem permute) ⟨u, fun _ => startThr mem, []⟩

/-- The order of the queries: sorted by the Morton codes `code` of the predicates (`ArborX_LinearBVH.hpp`
287-306; `order` is what the library sort does), or as they come. -/
def batchOrder (sort : Bool) (n : ℕ) (code : ℕ → ℕ) (order : ℕ → ℕ) : ℕ → ℕ :=
  if sort then (Perm.sortObjects n code order).2 else fun t => t

/-- All queries have ended. -/
def Batch.Done (Q : Batch α V σ) (s : QState α σ) : Prop := ∀ t < Q.n, s.thr t = .at none

end ArborX.Traversal
