import Verif.UnionFind.Model

/-!
# Union-find on a machine with weak memory

`representative` reads and writes the labels with plain loads and stores while other threads
write them (`src/cluster/detail/ArborX_UnionFind.hpp` lines 81-106 argue that these races are
benign). Here nothing orders such accesses: a load returns any value which the location has
ever held, and a store may end up before the stores that were executed earlier. Only the
compare-and-swap is atomic. Not covered: torn accesses, and loads that return the value of a
store which is executed later.
-/

namespace ArborX.UF

open Function (update)

/-- The labels: the newest value of every location in its modification order, and all values
ever written to it, the initial value included. -/
structure Labels where
  L : ℕ → ℕ
  hist : ℕ → List ℕ

/-- What the memory does in a step: the value a load returns (by its place in the history;
`none` or a place that does not exist: the newest), and whether a store becomes the newest value of its location. -/
structure Choice where
  read : Option ℕ
  last : Bool

/-- A plain load. -/
def Labels.load (m : Labels) (x : ℕ) (c : Option ℕ) : ℕ := (c.bind ((m.hist x)[·]?)).getD (m.L x)

/-- A plain store. It is never placed before the initial value: if the location has not been
written before, the store is the newest. -/
def Labels.store (m : Labels) (x v : ℕ) (last : Bool) : Labels :=
  ⟨if last = true ∨ (m.hist x).length ≤ 1 then update m.L x v else m.L, update m.hist x (v :: m.hist x)⟩

/-- `Kokkos::atomic_compare_exchange(&_labels(x), x, v)` (lines 173-177). It succeeds if and
only if the newest value is `x`; if it fails it returns some value other than `x` which the location has held. -/
def Labels.cas (m : Labels) (x v : ℕ) (c : Option ℕ) : Labels × ℕ :=
  if m.L x = x then (⟨update m.L x v, update m.hist x (v :: m.hist x)⟩, x)
  else (m, if m.load x c = x then m.L x else m.load x c)

/-- One step of a thread as `act`, without the serial variant: lines 115-128, 136, 170-178. -/
def actW (m : Labels) (c : Choice) : TS → Labels × TS
  | .idle p => (m, next p)
  | .find (.start x) k =>
    if m.load x c.read = x then (m, ret (m.load x c.read) k) else (m, .find (.read x (m.load x c.read)) k)
  | .find (.read prev curr) k =>
    if curr > m.load curr c.read then (m, .find (.write prev curr (m.load curr c.read)) k) else (m, ret curr k)
  | .find (.write prev curr next) k => (m.store prev next c.last, .find (.read curr next) k)
  | .cas v o k =>
    if v = o then (m, .idle k)
    else if v < o then ((m.cas o v c.read).1, .cas v (m.cas o v c.read).2 k)
    else ((m.cas v o c.read).1, .cas (m.cas v o c.read).2 o k)
  | .store b r k => (m.store b r c.last, .idle k)
  | .fault => (m, .fault)

/-- Labels and threads. -/
structure WState where
  mem : Labels
  thr : ℕ → TS

/-- One step of thread `t`, with the check of the bounds. -/
def stepW (n nt : ℕ) (s : WState) (e : ℕ × Choice) : WState :=
  if nt ≤ e.1 then s
  else if (accessed (s.thr e.1)).any (fun x => decide (n ≤ x)) then
    ⟨s.mem, update s.thr e.1 .fault⟩
  else ⟨(actW s.mem e.2 (s.thr e.1)).1, update s.thr e.1 (actW s.mem e.2 (s.thr e.1)).2⟩

/-- `nt` threads run their programs on `n` labels. The kernel before has finished, so that the
history of every label consists of its initial value. -/
def runW (n nt : ℕ) (prog : ℕ → Prog) (L0 : ℕ → ℕ) (sched : List (ℕ × Choice)) : WState :=
  sched.foldl (stepW n nt) ⟨⟨L0, fun x => [L0 x]⟩, fun t => .idle (prog t)⟩

/-- All threads have finished. -/
def CompleteW (nt : ℕ) (s : WState) : Prop := ∀ t < nt, s.thr t = .idle .ret

end ArborX.UF
