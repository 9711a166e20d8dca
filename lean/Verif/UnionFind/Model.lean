import Mathlib.Logic.Function.Basic
import Mathlib.Data.Int.Basic

/-!
# Model of the concurrent union-find

Models `src/cluster/detail/ArborX_UnionFind.hpp`. Every access to the shared array `_labels`
is one step; threads are interleaved arbitrarily (sequential consistency).
-/

namespace ArborX.UF

open Function (update)

/-- What a thread does with the structure: calls of `merge`, `merge_into`, and comparisons of
two representatives on whose result the rest may depend. -/
inductive Prog where
  | ret
  | merge (i j : ℕ) (k : Prog)
  | into (b j : ℕ) (k : Prog)
  | same (i j : ℕ) (k : Bool → Prog)

/-- Where a thread is inside `representative` (lines 111-129): before reading `_labels(i)`
(line 115), before reading `_labels(curr)` (line 120), before writing `_labels(prev) = next`
(line 122). -/
inductive Find where
  | start (x : ℕ)
  | read (prev curr : ℕ)
  | write (prev curr next : ℕ)

/-- What follows the return of `representative`. -/
inductive Cont where
  | mergeI (j : ℕ) (k : Prog)
  | mergeJ (v : ℕ) (k : Prog)
  | into (b : ℕ) (k : Prog)
  | sameI (j : ℕ) (k : Bool → Prog)
  | sameJ (r : ℕ) (k : Bool → Prog)

/-- Local state of a thread: between operations; inside `representative`; at the top of the
loop of `merge` (line 170) with `vstat` and `ostat`; before the write of `merge_into`
(line 136); after an out-of-bounds access. -/
inductive TS where
  | idle (p : Prog)
  | find (f : Find) (c : Cont)
  | cas (v o : ℕ) (k : Prog)
  | store (b r : ℕ) (k : Prog)
  | fault

/-- Shared array and threads. -/
structure State where
  L : ℕ → ℕ
  thr : ℕ → TS

/-- `n` labels, `nt` threads, the template parameter `DoSerial`. -/
structure Params where
  n : ℕ
  nt : ℕ
  serial : Bool

/-- `representative` returns `r`. -/
def ret (r : ℕ) : Cont → TS
  | .mergeI j k => .find (.start j) (.mergeJ r k)
  | .mergeJ v k => .cas v r k
  | .into b k => .store b r k
  | .sameI j k => .find (.start j) (.sameJ r k)
  | .sameJ r' k => .idle (k (decide (r' = r)))

/-- Start of the next operation. -/
def next : Prog → TS
  | .ret => .idle .ret
  | .merge i j k => .find (.start i) (.mergeI j k)
  | .into b j k => .find (.start j) (.into b k)
  | .same i j k => .find (.start i) (.sameI j k)

/-- Labels accessed by the next step (at the top of the loop of `merge` the larger of the two
variables, also when the loop is about to end). -/
def accessed : TS → List ℕ
  | .find (.start x) _ => [x]
  | .find (.read _ curr) _ => [curr]
  | .find (.write prev _ _) _ => [prev]
  | .cas v o _ => [max v o]
  | .store b _ _ => [b]
  | _ => []

/-- One step of a thread in local state `x`: new labels and new local state.
`representative` lines 115-128; `merge_into` line 136; `merge` lines 155-179: the serial
variant writes without comparison (lines 160-163), the other one compares and swaps
(lines 170-178), the result of the exchange being the old label. -/
def act (serial : Bool) (L : ℕ → ℕ) : TS → (ℕ → ℕ) × TS
  | .idle p => (L, next p)
  | .find (.start x) c =>
    if L x = x then (L, ret (L x) c) else (L, .find (.read x (L x)) c)
  | .find (.read prev curr) c =>
    if curr > L curr then (L, .find (.write prev curr (L curr)) c) else (L, ret curr c)
  | .find (.write prev curr next) c => (update L prev next, .find (.read curr next) c)
  | .cas v o k =>
    if serial then
      if v < o then (update L o v, .idle k) else (update L v o, .idle k)
    else if v = o then (L, .idle k)
    else if v < o then (if L o = o then update L o v else L, .cas v (L o) k)
    else (if L v = v then update L v o else L, .cas (L v) o k)
  | .store b r k => (update L b r, .idle k)
  | .fault => (L, .fault)

/-- One step of thread `t`. -/
def step (P : Params) (s : State) (t : ℕ) : State :=
  if P.nt ≤ t then s
  else if (accessed (s.thr t)).any (fun x => decide (P.n ≤ x)) then
    { s with thr := update s.thr t .fault }
  else ⟨(act P.serial s.L (s.thr t)).1, update s.thr t (act P.serial s.L (s.thr t)).2⟩

/-- The threads run their programs under a schedule. -/
def run (P : Params) (prog : ℕ → Prog) (L0 : ℕ → ℕ) (sched : List ℕ) : State :=
  sched.foldl (step P) ⟨L0, fun t => .idle (prog t)⟩

/-- All threads have finished. -/
def Complete (P : Params) (s : State) : Prop := ∀ t < P.nt, s.thr t = .idle .ret

/-- Programs that merge the pairs of a list. -/
def ofMerges : List (ℕ × ℕ) → Prog
  | [] => .ret
  | p :: ps => .merge p.1 p.2 (ofMerges ps)

end ArborX.UF
