import Verif.Mst.Edge
import Verif.Perm.Model
import Mathlib.Data.Int.Basic

/-!
# Model of the dendrogram built by union-find

Models `src/cluster/ArborX_Dendrogram.hpp` and `dendrogramUnionFindHost`
(`src/cluster/detail/ArborX_DendrogramHelpers.hpp` 29-84). The loop runs on one host thread, the
union-find is `UnionFind<Labels, true>` (`src/cluster/detail/ArborX_UnionFind.hpp`). Accesses out
of bounds yield `none`.
-/

namespace ArborX.Dendrogram

open Function (update)
open Mst (WeightedEdge)

/-- The loop of `representative` (`ArborX_UnionFind.hpp` 122-131) on `nv` labels. -/
def repLoop (nv : ℕ) (L : ℕ → ℕ) (prev curr : ℕ) : Option ((ℕ → ℕ) × ℕ) :=
  if nv ≤ curr then none
  else if L curr < curr then repLoop nv (update L prev (L curr)) curr (L curr)
  else some (L, curr)
termination_by curr

/-- `representative` (lines 119-133): new labels and the result. -/
def representative (nv : ℕ) (L : ℕ → ℕ) (i : ℕ) : Option ((ℕ → ℕ) × ℕ) :=
  if nv ≤ i then none
  else if L i ≠ i then repLoop nv L i (L i)
  else some (L, i)

/-- `merge` with `DoSerial = true` (lines 144-172). -/
def merge (nv : ℕ) (L : ℕ → ℕ) (i j : ℕ) : Option (ℕ → ℕ) :=
  match representative nv L i with
  | none => none
  | some (L1, v) =>
    match representative nv L1 j with
    | none => none
    | some (L2, o) => some (if v < o then update L2 o v else update L2 v o)

/-- Views of `dendrogramUnionFindHost`: `labels`, `set_edges_host` (`none` is `UNDEFINED`) and
`parents_host` (`none`: not yet written). -/
structure State where
  L : ℕ → ℕ
  set : ℕ → Option ℕ
  par : ℕ → Option ℤ

/-- The node that becomes a child for the representative `k` (lines 66-72): the last edge of the
component or, for a component without edge, its vertex. -/
def childOf (m : ℕ) (set : ℕ → Option ℕ) (k : ℕ) : ℕ :=
  match set k with
  | some c => c
  | none => m + k

/-- One iteration of the loop over the edges (lines 61-78). -/
def step (m : ℕ) (edge : ℕ → ℕ × ℕ) (s : State) (e : ℕ) : Option State :=
  match representative (m + 1) s.L (edge e).1 with
  | none => none
  | some (L1, i) =>
    match representative (m + 1) L1 (edge e).2 with
    | none => none
    | some (L2, j) =>
      let par := update (update s.par (childOf m s.set i) (some e)) (childOf m s.set j) (some e)
      match merge (m + 1) L2 i j with
      | none => none
      | some L3 =>
        match representative (m + 1) L3 i with
        | none => none
        | some (L4, r) => some ⟨L4, update s.set r (some e), par⟩

/-- The loop (lines 61-78) for the first `k` edges. -/
def loop (m : ℕ) (edge : ℕ → ℕ × ℕ) : ℕ → Option State
  | 0 => some ⟨fun i => i, fun _ => none, fun _ => none⟩
  | k + 1 => (loop m edge k).bind (fun s => step m edge s k)

/-- `dendrogramUnionFindHost` on `m` edges (lines 29-84): without edges the store of the root
(line 79) is out of bounds. -/
def unionFindHost (m : ℕ) (edge : ℕ → ℕ × ℕ) : Option (ℕ → Option ℤ) :=
  if m = 0 then none
  else (loop m edge m).map (fun s => update s.par (m - 1) (some (-1)))

/-- The constructor of `Dendrogram` (`ArborX_Dendrogram.hpp` 48-79): `_parents` and
`_parent_heights`. `splitEdges` (lines 81-96) copies; `σ` is the permutation of the library sort
called by `sortByKey`. -/
def dendrogram {W : Type} [DecidableEq W] (m : ℕ) (edges : ℕ → WeightedEdge W) (σ : ℕ → ℕ) :
    Option ((ℕ → Option ℤ) × (ℕ → W)) :=
  let s := Perm.sortByKey m (fun e => (edges e).weight) (fun e => ((edges e).source, (edges e).target)) σ
  (unionFindHost m s.2).map (fun par => (par, s.1))

end ArborX.Dendrogram
