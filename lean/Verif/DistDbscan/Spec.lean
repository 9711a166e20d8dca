import Verif.DistDbscan.Model
import Verif.DistDbscan.Views

/-!
# What the distributed DBSCAN must compute (C48)
-/

namespace ArborX.DistDbscan

open Dbscan

variable {X V : Type} {w : ℕ}

/-- Points `i` and `j` of a list are within the radius (irrelevant for indices out of range). -/
def nearOf (near : X → X → Bool) (l : List X) (i j : ℕ) : Bool :=
  match l[i]?, l[j]? with
  | some p, some q => near p q
  | _, _ => true

/-- The label of point `i`. -/
def labelAt (l : List ℤ) (i : ℕ) : ℤ := l.getD i (-1)

/-- The points of all processes. -/
def In.all (D : In X V) : List X := (List.range D.P).flatMap D.points

/-- What the local clustering has to do: a clustering of its points, with the smallest core point of a cluster as its label. This is what
`fdbscan_correct`, `fdbscan_star_correct` and their versions for dense boxes say. -/
def XEnv.Local (E : XEnv X w) (D : In X V) (star : Bool) : Prop :=
  ∀ r < D.P, ∀ pts : List X, pts.length ≤ D.all.length → ∃ l, E.dbscan r pts = some l ∧ l.length = pts.length ∧
    IsClustering star pts.length (nearOf D.near pts) D.minPts (labelAt l) ∧ Canonical pts.length (nearOf D.near pts) D.minPts (labelAt l)

/-- The index among all points of the `i`-th point that process `r` works on: its own points, and then its ghosts. -/
def In.seen (D : In X V) (r : ℕ) (ids : List ℕ) (ranks : List ℤ) (i : ℕ) : ℕ :=
  if i < (D.points r).length then D.rankOffset r + i
  else match ranks[i - (D.points r).length]?, ids[i - (D.points r).length]? with
    | some rk, some id => D.rankOffset rk.toNat + id
    | _, _ => D.all.length

/-- `x` is a label that some process finds for the point `g` in its local clustering (after step 3). -/
def In.Labelled [SemilatticeSup V] [OrderBot V] (D : In X V) (E : XEnv X w) (fuel g : ℕ) (x : ℤ) : Prop :=
  ∃ gp gi gr, D.ghosts E fuel = some (gp, gi, gr) ∧ ∃ r < D.P, ∃ l, D.labels E r (gp r) (gi r) (gr r) = some l ∧
    ∃ i : ℕ, D.seen r (gi r) (gr r) i = g ∧ l[i]? = some x ∧ x ≠ -1

/-- Every cluster has at most three different labels before the merge. -/
def In.FewLabels [SemilatticeSup V] [OrderBot V] (D : In X V) (E : XEnv X w) (fuel : ℕ) : Prop :=
  ∀ g < D.all.length, Core D.all.length (nearOf D.near D.all) D.minPts g → ∃ x y z : ℤ, ∀ h < D.all.length,
    Chained D.all.length (nearOf D.near D.all) D.minPts g h → ∀ c, D.Labelled E fuel h c → c = x ∨ c = y ∨ c = z

end ArborX.DistDbscan
