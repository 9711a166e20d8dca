import Verif.Fp.Model
import Verif.Nearest.NanModel
import Mathlib.Order.LatticeIntervals

/-!
# Model: points and boxes with NaN and infinite coordinates

As `Fp.Model`, but the coordinates are any floating-point numbers, infinities and NaN included. Comparisons with NaN are false, the difference of equal infinities is
NaN, and operations on NaN give NaN.
-/

namespace ArborX.Fp

open BVH Nearest

/-- A floating-point number: `none` is NaN. -/
abbrev Num := Option EReal

variable {D : ℕ}

/-- `x - y`. -/
noncomputable def Format.nsub (F : Format) : Num → Num → Num
  | some x, some y =>
    if (x = ⊤ ∧ y = ⊤) ∨ (x = ⊥ ∧ y = ⊥) then none
    else if x = ⊤ ∨ y = ⊥ then some ⊤
    else if x = ⊥ ∨ y = ⊤ then some ⊥
    else some (F.rnd (x.toReal - y.toReal))
  | _, _ => none

/-- `s + t * t` for `s` not negative (see `Format.madd`). -/
noncomputable def Format.nstep (F : Format) : Num → Num → Num
  | some s, some t => some (F.madd s t)
  | _, _ => none

/-- `distance(Point, Point)` (`src/geometry/algorithms/ArborX_Distance.hpp` 52-69). -/
noncomputable def Format.ndist (F : Format) (a b : Fin D → Num) : Num :=
  ((List.finRange D).foldl (fun s d => F.nstep s (F.nsub (b d) (a d))) (some 0)).map F.sqrt

/-- `closestPoint(Point, Box)` (`src/geometry/algorithms/ArborX_ClosestPoint.hpp` 48-66). -/
noncomputable def nclosest (p lo hi : Fin D → Num) (d : Fin D) : Num :=
  if nanLt (p d) (lo d) then lo d else if nanLt (hi d) (p d) then hi d else p d

/-- `distance(Point, Box)` (`ArborX_Distance.hpp` 71-79). -/
noncomputable def Format.ndistBox (F : Format) (p lo hi : Fin D → Num) : Num := F.ndist p (nclosest p lo hi)

/-- A value of the tree. -/
inductive NGeo (D : ℕ) where
  | point (p : Fin D → Num)
  | box (lo hi : Fin D → Num)

/-- The geometry of a predicate `intersects`. -/
inductive NQuery (D : ℕ) where
  | box (lo hi : Fin D → Num)
  | point (p : Fin D → Num)
  | sphere (c : Fin D → Num) (r : Num)

/-- `intersects(Point, Box)` (`src/geometry/algorithms/ArborX_Intersects.hpp` 66-79). -/
noncomputable def ninBox (p lo hi : Fin D → Num) : Bool := (List.finRange D).all (fun d => !(nanLt (hi d) (p d) || nanLt (p d) (lo d)))

/-- `intersects(Box, Box)` (50-64). -/
noncomputable def nboxes (lo hi lo' hi' : Fin D → Num) : Bool := (List.finRange D).all (fun d => !(nanLt (hi' d) (lo d) || nanLt (hi d) (lo' d)))

/-- `intersects(geometry, geometry)` (50-90, 104-113); there is no test of a point and a point. -/
noncomputable def Format.nintersects (F : Format) : NQuery D → NGeo D → Bool
  | .box lo hi, .point p => ninBox p lo hi
  | .box lo hi, .box lo' hi' => nboxes lo hi lo' hi'
  | .point p, .box lo hi => ninBox p lo hi
  | .point _, .point _ => false
  | .sphere c r, .point p => nanLe (F.ndist c p) r
  | .sphere c r, .box lo hi => nanLe (F.ndistBox c lo hi) r

/-- The boxes in the tree: corners which are not NaN, the empty box `Box{}` (`src/geometry/ArborX_Box.hpp` 33-43) expanded. The smaller of two boxes is
contained in the other; the join is `expand(Box, Box)` (`src/geometry/algorithms/ArborX_Expand.hpp` 60-78), with corners that are not NaN. -/
abbrev NBound (D : ℕ) (M : ℝ) : Type :=
  Set.Ici ((OrderDual.toDual (fun _ => (M : EReal)), fun _ => -(M : EReal)) : (Fin D → EReal)ᵒᵈ × (Fin D → EReal))

/-- The lower corner. -/
def NBound.lo {M : ℝ} (v : NBound D M) (d : Fin D) : Num := some (OrderDual.ofDual v.1.1 d)

/-- The upper corner. -/
def NBound.hi {M : ℝ} (v : NBound D M) (d : Fin D) : Num := some (v.1.2 d)

/-- `Kokkos::min(b, x)`, that is `x < b ? x : b`, where `b` is not NaN. -/
noncomputable def minWith (b : EReal) (x : Num) : EReal := if nanLt x (some b) then x.getD b else b

/-- `Kokkos::max(b, x)`, that is `b < x ? x : b`. -/
noncomputable def maxWith (b : EReal) (x : Num) : EReal := if nanLt (some b) x then x.getD b else b

lemma minWith_le (b : EReal) (x : Num) : minWith b x ≤ b := by
  unfold minWith
  cases x with
  | none => simp [nanLt]
  | some x => by_cases h : x < b <;> simp [nanLt, h, le_of_lt]

lemma le_maxWith (b : EReal) (x : Num) : b ≤ maxWith b x := by
  unfold maxWith
  cases x with
  | none => simp [nanLt]
  | some x => by_cases h : b < x <;> simp [nanLt, h, le_of_lt]

/-- `Box{}` expanded by a point or a box (`ArborX_Expand.hpp` 43-78). -/
noncomputable def NGeo.bound (M : ℝ) (g : NGeo D) : NBound D M :=
  ⟨(OrderDual.toDual (fun d => minWith M (match g with | .point p => p d | .box lo _ => lo d)),
    fun d => maxWith (-M) (match g with | .point p => p d | .box _ hi => hi d)),
    ⟨fun _ => minWith_le _ _, fun _ => le_maxWith _ _⟩⟩

/-- What the constructor works on (see `Scene`). The codes are arbitrary: the conversion of a NaN to an integer in the computation of a Morton code
can have any result. -/
structure NScene (D : ℕ) where
  geo : List (NGeo D)
  M : ℝ
  code : ℕ → BitVec 64
  perm : ℕ → ℕ

/-- The value `i`. -/
def NScene.at (S : NScene D) (i : ℕ) : NGeo D := S.geo.getD i (.point fun _ => none)

/-- The input of the construction (`src/spatial/ArborX_LinearBVH.hpp` 171-255), the values represented by their index. -/
noncomputable def NScene.input (S : NScene D) : Input ℕ (NBound D S.M) 64 where
  n := S.geo.length
  values := fun i => i
  vol := fun i => (S.at i).bound S.M
  code := S.code
  perm := S.perm

/-- `Intersects::operator()` (`src/spatial/detail/ArborX_Predicates.hpp` 95-101) on a leaf. -/
noncomputable def NScene.leafTest (S : NScene D) (F : Format) (Q : NQuery D) (i : ℕ) : Bool := F.nintersects Q (S.at i)

/-- The same on an internal node. -/
noncomputable def NScene.nodeTest (S : NScene D) (F : Format) (Q : NQuery D) (v : NBound D S.M) : Bool := F.nintersects Q (.box v.lo v.hi)

/-- `distance(Point, geometry)`. -/
noncomputable def Format.ndistance (F : Format) (p : Fin D → Num) : NGeo D → Num
  | .point x => F.ndist p x
  | .box lo hi => F.ndistBox p lo hi

/-- `Nearest::distance` (`ArborX_Predicates.hpp` 71-76) for the predicate `nearest(p, k)`. -/
noncomputable def NScene.nearest (S : NScene D) (F : Format) (p : Fin D → Num) (k : ℕ) : NanQuery ℕ (NBound D S.M) EReal where
  k := k
  dl := fun i => F.ndistance p (S.at i)
  dv := fun v => F.ndistBox p v.lo v.hi
  zero := 0
  inf := ⊤
  cap := 64

end ArborX.Fp
