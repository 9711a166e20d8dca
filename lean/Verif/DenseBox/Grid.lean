import Mathlib.Algebra.Order.Floor.Ring
import Mathlib.Algebra.Order.Archimedean.Basic
import Mathlib.Data.Rat.Floor
import Mathlib.Algebra.BigOperators.Fin
import Mathlib.Data.Fin.VecNotation
import Mathlib.Data.List.FinRange
import Mathlib.Algebra.BigOperators.Group.List.Basic
import Mathlib.Algebra.Order.BigOperators.Group.Finset
import Mathlib.Tactic.Linarith
import Mathlib.Tactic.Ring
import Mathlib.Tactic.Positivity
import Mathlib.Tactic.FieldSimp
import Mathlib.Tactic.FinCases
import Mathlib.Tactic.NormNum

/-!
# The Cartesian grid (C21)

Models `src/cluster/detail/ArborX_CartesianGrid.hpp` with exact coordinates: an ordered field
`K` in place of the floating-point type. Sizes are 64-bit, the variable `i` of `cellIndex` is a
32-bit `int`.
-/

namespace ArborX.DenseBox

variable {K : Type} [Field K] [LinearOrder K] [IsStrictOrderedRing K] [FloorRing K] {d : ℕ}

/-- Members `_bounds`, `_h`, `_n` (lines 139-141). -/
structure Grid (K : Type) (d : ℕ) where
  lo : Fin d → K
  hi : Fin d → K
  h : Fin d → K
  n : Fin d → ℕ

/-- The loop that catches overflow of cell indices (lines 113-119), for the sizes from the
current dimension on. -/
def sizeCheck : ℕ → List ℕ → Bool
  | m, a :: b :: rest => decide (b < m / a) && sizeCheck (m / a) (b :: rest)
  | _, _ => true

/-- `_n[d]` (lines 98-107). -/
def cellCount (delta h : K) : ℕ := if delta ≠ 0 then (⌈delta / h⌉).toNat else 1

/-- The constructor with one cell length (lines 30-37) and `buildGrid` (lines 92-137). `none`:
an assertion fails or an exception is thrown, or the number of cells along a dimension does not
fit `size_t`. `prec` is `5 * epsilon`; for a zero corner the quotient of line 131 is infinite
and the test is false. -/
def Grid.build (lo hi : Fin d → K) (h prec : K) : Option (Grid K d) :=
  if ¬ 0 < h then none
  else
    let n := fun a => cellCount (hi a - lo a) h
    if (List.finRange d).any (fun a => decide (n a = 0) || decide (2 ^ 64 ≤ n a)) then none
    else if !sizeCheck (2 ^ 64 - 1) ((List.finRange d).map n) then none
    else if (List.finRange d).any (fun a => decide (lo a ≠ 0) && decide (|h / lo a| < prec)) then none
    else some ⟨lo, hi, fun _ => h, n⟩

/-- The coordinate of the cell of a point along one dimension (line 59). `none`: the value does
not fit an `int` (undefined behaviour), or is negative, that is the point is out of bounds. -/
def Grid.coord (g : Grid K d) (p : Fin d → K) (a : Fin d) : Option ℕ :=
  let i := ⌊(p a - g.lo a) / g.h a⌋
  if 0 ≤ i ∧ i < 2 ^ 31 then some i.toNat else none

/-- The loop of `cellIndex` (lines 57-61) over the dimensions of a list, last one first; `size_t`
arithmetic. -/
def Grid.index (g : Grid K d) (p : Fin d → K) : List (Fin d) → Option ℕ
  | [] => some 0
  | a :: as =>
    match g.coord p a, Grid.index g p as with
    | some i, some s => some ((s * g.n a + i) % 2 ^ 64)
    | _, _ => none

/-- `cellIndex` (lines 49-63). -/
def Grid.cellIndex (g : Grid K d) (p : Fin d → K) : Option ℕ := g.index p (List.finRange d)

/-- The loop of `cellBox` (lines 73-80) over the dimensions of a list, first one first. -/
def Grid.boxLoop (g : Grid K d) : List (Fin d) → ℕ → (Fin d → K) × (Fin d → K)
  | [], _ => (g.lo, g.lo)
  | a :: as, c =>
    let i := c % g.n a
    let r := Grid.boxLoop g as (c / g.n a)
    (Function.update r.1 a (g.lo a + i * g.h a), Function.update r.2 a (g.lo a + (i + 1) * g.h a))

/-- `cellBox` (lines 65-82): corners of the box of a cell index. -/
def Grid.cellBox (g : Grid K d) (c : ℕ) : (Fin d → K) × (Fin d → K) := g.boxLoop (List.finRange d) c

/-! ## Specification -/

/-- Inside the bounds of the grid. -/
def Grid.Inside (g : Grid K d) (p : Fin d → K) : Prop := ∀ a, g.lo a ≤ p a ∧ p a ≤ g.hi a

/-- Points of the same grid cell: along every dimension the same multiple of the cell length lies
below them. -/
def Grid.SameCell (g : Grid K d) (p q : Fin d → K) : Prop :=
  ∀ a, ⌊(p a - g.lo a) / g.h a⌋ = ⌊(q a - g.lo a) / g.h a⌋

/-- In a box given by its corners. -/
def InBox (b : (Fin d → K) × (Fin d → K)) (p : Fin d → K) : Prop := ∀ a, b.1 a ≤ p a ∧ p a ≤ b.2 a

/-- Square of the Euclidean distance. -/
def sqDist (p q : Fin d → K) : K := ∑ a, (p a - q a) ^ 2

/-- What the grid promises only if no coordinate reaches the end of the last cell: the point lies
strictly below it, along every dimension. It is violated by a point on the upper face of the
bounds whenever the extent is a multiple of the cell length. -/
def Grid.Below (g : Grid K d) (p : Fin d → K) : Prop := ∀ a, p a < g.lo a + g.n a * g.h a

/-! ## Lemmas -/

lemma sizeCheck_prod : ∀ (m a : ℕ) (rest : List ℕ), rest ≠ [] → sizeCheck m (a :: rest) = true →
    (∀ x ∈ a :: rest, 0 < x) → (a :: rest).prod < m := by
  intro m a rest
  induction rest generalizing m a with
  | nil => intro h; exact absurd rfl h
  | cons b rest ih =>
    intro _ hs hpos
    rw [sizeCheck, Bool.and_eq_true, decide_eq_true_eq] at hs
    have ha : 0 < a := hpos a List.mem_cons_self
    have key : (b :: rest).prod < m / a := by
      rcases rest with _ | ⟨c, rest⟩
      · simpa using hs.1
      · exact ih (m / a) b (by simp) hs.2 (fun x hx => hpos x (List.mem_cons_of_mem _ hx))
    rw [List.prod_cons]
    calc a * (b :: rest).prod < a * (m / a) := Nat.mul_lt_mul_of_pos_left key ha
      _ ≤ m := Nat.mul_div_le m a

/-- Facts about a grid that was built. -/
structure Grid.Ok (g : Grid K d) : Prop where
  h : ∀ a, 0 < g.h a
  n : ∀ a, 0 < g.n a
  prod : ((List.finRange d).map g.n).prod < 2 ^ 64
  extent : ∀ a, g.hi a ≤ g.lo a + g.n a * g.h a

lemma le_ceil_toNat_mul {x h : K} (hh : 0 < h) : x ≤ ((⌈x / h⌉).toNat : K) * h := by
  have h1 : x / h ≤ ⌈x / h⌉ := Int.le_ceil _
  have h2 : ((⌈x / h⌉ : ℤ) : K) ≤ ((⌈x / h⌉).toNat : K) := by
    have := Int.self_le_toNat ⌈x / h⌉
    exact_mod_cast this
  rw [← div_le_iff₀ hh]
  exact h1.trans h2

lemma Grid.build_ok {lo hi : Fin d → K} {h prec : K} {g : Grid K d} (hb : Grid.build lo hi h prec = some g) :
    g.Ok ∧ g.lo = lo ∧ g.hi = hi ∧ (∀ a, g.h a = h) := by
  unfold Grid.build at hb
  dsimp only at hb
  split_ifs at hb with h1 h2 h3 h4
  rw [Option.some.injEq] at hb
  subst hb
  have hh : 0 < h := h1
  have hn : ∀ a, cellCount (hi a - lo a) h ≠ 0 ∧ ¬ 2 ^ 64 ≤ cellCount (hi a - lo a) h := by
    intro a
    rw [Bool.not_eq_true, List.any_eq_false] at h2
    have := h2 a (List.mem_finRange a)
    rw [Bool.or_eq_true, decide_eq_true_eq, decide_eq_true_eq, not_or] at this
    exact this
  refine ⟨⟨fun _ => hh, fun a => Nat.pos_of_ne_zero (hn a).1, ?_, ?_⟩, rfl, rfl, fun _ => rfl⟩
  · dsimp only
    rcases d with _ | _ | d
    · simp
    · simp [List.finRange_succ]
      exact not_le.mp (hn 0).2
    · have hs : sizeCheck (2 ^ 64 - 1) ((List.finRange (d + 1 + 1)).map fun a => cellCount (hi a - lo a) h) = true := by
        simpa using h3
      rw [List.finRange_succ, List.map_cons] at hs ⊢
      have := sizeCheck_prod _ _ _ (by simp) hs (by
        intro x hx
        rw [← List.map_cons (f := fun a => cellCount (hi a - lo a) h), ← List.finRange_succ] at hx
        obtain ⟨a, -, rfl⟩ := List.mem_map.mp hx
        exact Nat.pos_of_ne_zero (hn a).1)
      omega
  · intro a
    dsimp only
    unfold cellCount
    split_ifs with hd
    · have := le_ceil_toNat_mul (x := hi a - lo a) hh
      linarith
    · rw [not_not] at hd
      simp
      linarith

lemma Grid.coord_eq {g : Grid K d} (ok : g.Ok) {p : Fin d → K} (hp : g.Inside p) (hlt : g.Below p)
    (hint : ∀ a, g.n a ≤ 2 ^ 31) (a : Fin d) :
    ∃ i : ℕ, g.coord p a = some i ∧ i < g.n a ∧ (i : ℤ) = ⌊(p a - g.lo a) / g.h a⌋ := by
  have h0 : 0 ≤ (p a - g.lo a) / g.h a := div_nonneg (by linarith [(hp a).1]) (ok.h a).le
  have h1 : (p a - g.lo a) / g.h a < g.n a := by
    rw [div_lt_iff₀ (ok.h a)]
    linarith [hlt a]
  have f0 : 0 ≤ ⌊(p a - g.lo a) / g.h a⌋ := Int.floor_nonneg.mpr h0
  have f1 : ⌊(p a - g.lo a) / g.h a⌋ < g.n a := by
    rw [Int.floor_lt]; exact_mod_cast h1
  have := hint a
  refine ⟨(⌊(p a - g.lo a) / g.h a⌋).toNat, ?_, by omega, by omega⟩
  unfold Grid.coord
  dsimp only
  rw [if_pos ⟨f0, by omega⟩]

/-- The index is a number in mixed radix, without overflow. -/
lemma Grid.index_eq {g : Grid K d} {p : Fin d → K} {i : Fin d → ℕ}
    (hi : ∀ a, g.coord p a = some (i a)) (hlt : ∀ a, i a < g.n a) (as : List (Fin d)) (hprod : (as.map g.n).prod ≤ 2 ^ 64) :
    ∃ s, g.index p as = some s ∧ s < (as.map g.n).prod ∧
      ∀ a as', as = a :: as' → ∃ s', g.index p as' = some s' ∧ s % g.n a = i a ∧ s / g.n a = s' := by
  induction as with
  | nil => exact ⟨0, rfl, by simp, by simp⟩
  | cons a as ih =>
    have hn : 0 < g.n a := by have := hlt a; omega
    rw [List.map_cons, List.prod_cons] at hprod ⊢
    obtain ⟨s, h1, h2, -⟩ := ih (by nlinarith)
    have hbound : s * g.n a + i a < g.n a * (as.map g.n).prod := by
      have := hlt a
      calc s * g.n a + i a < s * g.n a + g.n a := by omega
        _ = (s + 1) * g.n a := by ring
        _ ≤ (as.map g.n).prod * g.n a := Nat.mul_le_mul_right _ h2
        _ = _ := by ring
    have hmod : (s * g.n a + i a) % 2 ^ 64 = s * g.n a + i a := Nat.mod_eq_of_lt (by omega)
    refine ⟨s * g.n a + i a, ?_, hbound, ?_⟩
    · unfold Grid.index
      rw [hi a, h1]
      simp only [hmod]
    · intro a' as' e
      rw [List.cons.injEq] at e
      obtain ⟨rfl, rfl⟩ := e
      refine ⟨s, h1, ?_, ?_⟩
      · rw [Nat.add_comm, Nat.add_mul_mod_self_right, Nat.mod_eq_of_lt (hlt a)]
      · rw [Nat.add_comm, Nat.add_mul_div_right _ _ hn, Nat.div_eq_of_lt (hlt a)]
        omega

lemma Grid.boxLoop_eq {g : Grid K d} {p : Fin d → K} {i : Fin d → ℕ}
    (hi : ∀ a, g.coord p a = some (i a)) (hlt : ∀ a, i a < g.n a) (as : List (Fin d)) (hprod : (as.map g.n).prod ≤ 2 ^ 64)
    (s : ℕ) (hs : g.index p as = some s) :
    ∀ a ∈ as, (g.boxLoop as s).1 a = g.lo a + i a * g.h a ∧ (g.boxLoop as s).2 a = g.lo a + (i a + 1) * g.h a := by
  induction as generalizing s with
  | nil => simp
  | cons b as ih =>
    have hn : 0 < g.n b := by have := hlt b; omega
    obtain ⟨s0, h1, -, h3⟩ := Grid.index_eq hi hlt (b :: as) hprod
    rw [h1, Option.some.injEq] at hs
    subst hs
    obtain ⟨s', h4, h5, h6⟩ := h3 b as rfl
    rw [List.map_cons, List.prod_cons] at hprod
    have ih := ih (by nlinarith) s' h4
    intro a ha
    unfold Grid.boxLoop
    dsimp only
    rw [h5, h6]
    by_cases e : a = b
    · subst e
      simp
    · rw [Function.update_of_ne e, Function.update_of_ne e]
      exact ih a (by rcases List.mem_cons.mp ha with h | h; exact absurd h e; exact h)

/-! ## Property theorems -/

/-- **C21 (part: points below the upper faces).** The full claim has no hypothesis `Below`; it is
refuted by `grid_aliasing` and `grid_wrong_box`, and for grids of more than 2^31 cells along a
dimension by `grid_int_overflow`. For points inside the bounds and below the end of the last
cells: the cell index exists, equal indices mean the same grid cell, and the box of the index
contains the point. -/
theorem grid_cells_partial {lo hi : Fin d → K} {h prec : K} {g : Grid K d}
    (hb : Grid.build lo hi h prec = some g) (hint : ∀ a, g.n a ≤ 2 ^ 31) (p : Fin d → K) (hp : g.Inside p)
    (hlt : g.Below p) :
    ∃ c, g.cellIndex p = some c ∧ InBox (g.cellBox c) p ∧
      ∀ q, g.Inside q → g.Below q → (g.cellIndex q = some c ↔ g.SameCell p q) := by
  obtain ⟨ok, -, -, -⟩ := Grid.build_ok hb
  choose i hi1 hi2 hi3 using Grid.coord_eq ok hp hlt hint
  have hprod := ok.prod.le
  obtain ⟨c, hc, -, -⟩ := Grid.index_eq hi1 hi2 (List.finRange d) hprod
  refine ⟨c, hc, ?_, ?_⟩
  · intro a
    obtain ⟨b1, b2⟩ := Grid.boxLoop_eq hi1 hi2 _ hprod c hc a (List.mem_finRange a)
    unfold Grid.cellBox
    rw [b1, b2]
    have ha := ok.h a
    have f1 : ((⌊(p a - g.lo a) / g.h a⌋ : ℤ) : K) ≤ (p a - g.lo a) / g.h a := Int.floor_le _
    have f2 : (p a - g.lo a) / g.h a < (⌊(p a - g.lo a) / g.h a⌋ : ℤ) + 1 := Int.lt_floor_add_one _
    rw [← hi3 a, Int.cast_natCast] at f1 f2
    rw [le_div_iff₀ ha] at f1
    rw [div_lt_iff₀ ha] at f2
    constructor <;> linarith
  · intro q hq hqlt
    choose j hj1 hj2 hj3 using Grid.coord_eq ok hq hqlt hint
    have hcell : g.SameCell p q ↔ i = j := by
      unfold Grid.SameCell
      constructor
      · intro h
        funext a
        have := h a
        rw [← hi3 a, ← hj3 a] at this
        exact_mod_cast this
      · rintro rfl a
        rw [← hi3 a, ← hj3 a]
    rw [hcell]
    constructor
    · intro hqc
      funext a
      have hq1 := (Grid.boxLoop_eq hj1 hj2 _ hprod c hqc a (List.mem_finRange a)).1
      have hp1 := (Grid.boxLoop_eq hi1 hi2 _ hprod c hc a (List.mem_finRange a)).1
      rw [hp1] at hq1
      have ha := (ok.h a).ne'
      have : (i a : K) = j a := by
        have := add_left_cancel hq1
        exact mul_right_cancel₀ ha this
      exact_mod_cast this
    · rintro rfl
      have : ∀ as : List (Fin d), g.index q as = g.index p as := by
        intro as
        induction as with
        | nil => rfl
        | cons a as ih => unfold Grid.index; rw [hi1 a, hj1 a, ih]
      unfold Grid.cellIndex
      rw [this]
      exact hc

omit [FloorRing K] in
lemma sq_lt_of_abs {x h : K} (hx : |x| < h) : x ^ 2 ≤ h ^ 2 :=
  sq_le_sq' (by linarith [neg_abs_le x]) (by linarith [le_abs_self x])

/-- **C21.** Points of the same grid cell are within the radius, if the cell length is at most the
radius divided by the square root of the dimension. -/
theorem same_cell_near (g : Grid K d) (hpos : ∀ a, 0 < g.h a) (eps : K)
    (hh : ∀ a, d * g.h a ^ 2 ≤ eps ^ 2) (p q : Fin d → K)
    (hs : g.SameCell p q) : sqDist p q ≤ eps ^ 2 := by
  have hd : ∀ a, |p a - q a| < g.h a := by
    intro a
    have ha := hpos a
    have f1 := Int.floor_le ((p a - g.lo a) / g.h a)
    have f2 := Int.lt_floor_add_one ((p a - g.lo a) / g.h a)
    have f3 := Int.floor_le ((q a - g.lo a) / g.h a)
    have f4 := Int.lt_floor_add_one ((q a - g.lo a) / g.h a)
    rw [hs a] at f1 f2
    rw [le_div_iff₀ ha] at f1 f3
    rw [div_lt_iff₀ ha] at f2 f4
    rw [abs_lt]
    constructor <;> nlinarith
  rcases d with _ | d
  · have : sqDist p q = 0 := by simp [sqDist]
    rw [this]; positivity
  · have hsum : sqDist p q * (d + 1 : ℕ) ≤ ∑ _a : Fin (d + 1), eps ^ 2 := by
      unfold sqDist
      rw [Finset.sum_mul]
      apply Finset.sum_le_sum
      intro a _
      have := sq_lt_of_abs (hd a)
      have h2 := hh a
      have h3 : (0 : K) ≤ ((d + 1 : ℕ) : K) := by positivity
      nlinarith
    rw [Finset.sum_const, Finset.card_univ, Fintype.card_fin, nsmul_eq_mul] at hsum
    have hpos' : (0 : K) < ((d + 1 : ℕ) : K) := by positivity
    rw [mul_comm] at hsum
    exact le_of_mul_le_mul_left hsum hpos'

/-- A grid of 2 by 1 cells of length 1. -/
theorem example_grid : Grid.build (K := ℚ) ![0, 0] ![2, 1] 1 (1 / 1000000) =
    some ⟨![0, 0], ![2, 1], fun _ => 1, fun a => cellCount (![2, 1] a - ![0, 0] a) (1 : ℚ)⟩ := by
  have c0 : cellCount (2 : ℚ) 1 = 2 := by norm_num [cellCount]; rfl
  have c1 : cellCount (1 : ℚ) 1 = 1 := by norm_num [cellCount]
  simp [Grid.build, List.finRange_succ, c0, c1, sizeCheck]

/-- The hypotheses of `grid_cells_partial` are met by the points (1/2, 1/2) and (3/2, 1/2). -/
example : ∃ g : Grid ℚ 2, Grid.build ![0, 0] ![2, 1] 1 (1 / 1000000) = some g ∧ (∀ a, g.n a ≤ 2 ^ 31) ∧
    g.Inside ![1 / 2, 1 / 2] ∧ g.Below ![1 / 2, 1 / 2] ∧ g.Inside ![3 / 2, 1 / 2] ∧ g.Below ![3 / 2, 1 / 2] ∧
    ¬ g.SameCell ![1 / 2, 1 / 2] ![3 / 2, 1 / 2] := by
  have c0 : cellCount (2 : ℚ) 1 = 2 := by norm_num [cellCount]; rfl
  have c1 : cellCount (1 : ℚ) 1 = 1 := by norm_num [cellCount]
  refine ⟨_, example_grid, ?_, ?_, ?_, ?_, ?_, ?_⟩
  · intro a; fin_cases a <;> simp [c0, c1]
  · intro a; fin_cases a <;> norm_num
  · intro a; fin_cases a <;> norm_num [c0, c1]
  · intro a; fin_cases a <;> norm_num
  · intro a; fin_cases a <;> norm_num [c0, c1]
  · intro h
    have := h 0
    norm_num at this

/-- **C21 (defect).** The full claim is false: on the grid of 2 by 1 unit cells over the bounds
`[0,2] × [0,1]` the corner points (2,0) and (0,1), both inside the bounds, get the same cell
index although they are not in the same cell and their distance exceeds the radius `√2`. -/
theorem grid_aliasing : ∃ g : Grid ℚ 2, Grid.build ![0, 0] ![2, 1] 1 (1 / 1000000) = some g ∧
    g.Inside ![2, 0] ∧ g.Inside ![0, 1] ∧ g.cellIndex ![2, 0] = some 2 ∧ g.cellIndex ![0, 1] = some 2 ∧
    ¬ g.SameCell ![2, 0] ![0, 1] ∧ 2 < sqDist (![2, 0] : Fin 2 → ℚ) ![0, 1] := by
  have c0 : cellCount (2 : ℚ) 1 = 2 := by norm_num [cellCount]; rfl
  have c1 : cellCount (1 : ℚ) 1 = 1 := by norm_num [cellCount]
  refine ⟨_, example_grid, ?_, ?_, ?_, ?_, ?_, ?_⟩
  · intro a; fin_cases a <;> norm_num
  · intro a; fin_cases a <;> norm_num
  · simp [Grid.cellIndex, Grid.index, Grid.coord, List.finRange_succ, c0, c1]
  · simp [Grid.cellIndex, Grid.index, Grid.coord, List.finRange_succ, c0, c1]
  · intro h
    have := h 0
    norm_num at this
  · norm_num [sqDist]

/-- **C21 (defect).** In one dimension, the box of the cell index of the last point does not
contain it: on `[0,10]` with unit cells the point 10 gets index 10, whose box is `[0,1]`. -/
theorem grid_wrong_box : ∃ g : Grid ℚ 1, Grid.build ![0] ![10] 1 (1 / 1000000) = some g ∧
    g.Inside ![10] ∧ g.cellIndex ![10] = some 10 ∧ ¬ InBox (g.cellBox 10) ![10] := by
  have c0 : cellCount (10 : ℚ) 1 = 10 := by norm_num [cellCount]; rfl
  refine ⟨⟨![0], ![10], fun _ => 1, fun a => cellCount (![10] a - ![0] a) (1 : ℚ)⟩, ?_, ?_, ?_, ?_⟩
  · simp [Grid.build, List.finRange_succ, c0, sizeCheck]
  · intro a; fin_cases a; norm_num
  · simp [Grid.cellIndex, Grid.index, Grid.coord, List.finRange_succ]
  · intro h
    have := h 0
    norm_num [Grid.cellBox, Grid.boxLoop, List.finRange_succ, c0] at this

/-- **C21 (defect).** The constructor accepts grids whose cell coordinates do not fit the `int` of
`cellIndex`: with 2^32 unit cells on a line, the index of an inner point is undefined. -/
theorem grid_int_overflow : ∃ g : Grid ℚ 1, Grid.build ![0] ![2 ^ 32] 1 (1 / 1000000) = some g ∧
    g.Inside ![2 ^ 31 + 1 / 2] ∧ g.Below ![2 ^ 31 + 1 / 2] ∧ g.cellIndex ![2 ^ 31 + 1 / 2] = none := by
  have c0 : cellCount (4294967296 : ℚ) 1 = 2 ^ 32 := by norm_num [cellCount]; rfl
  refine ⟨⟨![0], ![2 ^ 32], fun _ => 1, fun a => cellCount (![2 ^ 32] a - ![0] a) (1 : ℚ)⟩, ?_, ?_, ?_, ?_⟩
  · norm_num [Grid.build, List.finRange_succ, c0, sizeCheck]
  · intro a; fin_cases a; norm_num
  · intro a; fin_cases a; norm_num [c0]
  · have : ⌊(4294967297 / 2 : ℚ)⌋ = 2147483648 := by norm_num
    norm_num [Grid.cellIndex, Grid.index, Grid.coord, List.finRange_succ, this]

end ArborX.DenseBox
