import Verif.DenseBox.Theorems
import Mathlib.Order.WithBot

/-!
# Dense-box DBSCAN on points with the grid of the code (C21)

Puts the models together: points with coordinates, the Euclidean distance, axis-aligned boxes and
the Cartesian grid.
-/

namespace ArborX.DenseBox

open Traversal BVH Dbscan Perm UF OrderDual

variable {K : Type} [Field K] [LinearOrder K] [IsStrictOrderedRing K] [FloorRing K] {d w : ℕ}

/-- Bounding boxes (`src/geometry/ArborX_Box.hpp`): corners, with infinite values for the empty
box. The order is inclusion, `⊔` is `expand`. -/
abbrev BoxV (K : Type) (d : ℕ) : Type := (Fin d → WithTop K)ᵒᵈ × (Fin d → WithBot K)

/-- The box with the given corners. -/
def boxOf (lo hi : Fin d → K) : BoxV K d := (toDual fun a => (lo a : WithTop K), fun a => (hi a : WithBot K))

/-- A point of a box. -/
def BoxV.Mem (b : BoxV K d) (x : Fin d → K) : Prop :=
  ∀ a, ofDual b.1 a ≤ (x a : WithTop K) ∧ (x a : WithBot K) ≤ b.2 a

omit [Field K] [IsStrictOrderedRing K] [FloorRing K] in
lemma BoxV.mem_mono {b c : BoxV K d} (h : b ≤ c) {x : Fin d → K} (hx : b.Mem x) : c.Mem x := by
  intro a
  have h1 : ofDual c.1 ≤ ofDual b.1 := h.1
  exact ⟨(h1 a).trans (hx a).1, (hx a).2.trans (h.2 a)⟩

/-- The parts of the input that are not geometry: see `DIn`. -/
structure Rest (K : Type) (d w : ℕ) where
  σ : ℕ → ℕ
  code : ℕ → (ℕ → BoxV K d) → ℕ → BitVec w
  tperm : ℕ → (ℕ → BoxV K d) → ℕ → ℕ
  minPts : ℕ
  star : Bool
  serial : Bool
  chunks1 : ℕ → List (List ℕ)
  chunks2 : List (List ℕ)

open Classical in
/-- Input of dense-box DBSCAN: `n` points `p`, radius `eps`, grid `g`. The predicates of a point on
a point and on a box are those of the sphere of radius `eps` around it. -/
noncomputable def geomIn (n : ℕ) (p : ℕ → Fin d → K) (eps : K) (g : Grid K d) (R : Rest K d w) : DIn (BoxV K d) w where
  n := n
  near := fun i j => decide (sqDist (p i) (p j) ≤ eps ^ 2)
  pv := fun i v => decide (∃ x, v.Mem x ∧ sqDist (p i) x ≤ eps ^ 2)
  pvol := fun i => boxOf (p i) (p i)
  cell := fun i => (g.cellIndex (p i)).getD 0
  box := fun c => boxOf (g.cellBox c).1 (g.cellBox c).2
  nearBox := fun i c => decide (∃ x, InBox (g.cellBox c) x ∧ sqDist (p i) x ≤ eps ^ 2)
  σ := R.σ
  code := R.code
  tperm := R.tperm
  minPts := R.minPts
  star := R.star
  serial := R.serial
  chunks1 := R.chunks1
  chunks2 := R.chunks2

/-- Preconditions on the rest, see `DIn.Valid`. -/
structure Rest.Valid (R : Rest K d w) (n : ℕ) (cell : ℕ → ℕ) : Prop where
  sort : IsSort n cell R.σ
  tree : ∀ m ≤ n, ∀ f : ℕ → BoxV K d, (⟨m, id, f, R.code m f, R.tperm m f⟩ : Input ℕ (BoxV K d) w).Valid
  minPts : 2 ≤ R.minPts
  chunks1 : ∀ m, (R.chunks1 m).flatten.Perm (List.range' 1 (m - 1))
  chunks2 : R.chunks2.flatten.Perm (List.range n)
  serial1 : ∀ m, R.serial = true → (R.chunks1 m).length ≤ 1
  serial2 : R.serial = true → R.chunks2.length ≤ 1

lemma mem_boxOf {lo hi x : Fin d → K} : (boxOf lo hi).Mem x ↔ InBox (lo, hi) x := by
  unfold BoxV.Mem boxOf InBox
  simp only [ofDual_toDual, WithTop.coe_le_coe, WithBot.coe_le_coe]

omit [FloorRing K] [LinearOrder K] [IsStrictOrderedRing K] in
lemma sqDist_comm (p q : Fin d → K) : sqDist p q = sqDist q p := by
  unfold sqDist
  apply Finset.sum_congr rfl
  intro a _
  ring

variable (n : ℕ) (p : ℕ → Fin d → K) (eps : K) (lo hi : Fin d → K) (h prec : K) (g : Grid K d) (R : Rest K d w)

/-- The grid of the code meets the preconditions of dense-box DBSCAN, as long as no point reaches
the end of the last cells. -/
theorem geomIn_valid (hb : Grid.build lo hi h prec = some g) (hh : d * h ^ 2 ≤ eps ^ 2)
    (hint : ∀ a, g.n a ≤ 2 ^ 31) (hin : ∀ i < n, ∀ a, lo a ≤ p i a ∧ p i a ≤ hi a) (hbelow : ∀ i < n, g.Below (p i))
    (hR : R.Valid n (fun i => (g.cellIndex (p i)).getD 0)) : (geomIn n p eps g R).Valid := by
  obtain ⟨ok, hlo, hhi, hgh⟩ := Grid.build_ok hb
  have hin' : ∀ i < n, g.Inside (p i) := by
    intro i hi a
    rw [hlo, hhi]
    exact hin i hi a
  refine ⟨?_, ?_, ?_, ?_, ?_, ?_, ?_, hR.sort, hR.tree, hR.minPts, hR.chunks1, hR.chunks2, hR.serial1, hR.serial2⟩
  · intro i j
    simp only [geomIn, sqDist_comm (p i) (p j)]
  · intro i
    simp only [geomIn, decide_eq_true_eq, sqDist]
    simp
    positivity
  · intro i v v' hv hp
    simp only [geomIn, decide_eq_true_eq] at hp ⊢
    obtain ⟨x, hx, hd⟩ := hp
    exact ⟨x, BoxV.mem_mono hv hx, hd⟩
  · intro i j hn
    simp only [geomIn, decide_eq_true_eq] at hn ⊢
    exact ⟨p j, mem_boxOf.mpr (fun a => ⟨le_rfl, le_rfl⟩), hn⟩
  · intro i c
    simp only [geomIn]
    congr 1
    rw [eq_iff_iff]
    apply exists_congr
    intro x
    rw [mem_boxOf]
  · intro i hi j hj he
    have hi : i < n := hi
    have hj : j < n := hj
    obtain ⟨c, hc, -, hs⟩ := grid_cells_partial hb hint (p i) (hin' i hi) (hbelow i hi)
    obtain ⟨c', hc', -, -⟩ := grid_cells_partial hb hint (p j) (hin' j hj) (hbelow j hj)
    simp only [geomIn, decide_eq_true_eq] at he ⊢
    rw [hc, hc', Option.getD_some, Option.getD_some] at he
    subst he
    exact same_cell_near g ok.h eps (fun a => by rw [hgh]; exact hh) _ _
      ((hs (p j) (hin' j hj) (hbelow j hj)).mp hc')
  · intro i _ j hj hn
    have hj : j < n := hj
    obtain ⟨c, hc, hbx, -⟩ := grid_cells_partial hb hint (p j) (hin' j hj) (hbelow j hj)
    simp only [geomIn, hc, Option.getD_some, decide_eq_true_eq] at hn ⊢
    exact ⟨p j, mem_boxOf.mpr hbx, hn⟩

/-- **C21 (part: points below the upper faces, at most 2^31 cells along a dimension).** Dense-box
DBSCAN with the Cartesian grid over the bounds of the points, whose cell length is at most the
radius over the square root of the dimension, is right. The full claim, without `hbelow` and `hint`, is
refuted by `densebox_face_defect` and `grid_int_overflow`. -/
theorem densebox_grid_correct_partial (hb : Grid.build lo hi h prec = some g) (hh : d * h ^ 2 ≤ eps ^ 2)
    (hint : ∀ a, g.n a ≤ 2 ^ 31) (hin : ∀ i < n, ∀ a, lo a ≤ p i a ∧ p i a ≤ hi a) (hbelow : ∀ i < n, g.Below (p i))
    (hR : R.Valid n (fun i => (g.cellIndex (p i)).getD 0)) (S : DSched) (hS : S.Fair n)
    (hB : ∀ l, (geomIn n p eps g R).layout S = some l → ((geomIn n p eps g R).tree l).Finished S.tree)
    (fuel : ℕ) (hfuel : 2 * n ≤ fuel) :
    (geomIn n p eps g R).dbscan S fuel = .running ∨
    ∃ l, (geomIn n p eps g R).dbscan S fuel = .labels l ∧ l.length = n ∧
      (R.star = false → IsDBSCAN n (fun i j => decide (sqDist (p i) (p j) ≤ eps ^ 2)) R.minPts (labelOf l)) ∧
      (R.star = true → IsDBSCANStar n (fun i j => decide (sqDist (p i) (p j) ≤ eps ^ 2)) R.minPts (labelOf l)) ∧
      Canonical n (fun i j => decide (sqDist (p i) (p j) ≤ eps ^ 2)) R.minPts (labelOf l) := by
  have hV := geomIn_valid n p eps lo hi h prec g R hb hh hint hin hbelow hR
  cases hs : R.star
  · rcases densebox_correct _ hV S hS hB fuel hfuel hs with h | ⟨l, a, b, c, e⟩
    · exact Or.inl h
    · exact Or.inr ⟨l, a, b, fun _ => c, by simp, e⟩
  · rcases densebox_star_correct _ hV S hS hB fuel hfuel hs with h | ⟨l, a, b, c, e⟩
    · exact Or.inl h
    · exact Or.inr ⟨l, a, b, by simp, fun _ => c, e⟩

/-! ## A concrete case -/

/-- The points 1, 3, 4, 4, 4, 9 on a line. -/
def linePts (i : ℕ) : Fin 1 → ℚ := ![(([1, 3, 4, 4, 4, 9] : List ℕ).getD i 0 : ℚ)]

def lineRest : Rest ℚ 1 64 where
  σ := id
  code := fun _ _ i => BitVec.ofNat 64 (i / 2)
  tperm := fun _ _ i => i
  minPts := 3
  star := false
  serial := false
  chunks1 := fun m => [(List.range' 1 (m - 1)).filter (· % 2 = 0), (List.range' 1 (m - 1)).filter (· % 2 = 1)]
  chunks2 := [(List.range 6).filter (· % 2 = 0), (List.range 6).filter (· % 2 = 1)]

/-- The hypotheses are met by six points in the bounds `[1,9]` with radius 3: three cells, the last one
longer than the bounds. -/
example : ∃ g : Grid ℚ 1, Grid.build ![1] ![9] 3 (1 / 1000000) = some g ∧ (1 : ℕ) * (3 : ℚ) ^ 2 ≤ 3 ^ 2 ∧
    (∀ a, g.n a ≤ 2 ^ 31) ∧ (∀ i < 6, ∀ a, (![1] : Fin 1 → ℚ) a ≤ linePts i a ∧ linePts i a ≤ (![9] : Fin 1 → ℚ) a) ∧
    (∀ i < 6, g.Below (linePts i)) ∧ lineRest.Valid 6 (fun i => (g.cellIndex (linePts i)).getD 0) := by
  have c0 : cellCount (8 : ℚ) 3 = 3 := by norm_num [cellCount]; rfl
  have c0' : cellCount (9 - 1 : ℚ) 3 = 3 := by rw [show (9 - 1 : ℚ) = 8 by norm_num]; exact c0
  refine ⟨⟨![1], ![9], fun _ => 3, fun a => cellCount (![9] a - ![1] a) (3 : ℚ)⟩, ?_, by norm_num, ?_, ?_, ?_, ?_⟩
  · norm_num [Grid.build, List.finRange_succ, c0, sizeCheck]
  · intro a; fin_cases a; simp [c0']
  · intro i hi a; fin_cases a; interval_cases i <;> norm_num [linePts]
  · intro i hi a; fin_cases a; interval_cases i <;> norm_num [linePts, c0]
  · refine ⟨⟨by decide, ?_⟩, ?_, by decide, fun m => split_perm _, split_perm _, by simp [lineRest], by simp [lineRest]⟩
    · intro i hi
      have : i < 5 := by omega
      have f1 : ⌊(2 / 3 : ℚ)⌋ = 0 := by norm_num
      have f2 : ⌊(8 / 3 : ℚ)⌋ = 2 := by norm_num
      interval_cases i <;> norm_num [lineRest, linePts, Grid.cellIndex, Grid.index, Grid.coord, List.finRange_succ, c0, f1, f2]
      decide
    · intro m hm f
      refine ⟨by decide, ?_, ⟨?_, ?_⟩, ?_⟩
      · change m ≤ 2 ^ 63
        omega
      · change ((List.range m).map (fun i => i)).Perm (List.range m)
        simp
      · intro i hi
        have hi : i + 1 < m := hi
        change (BitVec.ofNat 64 (i / 2)) ≤ (BitVec.ofNat 64 ((i + 1) / 2))
        rw [BitVec.le_def, BitVec.toNat_ofNat, BitVec.toNat_ofNat, Nat.mod_eq_of_lt (by omega), Nat.mod_eq_of_lt (by omega)]
        omega
      · intro i hi
        have hi : i < m := hi
        change (BitVec.ofNat 64 (i / 2)).toNat < 2 ^ 63
        rw [BitVec.toNat_ofNat, Nat.mod_eq_of_lt (by omega)]
        omega

end ArborX.DenseBox
