import Verif.Fp.DenseBoxLimits
import Verif.Fp.Examples

/-!
# The hypotheses of `densebox_float_clear_partial` are satisfiable
-/

namespace ArborX.Fp

open Geometry BVH Euclid

/-- The points 0, 1 and 7. -/
noncomputable def clearCloud : Cloud 1 := lineCloud [0, 1, 7] (2 ^ (127 : ℤ)) (fun i => BitVec.ofNat 64 i) (fun i => i)

/-- The permutation of the cells and the codes of the tree in the order given. -/
def clearRest (n : ℕ) : DenseRest 1 where
  σ := fun i => i
  code := fun _ _ i => BitVec.ofNat 64 (i / 2)
  tperm := fun _ _ i => i
  minPts := 2
  star := false
  serial := false
  chunks1 := fun m => [(List.range' 1 (m - 1)).filter (· % 2 = 0), (List.range' 1 (m - 1)).filter (· % 2 = 1)]
  chunks2 := [(List.range n).filter (· % 2 = 0), (List.range n).filter (· % 2 = 1)]

lemma clear_bounds : boundsOf clearCloud.M clearCloud.pts = ⟨![0], ![7]⟩ := by
  have h1 : (0 : ℝ) ≤ 2 ^ (127 : ℤ) := by positivity
  simp only [clearCloud, lineCloud, boundsOf, List.map_cons, List.map_nil, List.foldl_cons, List.foldl_nil, Box.expandPoint, Box.empty]
  congr 1
  · funext d; fin_cases d
    simp only [Fin.zero_eta, Matrix.cons_val_zero]
    rw [min_eq_right h1, min_eq_left (by norm_num), min_eq_left (by norm_num)]
  · funext d; fin_cases d
    simp only [Fin.zero_eta, Matrix.cons_val_zero]
    rw [max_eq_right (by linarith : -(2 : ℝ) ^ (127 : ℤ) ≤ 0), max_eq_right (by norm_num)]

lemma clear_quot (fma : Bool) : (Ieee.float fma).quot 0 0 2 = ((0 : ℝ) : EReal) ∧ (Ieee.float fma).quot 1 0 2 = ((1 / 2 : ℝ) : EReal) ∧
    (Ieee.float fma).quot 7 0 2 = ((7 / 2 : ℝ) : EReal) := by
  refine ⟨quot_of _ (d := 0) ?_ ?_, quot_of _ (d := 1) ?_ ?_, quot_of _ (d := 7) ?_ ?_⟩
  · exact float_is fma 0 0 (by norm_num) (by norm_num) (by norm_num) (by norm_num) (by norm_num)
  · exact float_is fma 0 0 (by norm_num) (by norm_num) (by norm_num) (by norm_num) (by norm_num)
  · exact float_is fma 1 0 (by norm_num) (by norm_num) (by norm_num) (by norm_num) (by norm_num)
  · exact float_is fma 1 (-1) (by norm_num) (by norm_num) (by norm_num) (by norm_num) (by norm_num)
  · exact float_is fma 7 0 (by norm_num) (by norm_num) (by norm_num) (by norm_num) (by norm_num)
  · exact float_is fma 7 (-1) (by norm_num) (by norm_num) (by norm_num) (by norm_num) (by norm_num)

lemma clear_grid (fma : Bool) : clearCloud.grid (Ieee.float fma) 2 (5 * 2 ^ (-23 : ℤ)) = some (lineGrid 0 2 (7 / 2) 4) := by
  unfold Cloud.grid
  have hl : (Ieee.float fma).cellLength 1 2 = ((2 : ℝ) : EReal) := by
    unfold Format.cellLength
    have h1 : (Ieee.float fma).rnd (Real.sqrt ((1 : ℕ) : ℝ)) = ((1 : ℝ) : EReal) := by
      rw [Nat.cast_one, Real.sqrt_one]
      exact float_is fma 1 0 (by norm_num) (by norm_num) (by norm_num) (by norm_num) (by norm_num)
    rw [h1, EReal.toReal_coe]
    exact float_is fma 2 0 (by norm_num) (by norm_num) (by norm_num) (by norm_num) (by norm_num)
  rw [hl, if_neg (EReal.coe_ne_top _), EReal.toReal_coe]
  exact lineGrid_build _ clear_bounds (by norm_num) (clear_quot fma).2.2 (by norm_num) (by rw [Int.ceil_eq_iff]; norm_num) (by norm_num) (fun h => absurd rfl h)

lemma clear_pt {i : ℕ} (hi : i < 3) : ∃ z : ℤ, clearCloud.pt i = ![(z : ℝ)] ∧ (i = 0 ∧ z = 0 ∨ i = 1 ∧ z = 1 ∨ i = 2 ∧ z = 7) := by
  interval_cases i
  · exact ⟨0, by simp [clearCloud, lineCloud, Cloud.pt], by simp⟩
  · exact ⟨1, by simp [clearCloud, lineCloud, Cloud.pt], by simp⟩
  · exact ⟨7, by simp [clearCloud, lineCloud, Cloud.pt], by simp⟩

lemma clear_edist {i j : ℕ} (hi : i < 3) (hj : j < 3) : clearCloud.edist i j ≤ 1 ∨ 6 ≤ clearCloud.edist i j := by
  obtain ⟨a, ea, ha⟩ := clear_pt hi
  obtain ⟨b, eb, hb⟩ := clear_pt hj
  have e : clearCloud.edist i j = ((|a - b| : ℤ) : ℝ) := by
    unfold Cloud.edist
    rw [ea, eb]
    unfold Geometry.edist dist2
    simp [Real.sqrt_sq_eq_abs]
  rw [e]
  have : |a - b| ≤ 1 ∨ 6 ≤ |a - b| := by
    rcases ha with ⟨-, rfl⟩ | ⟨-, rfl⟩ | ⟨-, rfl⟩ <;> rcases hb with ⟨-, rfl⟩ | ⟨-, rfl⟩ | ⟨-, rfl⟩ <;> decide
  exact_mod_cast this

lemma clear_inRange {i j : ℕ} (hi : i < 3) (hj : j < 3) : InRange (2 ^ (-24 : ℤ)) (2 ^ (-126 : ℤ)) (2 ^ (127 : ℤ)) (clearCloud.pt i) (clearCloud.pt j) := by
  obtain ⟨a, ea, ha⟩ := clear_pt hi
  obtain ⟨b, eb, hb⟩ := clear_pt hj
  have h1 : (b - a) ^ 2 ≤ 49 := by
    rcases ha with ⟨-, rfl⟩ | ⟨-, rfl⟩ | ⟨-, rfl⟩ <;> rcases hb with ⟨-, rfl⟩ | ⟨-, rfl⟩ | ⟨-, rfl⟩ <;> decide
  have h1' : ((b : ℝ) - a) ^ 2 ≤ 49 := by exact_mod_cast h1
  rw [ea, eb]
  refine ⟨fun d => ?_, ?_⟩
  · fin_cases d
    simp only [Fin.zero_eta, Matrix.cons_val_zero]
    by_cases hz : b - a = 0
    · left
      have : (b : ℝ) - a = 0 := by exact_mod_cast hz
      linarith
    · right
      have h2 : 1 ≤ (b - a) ^ 2 := by
        have : 0 < (b - a) ^ 2 := by positivity
        omega
      have h2' : (1 : ℝ) ≤ ((b : ℝ) - a) ^ 2 := by exact_mod_cast h2
      calc (2 : ℝ) ^ (-126 : ℤ) ≤ (1 - 2 ^ (-24 : ℤ)) ^ (1 + 5) * 1 := by norm_num
        _ ≤ _ := mul_le_mul_of_nonneg_left h2' (by norm_num)
  · have : dist2 (![(a : ℝ)] : Pt ℝ 1) ![(b : ℝ)] = ((b : ℝ) - a) ^ 2 := by
      rw [dist2_comm]; simp [dist2]
    rw [this]
    calc (1 + 2 ^ (-24 : ℤ)) ^ (1 + 5) * ((b : ℝ) - a) ^ 2 ≤ (1 + 2 ^ (-24 : ℤ)) ^ (1 + 5) * 49 := mul_le_mul_of_nonneg_left h1' (by norm_num)
      _ ≤ _ := by norm_num

lemma clear_clear : clearCloud.Clear (2 ^ (-24 : ℤ)) (2 ^ (-126 : ℤ)) (2 ^ (127 : ℤ)) 2 := by
  intro i hi j hj
  have hi : i < 3 := hi
  have hj : j < 3 := hj
  refine ⟨clear_inRange hi hj, ?_⟩
  have h0 : 0 ≤ clearCloud.edist i j := Geometry.edist_nonneg _ _
  rcases clear_edist hi hj with h | h
  · left
    have h2 : clearCloud.edist i j ^ 2 ≤ 1 := by nlinarith
    calc (1 + 2 ^ (-24 : ℤ) : ℝ) ^ (1 + 5) * clearCloud.edist i j ^ 2 ≤ (1 + 2 ^ (-24 : ℤ)) ^ (1 + 5) * 1 := mul_le_mul_of_nonneg_left h2 (by norm_num)
      _ ≤ _ := by norm_num
  · right
    have h2 : 36 ≤ clearCloud.edist i j ^ 2 := by nlinarith
    calc (2 : ℝ) ^ 2 < (1 - 2 ^ (-24 : ℤ)) ^ (1 + 5) * 36 := by norm_num
      _ ≤ _ := mul_le_mul_of_nonneg_left h2 (by norm_num)

lemma clear_dense : clearCloud.DenseClear (2 ^ (-24 : ℤ)) (2 ^ (-126 : ℤ)) (2 ^ (127 : ℤ)) 2 (lineGrid 0 2 (7 / 2) 4) 7 0 (2 ^ (-16 : ℤ)) where
  extent a := by rw [clear_bounds]; fin_cases a; norm_num
  corner a := by rw [clear_bounds]; fin_cases a; norm_num
  positions := by simp only [lineGrid]; norm_num
  cells := by simp only [lineGrid]; norm_num
  range := by simp only [lineGrid]; norm_num
  pairs := by
    intro i hi j hj
    have hi : i < 3 := hi
    have hj : j < 3 := hj
    have h0 : 0 ≤ clearCloud.edist i j := Geometry.edist_nonneg _ _
    rcases clear_edist hi hj with h | h
    · left
      rw [Nat.cast_one, Real.sqrt_one, one_mul]
      have h2 : (clearCloud.edist i j + 2 ^ (-16 : ℤ)) ^ 2 ≤ (1 + 2 ^ (-16 : ℤ)) ^ 2 := by
        refine pow_le_pow_left₀ (by positivity) (by linarith) 2
      calc (1 + 2 ^ (-24 : ℤ) : ℝ) ^ (1 + 5) * (clearCloud.edist i j + 2 ^ (-16 : ℤ)) ^ 2 ≤ (1 + 2 ^ (-24 : ℤ)) ^ (1 + 5) * (1 + 2 ^ (-16 : ℤ)) ^ 2 :=
            mul_le_mul_of_nonneg_left h2 (by norm_num)
        _ ≤ _ := by norm_num
    · right
      refine ⟨by linarith, ?_⟩
      have h2 : 36 ≤ clearCloud.edist i j ^ 2 := by nlinarith
      refine lt_of_lt_of_le ?_ h2
      simp only [lineGrid]
      norm_num

lemma clear_cell (fma : Bool) : ∀ i < 3, ((lineGrid 0 2 (7 / 2) 4).cellIndex (Ieee.float fma) (clearCloud.pt i)).getD 0 = if i ≤ 1 then 0 else 3 := by
  obtain ⟨q0, q1, q2⟩ := clear_quot fma
  intro i hi
  interval_cases i
  · show ((lineGrid 0 2 (7 / 2) 4).cellIndex (Ieee.float fma) ![0]).getD 0 = _
    rw [lineGrid_cell _ _ q0 (i := 0) (by norm_num) (by norm_num)]; rfl
  · show ((lineGrid 0 2 (7 / 2) 4).cellIndex (Ieee.float fma) ![1]).getD 0 = _
    rw [lineGrid_cell _ _ q1 (i := 0) (by rw [Int.floor_eq_iff]; norm_num) (by norm_num)]; rfl
  · show ((lineGrid 0 2 (7 / 2) 4).cellIndex (Ieee.float fma) ![7]).getD 0 = _
    rw [lineGrid_cell _ _ q2 (i := 3) (by rw [Int.floor_eq_iff]; norm_num) (by norm_num)]; rfl

lemma clear_rest (fma : Bool) : (clearRest 3).Valid clearCloud.pts.length (fun i => ((lineGrid 0 2 (7 / 2) 4).cellIndex (Ieee.float fma) (clearCloud.pt i)).getD 0) where
  sort := by
    refine ⟨?_, ?_⟩
    · show ((List.range 3).map (fun i => i)).Perm (List.range 3); simp
    · intro i hi
      have hi : i + 1 < 3 := hi
      show ((lineGrid 0 2 (7 / 2) 4).cellIndex (Ieee.float fma) (clearCloud.pt i)).getD 0 ≤ ((lineGrid 0 2 (7 / 2) 4).cellIndex (Ieee.float fma) (clearCloud.pt (i + 1))).getD 0
      rw [clear_cell fma i (by omega), clear_cell fma (i + 1) (by omega)]
      split_ifs <;> omega
  tree := by
    intro m hm f
    have hm : m ≤ 3 := hm
    refine ⟨by decide, ?_, ⟨?_, ?_⟩, ?_⟩
    · change m ≤ 2 ^ 63
      omega
    · change ((List.range m).map (fun i => i)).Perm (List.range m)
      simp
    · intro i hi
      have hi : i + 1 < m := hi
      change (BitVec.ofNat 64 (i / 2)) ≤ (BitVec.ofNat 64 ((i + 1) / 2))
      rw [BitVec.le_def, BitVec.toNat_ofNat, BitVec.toNat_ofNat, Nat.mod_eq_of_lt (by omega), Nat.mod_eq_of_lt (by omega)]
      omega
    · intro i hi
      have hi : i < m := hi
      change (BitVec.ofNat 64 (i / 2)).toNat < 2 ^ 63
      rw [BitVec.toNat_ofNat, Nat.mod_eq_of_lt (by omega)]
      omega
  minPts := by simp [clearRest]
  chunks1 := fun m => DenseBox.split_perm _
  chunks2 := DenseBox.split_perm _
  serial1 := by simp [clearRest]
  serial2 := by simp [clearRest]

lemma clear_below (fma : Bool) : ∀ j < clearCloud.pts.length, ∀ a, (Ieee.float fma).quots (lineGrid 0 2 (7 / 2) 4).lo (lineGrid 0 2 (7 / 2) 4).h (clearCloud.pt j) a
    < ((lineGrid 0 2 (7 / 2) 4).unit.n a : ℝ) := by
  obtain ⟨q0, q1, q2⟩ := clear_quot fma
  intro j hj a
  have hj : j < 3 := hj
  fin_cases a
  interval_cases j
  · show ((Ieee.float fma).quot 0 0 2).toReal < ((4 : ℕ) : ℝ)
    rw [q0, EReal.toReal_coe]; norm_num
  · show ((Ieee.float fma).quot 1 0 2).toReal < ((4 : ℕ) : ℝ)
    rw [q1, EReal.toReal_coe]; norm_num
  · show ((Ieee.float fma).quot 7 0 2).toReal < ((4 : ℕ) : ℝ)
    rw [q2, EReal.toReal_coe]; norm_num

/-- `densebox_float_clear_partial` applies to the points 0, 1 and 7 in `float` with radius 2 and schedules under which the tree is built: 0 and 1 share a cell of length 2, which is
dense. -/
example (fma : Bool) : clearCloud.grid (Ieee.float fma) 2 (5 * 2 ^ (-23 : ℤ)) = some (lineGrid 0 2 (7 / 2) 4) ∧
    ((clearCloud.dense (Ieee.float fma) 2 (lineGrid 0 2 (7 / 2) 4) (clearRest 3)).dbscan (DenseBox.roundRobin 3) 6 = .running ∨
    ∃ l, (clearCloud.dense (Ieee.float fma) 2 (lineGrid 0 2 (7 / 2) 4) (clearRest 3)).dbscan (DenseBox.roundRobin 3) 6 = .labels l ∧ l.length = 3 ∧
      Dbscan.IsDBSCAN 3 (clearCloud.ewithin 2) 2 (Dbscan.labelOf l)) := by
  refine ⟨clear_grid fma, ?_⟩
  have hV := dense_valid (float_accurate fma) (clear_grid fma) clear_dense (by intro a; simp [lineGrid]) (clear_below fma) (by norm_num) clear_clear (clearRest 3) (clear_rest fma)
  rcases densebox_float_clear_partial clearCloud (float_accurate fma) 2 (5 * 2 ^ (-23 : ℤ)) (by norm_num) clear_clear (lineGrid 0 2 (7 / 2) 4) (clear_grid fma)
    7 0 (2 ^ (-16 : ℤ)) clear_dense (by intro a; simp [lineGrid]) (clear_below fma) (clearRest 3) (clear_rest fma) (DenseBox.roundRobin 3) (DenseBox.roundRobin_fair 3)
    (DenseBox.densebox_tree_finished _ hV _ (DenseBox.roundRobin_fair 3) (by intro t ht; have ht : t < 3 := ht; show 3 * 3 + 1 ≤ _; interval_cases t <;> decide +kernel)) 6 (by show 2 * 3 ≤ 6; norm_num)
    with h | ⟨l, h1, h2, h3, -⟩
  · exact .inl h
  · exact .inr ⟨l, h1, h2, h3 rfl⟩

end ArborX.Fp
