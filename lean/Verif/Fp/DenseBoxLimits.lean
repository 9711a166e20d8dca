import Verif.Fp.DenseBox
import Verif.Fp.DistDbscanLimits

/-!
# FDBSCAN-DenseBox in floating-point arithmetic: wrong clusterings (C77)
-/

namespace ArborX.Fp

open Geometry BVH Euclid

/-! ## `float` operations in one dimension -/

/-- Numbers of the type `float`. -/
lemma float_exact (fma : Bool) {x : ℝ} (z e : ℤ) (hz : |z| ≤ 2 ^ 24) (he : -149 ≤ e) (he' : e ≤ 100) (hx : x = z * 2 ^ e) :
    (Ieee.float fma).rnd x = (x : EReal) := by
  have key : ∀ (y : ℝ) (m : ℤ), 0 < m → m ≤ 2 ^ 24 → y = m * 2 ^ e → (Ieee.float fma).rnd y = (y : EReal) := by
    intro y m hm0 hm hy
    have hp := Ieee.ulp_pos e
    have hm0' : (0 : ℝ) < m := by exact_mod_cast hm0
    have hm' : (m : ℝ) ≤ 2 ^ 24 := by exact_mod_cast hm
    have hy0 : 0 < y := by rw [hy]; positivity
    have hu : Ieee.ulpExp 24 (-149) y ≤ e + 1 := by
      unfold Ieee.ulpExp
      have h1 : Int.log 2 y ≤ e + 24 := by
        have h2 : y ≤ (2 : ℝ) ^ (e + 24) := by
          rw [hy, zpow_add₀ (by norm_num), mul_comm]
          exact mul_le_mul_of_nonneg_left (by exact_mod_cast hm') hp.le
        exact (zpow_le_zpow_iff_right₀ (by norm_num : (1 : ℝ) < 2)).mp ((Ieee.log_le hy0).trans h2)
      push_cast
      omega
    have hnear : Ieee.near 24 (-149) y = y := by
      rcases eq_or_lt_of_le hm with h24 | h24
      · have : y = 2 ^ (24 + e) := by
          rw [hy, h24, zpow_add₀ (by norm_num)]
          norm_num
        rw [this]
        exact Ieee.near_pow (by norm_num) (by omega)
      · have hu' : Ieee.ulpExp 24 (-149) y ≤ e := by
          unfold Ieee.ulpExp
          have h1 : Int.log 2 y < e + 24 := by
            have h2 : y < (2 : ℝ) ^ (e + 24) := by
              rw [hy, zpow_add₀ (by norm_num), mul_comm]
              exact mul_lt_mul_of_pos_left (by exact_mod_cast h24) hp
            exact (zpow_lt_zpow_iff_right₀ (by norm_num : (1 : ℝ) < 2)).mp (lt_of_le_of_lt (Ieee.log_le hy0) h2)
          push_cast
          omega
        refine Ieee.near_of_mul (m * 2 ^ (e - Ieee.ulpExp 24 (-149) y).toNat) ?_
        conv_lhs => rw [hy, Ieee.zpow_split hu']
        push_cast
        ring
    show Ieee.rnd 24 (-149) 128 y = y
    unfold Ieee.rnd Ieee.pos
    rw [if_pos hy0.le, hnear, if_pos]
    have h5 : (2 : ℝ) ^ (24 : ℤ) * 2 ^ e < 2 ^ (128 : ℤ) := by
      rw [← zpow_add₀ (by norm_num)]
      exact zpow_lt_zpow_right₀ (by norm_num) (by omega)
    rw [hy]
    refine lt_of_le_of_lt (mul_le_mul_of_nonneg_right ?_ hp.le) h5
    exact_mod_cast hm'
  rcases lt_trichotomy z 0 with h | h | h
  · rw [abs_of_neg h] at hz
    have := key (-x) (-z) (by omega) hz (by rw [hx]; push_cast; ring)
    rw [(Ieee.float fma).neg, EReal.coe_neg] at this
    exact neg_injective this
  · rw [hx, h]
    simp only [Int.cast_zero, zero_mul]
    rw [(Ieee.float fma).rnd_zero]; rfl
  · rw [abs_of_pos h] at hz
    exact key x z h hz hx

lemma float_is (fma : Bool) {x y : ℝ} (z e : ℤ) (hz : |z| ≤ 2 ^ 24) (he : -149 ≤ e) (he' : e ≤ 100) (hx : x = z * 2 ^ e) (hy : y = x) :
    (Ieee.float fma).rnd x = (y : EReal) := by
  rw [hy]; exact float_exact fma z e hz he he' hx

/-- Distances of sixteenths are exact. -/
lemma dist_one (fma : Bool) {a b : ℝ} (k : ℤ) (hk : |k| ≤ 4096) (h : b - a = k / 16) :
    (Ieee.float fma).distPoint ![a] ![b] = (((|k| : ℤ) / 16 : ℝ) : EReal) := by
  have hk2 : |k| ≤ 2 ^ 24 := hk.trans (by norm_num)
  have e1 : (Ieee.float fma).rnd (k / 16 : ℝ) = ((k / 16 : ℝ) : EReal) :=
    float_exact fma k (-4) hk2 (by norm_num) (by norm_num) (by norm_num; ring)
  have hkk : |k * k| ≤ 2 ^ 24 := by
    rw [abs_mul]
    nlinarith [abs_nonneg k]
  have e2 : (Ieee.float fma).rnd (k / 16 * (k / 16) : ℝ) = ((k / 16 * (k / 16) : ℝ) : EReal) :=
    float_exact fma (k * k) (-8) hkk (by norm_num) (by norm_num) (by push_cast; norm_num; ring)
  have e3 : (Ieee.float fma).rnd (((|k| : ℤ) : ℝ) / 16) = ((((|k| : ℤ) : ℝ) / 16 : ℝ) : EReal) :=
    float_exact fma |k| (-4) (by rw [abs_abs]; exact hk2) (by norm_num) (by norm_num) (by norm_num; ring)
  unfold Format.distPoint Format.norm
  simp only [List.finRange_succ, List.finRange_zero, List.map_nil, List.foldl_cons, List.foldl_nil, Matrix.cons_val_zero, h, Format.step]
  rw [e1, show (0 : EReal) = ((0 : ℝ) : EReal) from rfl, Format.madd_coe _ e2]
  simp only [add_zero, zero_add, ite_self, e2]
  unfold Format.sqrt
  rw [if_neg (EReal.coe_ne_top _), EReal.toReal_coe]
  have : Real.sqrt ((k / 16 : ℝ) * (k / 16)) = ((|k| : ℤ) : ℝ) / 16 := by
    rw [Real.sqrt_mul_self_eq_abs, abs_div, Int.cast_abs]
    norm_num
  rw [this, e3]

/-- Points at least 6 apart have a computed distance of at least 6. -/
lemma far_one (fma : Bool) {a b : ℝ} (h : 6 ≤ |b - a|) : ¬ (Ieee.float fma).distPoint ![a] ![b] ≤ ((11 / 2 : ℝ) : EReal) := by
  have h1 : (Ieee.float fma).distPoint ![0] ![6] ≤ (Ieee.float fma).distPoint ![a] ![b] := by
    refine (Ieee.float fma).norm_mono (fun d x hx => ⟨_, rfl, ?_⟩)
    rw [Option.some_inj] at hx
    rw [← hx]
    fin_cases d
    simpa using h
  rw [dist_one fma 96 (by norm_num) (by norm_num)] at h1
  intro h2
  have := EReal.coe_le_coe_iff.mp (h1.trans h2)
  norm_num at this

/-- The box of a dense cell as a bounding volume. -/
lemma leafBound_box {D : ℕ} {M : ℝ} {B : Box ℝ D} (hB : B.Valid) (h : ∀ d, B.lo d ≤ M ∧ -M ≤ B.hi d) :
    leafBound M (.box B) = ((⟨B, hB⟩ : VBox D) : Bound D) := by
  have e : (Box.empty M).expand (.box B) = B := by
    show (Box.empty M).expandBox B = B
    unfold Box.expandBox Box.empty
    cases B with
    | mk l r =>
      congr 1
      · funext d; exact min_eq_right (h d).1
      · funext d; exact max_eq_right (h d).2
  unfold leafBound
  rw [dif_pos (by rw [e]; exact hB)]
  simp only [e]

/-- A grid on a line, with `n` cells. -/
noncomputable def lineGrid (lo h top : ℝ) (n : ℕ) : FGrid 1 := ⟨![lo], h, ⟨0, ![top], fun _ => 1, fun _ => n⟩⟩

lemma lineGrid_cell (F : Format) {lo h top q : ℝ} {n i : ℕ} (p : ℝ) (hq : F.quot p lo h = q) (hf : ⌊q⌋ = (i : ℤ)) (hi : i < 2 ^ 31) :
    (lineGrid lo h top n).cellIndex F ![p] = some i := by
  have hf' : ⌊(F.quots ![lo] h ![p] 0 - (0 : Pt ℝ 1) 0) / 1⌋ = (i : ℤ) := by
    unfold Format.quots
    simp [hq, hf]
  unfold FGrid.cellIndex lineGrid
  rw [if_neg]
  · unfold DenseBox.Grid.cellIndex
    simp only [List.finRange_succ, List.finRange_zero, List.map_nil, DenseBox.Grid.index, DenseBox.Grid.coord]
    rw [hf', if_pos ⟨by omega, by omega⟩]
    simp only [Int.toNat_natCast, zero_mul, zero_add, Option.some_inj]
    exact Nat.mod_eq_of_lt (by omega)
  · rintro ⟨a, ha⟩
    fin_cases a
    simp only [Fin.zero_eta, Matrix.cons_val_zero] at ha
    rw [hq] at ha
    exact EReal.coe_ne_top _ ha

lemma lineGrid_box (F : Format) {lo h top l r : ℝ} {n c : ℕ} (hc : c < n) (hl : (lineGrid lo h top n).corner F 0 c = l)
    (hr : (lineGrid lo h top n).corner F 0 (c + 1) = r) : (lineGrid lo h top n).cellBox F c = ⟨![l], ![r]⟩ := by
  have e : (lineGrid lo h top n).unit.cellBox c = (![(c : ℝ)], ![(c : ℝ) + 1]) := by
    unfold DenseBox.Grid.cellBox lineGrid
    simp only [List.finRange_succ, List.finRange_zero, List.map_nil, DenseBox.Grid.boxLoop, Nat.mod_eq_of_lt hc]
    simp
    constructor <;> (funext a; fin_cases a; simp)
  unfold FGrid.cellBox
  rw [e]
  congr 1
  · funext a; fin_cases a; simp [hl]
  · funext a; fin_cases a; simp [hr]

lemma corner_of (F : Format) {lo h top x y m m' c : ℝ} {n : ℕ} (hx : F.rnd x = y) (hm : y * h = m) (hf : F.fma = true → F.rnd (lo + m) = c)
    (hm' : F.rnd m = m') (hs : F.fma = false → F.rnd (lo + m') = c) : (lineGrid lo h top n).corner F 0 x = c := by
  unfold FGrid.corner lineGrid
  simp only [Matrix.cons_val_zero, hx, EReal.toReal_coe, hm]
  rw [if_neg (EReal.coe_ne_top _), hm', if_neg (EReal.coe_ne_top _), EReal.toReal_coe]
  cases hff : F.fma
  · rw [if_neg (by simp)]; exact hs hff
  · rw [if_pos rfl]; exact hf hff

/-- A grid on a line is built. -/
lemma lineGrid_build (F : Format) {B : Box ℝ 1} {lo hi h q prec : ℝ} {n : ℕ} (hB : B = ⟨![lo], ![hi]⟩) (hh : 0 < h) (hq : F.quot hi lo h = q) (hq0 : 0 < q)
    (hn : ⌈q⌉ = (n : ℤ)) (hn2 : n < 2 ^ 64) (hprec : lo ≠ 0 → ¬ F.rnd |h / lo| < (prec : EReal)) :
    FGrid.build F B h prec = some (lineGrid lo h q n) := by
  have hn0 : 0 < n := by
    have : 0 < ⌈q⌉ := Int.ceil_pos.mpr hq0
    omega
  have hqs : F.quots ![lo] h ![hi] = ![q] := by
    funext a
    fin_cases a
    simp [Format.quots, hq]
  have hc : DenseBox.cellCount q 1 = n := by
    unfold DenseBox.cellCount
    rw [if_pos hq0.ne', div_one, hn, Int.toNat_natCast]
  unfold FGrid.build
  subst hB
  rw [if_neg (by simpa using hh), if_neg, if_neg, if_neg]
  · dsimp only
    rw [hqs]
    unfold DenseBox.Grid.build
    simp only [zero_lt_one, not_true_eq_false, if_false]
    rw [if_neg, if_neg, if_neg]
    · simp only [Option.map_some, lineGrid]
      congr
      funext a
      fin_cases a
      simp [hc]
    · simp
    · simp [List.finRange_succ, DenseBox.sizeCheck]
    · simp [List.finRange_succ, hc]
      omega
  · rintro ⟨a, h0, ha⟩
    fin_cases a
    exact hprec (by simpa using h0) (by simpa using ha)
  · rintro ⟨a, -, ha⟩
    fin_cases a
    simp only [Fin.zero_eta, Matrix.cons_val_zero, hq] at ha
    exact hq0.ne' (EReal.coe_eq_zero.mp ha)
  · rintro ⟨a, ha⟩
    fin_cases a
    simp only [Fin.zero_eta, Matrix.cons_val_zero, hq] at ha
    exact EReal.coe_ne_top _ ha

/-- Points on a line. -/
def lineCloud (xs : List ℝ) (M : ℝ) (code : ℕ → BitVec 64) (perm : ℕ → ℕ) : Cloud 1 := ⟨xs.map (fun x => ![x]), M, code, perm⟩

lemma near_eq (fma : Bool) {xs : List ℝ} {M : ℝ} {code : ℕ → BitVec 64} {perm : ℕ → ℕ} {eps : ℝ} {g : FGrid 1} {R : DenseRest 1} {i j : ℕ} {a b : ℝ}
    (hi : xs[i]? = some a) (hj : xs[j]? = some b) :
    ((lineCloud xs M code perm).dense (Ieee.float fma) eps g R).near i j = decide ((Ieee.float fma).distPoint ![a] ![b] ≤ (eps : EReal)) := by
  have ha : (lineCloud xs M code perm).pt i = ![a] := by
    simp [lineCloud, Cloud.pt, List.getD_eq_getElem?_getD, hi]
  have hb : (lineCloud xs M code perm).pt j = ![b] := by
    simp [lineCloud, Cloud.pt, List.getD_eq_getElem?_getD, hj]
  unfold Cloud.dense
  simp only [ha, hb, Format.intersects, Option.some_inj, decide_eq_true_eq]

lemma ewithin_eq {xs : List ℝ} {M : ℝ} {code : ℕ → BitVec 64} {perm : ℕ → ℕ} {eps : ℝ} {i j : ℕ} {a b : ℝ} (hi : xs[i]? = some a) (hj : xs[j]? = some b) :
    (lineCloud xs M code perm).ewithin eps i j = decide (|a - b| ≤ eps) := by
  have ha : (lineCloud xs M code perm).pt i = ![a] := by
    simp [lineCloud, Cloud.pt, List.getD_eq_getElem?_getD, hi]
  have hb : (lineCloud xs M code perm).pt j = ![b] := by
    simp [lineCloud, Cloud.pt, List.getD_eq_getElem?_getD, hj]
  have e : (lineCloud xs M code perm).edist i j = |a - b| := by
    unfold Cloud.edist
    rw [ha, hb]
    unfold Geometry.edist dist2
    simp [Real.sqrt_sq_eq_abs]
  unfold Cloud.ewithin
  simp only [e]

lemma cell_eq (fma : Bool) {xs : List ℝ} {M : ℝ} {code : ℕ → BitVec 64} {perm : ℕ → ℕ} {eps : ℝ} {g : FGrid 1} {R : DenseRest 1} {i c : ℕ} {a : ℝ}
    (hi : xs[i]? = some a) (hc : g.cellIndex (Ieee.float fma) ![a] = some c) :
    ((lineCloud xs M code perm).dense (Ieee.float fma) eps g R).cell i = c := by
  have ha : (lineCloud xs M code perm).pt i = ![a] := by
    simp [lineCloud, Cloud.pt, List.getD_eq_getElem?_getD, hi]
  unfold Cloud.dense
  simp only [ha, hc, Option.getD_some]

lemma nearBox_eq (fma : Bool) {xs : List ℝ} {M : ℝ} {code : ℕ → BitVec 64} {perm : ℕ → ℕ} {eps : ℝ} {g : FGrid 1} {R : DenseRest 1} {i c : ℕ} {a l r x : ℝ}
    (hi : xs[i]? = some a) (hc : g.cellBox (Ieee.float fma) c = ⟨![l], ![r]⟩) (hlr : l ≤ r) (hM : l ≤ M ∧ -M ≤ r)
    (hx : (if a < l then l else if a > r then r else a) = x) :
    ((lineCloud xs M code perm).dense (Ieee.float fma) eps g R).nearBox i c = decide ((Ieee.float fma).distPoint ![a] ![x] ≤ (eps : EReal)) := by
  have ha : (lineCloud xs M code perm).pt i = ![a] := by
    simp [lineCloud, Cloud.pt, List.getD_eq_getElem?_getD, hi]
  have hv : (⟨![l], ![r]⟩ : Box ℝ 1).Valid := by
    intro d; fin_cases d; simpa using hlr
  have hcl : closestPointBox ![a] (⟨![l], ![r]⟩ : Box ℝ 1) = ![x] := by
    funext d; fin_cases d; simpa [closestPointBox] using hx
  show nodeTest (Ieee.float fma) (.sphere ⟨(lineCloud xs M code perm).pt i, eps⟩) (leafBound M (.box (g.cellBox (Ieee.float fma) c))) = _
  rw [ha, hc, leafBound_box hv (by intro d; fin_cases d; simpa using hM)]
  show decide ((Ieee.float fma).intersects (.sphere ⟨![a], eps⟩) (.box (⟨![l], ![r]⟩ : Box ℝ 1)) = some true) = _
  have e : (Ieee.float fma).distPointBox ![a] (⟨![l], ![r]⟩ : Box ℝ 1) = (Ieee.float fma).distPoint ![a] ![x] := by
    unfold Format.distPointBox
    rw [hcl]
  simp only [Format.intersects, Option.some_inj, decide_eq_true_eq, e]

/-! ## Inputs given by tables -/

/-- Clustering of `n` points, at least 2 per core point, with the answers of the distance tests in tables: `near i j` and `nearBox i c`. A volume stands for the
set of points and (from `n` on) boxes of cells in it. The order of the points is that of the cells. -/
def tableIn (n : ℕ) (near : ℕ → ℕ → Bool) (cell : ℕ → ℕ) (nearBox : ℕ → ℕ → Bool) : DenseBox.DIn (Finset ℕ) 64 where
  n := n
  near := near
  pv := fun i v => decide (∃ x ∈ v, (if x < n then near i x else nearBox i (x - n)) = true)
  pvol := fun i => {i}
  cell := cell
  box := fun c => {n + c}
  nearBox := nearBox
  σ := fun i => i
  code := fun _ _ i => BitVec.ofNat 64 (i / 2)
  tperm := fun _ _ i => i
  minPts := 2
  star := false
  serial := false
  chunks1 := fun m => [(List.range' 1 (m - 1)).filter (· % 2 = 0), (List.range' 1 (m - 1)).filter (· % 2 = 1)]
  chunks2 := [(List.range n).filter (· % 2 = 0), (List.range n).filter (· % 2 = 1)]

/-! ## Points joined although they are too far apart -/

/-- The points `-2 ^ 23`, 2.5625 and 8.5; the last two are 5.9375 apart. -/
noncomputable def joinPts : List ℝ := [-2 ^ 23, 41 / 16, 17 / 2]

/-- What the kernels ask about them: see `densebox_float_joins`. -/
def joinTable : DenseBox.DIn (Finset ℕ) 64 :=
  tableIn 3 (fun i j => decide (i = j)) (fun i => if i = 0 then 0 else 1525202) (fun i _ => decide (i ≠ 0))

lemma quot_of (F : Format) {x y h d e : ℝ} (h1 : F.rnd (x - y) = d) (h2 : F.rnd (d / h) = e) : F.quot x y h = e := by
  unfold Format.quot
  rw [h1, if_neg (by simp), EReal.toReal_coe, h2]

lemma quot_low (fma : Bool) : (Ieee.float fma).quot (-2 ^ 23) (-2 ^ 23) (11 / 2) = ((0 : ℝ) : EReal) := by
  refine quot_of _ (d := 0) (float_is fma 0 0 (by norm_num) (by norm_num) (by norm_num) (by norm_num) (by norm_num)) ?_
  exact float_is fma 0 0 (by norm_num) (by norm_num) (by norm_num) (by norm_num) (by norm_num)

lemma length_one (fma : Bool) : (Ieee.float fma).cellLength 1 (11 / 2) = ((11 / 2 : ℝ) : EReal) := by
  unfold Format.cellLength
  have h1 : (Ieee.float fma).rnd (Real.sqrt ((1 : ℕ) : ℝ)) = ((1 : ℝ) : EReal) := by
    rw [Nat.cast_one, Real.sqrt_one]
    exact float_exact fma 1 0 (by norm_num) (by norm_num) (by norm_num) (by norm_num)
  rw [h1, EReal.toReal_coe]
  exact float_is fma 11 (-1) (by norm_num) (by norm_num) (by norm_num) (by norm_num) (by norm_num)

lemma prec_ok (fma : Bool) : ¬ (Ieee.float fma).rnd |(11 / 2 : ℝ) / (-2 ^ 23)| < ((5 * 2 ^ (-23 : ℤ) : ℝ) : EReal) := by
  have : |(11 / 2 : ℝ) / (-2 ^ 23)| = ((11 : ℤ) : ℝ) * 2 ^ (-24 : ℤ) := by
    rw [abs_of_neg (by norm_num)]
    norm_num
  rw [this, float_exact fma 11 (-24) (by norm_num) (by norm_num) (by norm_num) rfl, not_lt, EReal.coe_le_coe_iff]
  norm_num


/-- The grid: cells of length 5.5 starting at `-2 ^ 23`. -/
lemma grid_eq (fma : Bool) {xs : List ℝ} {M x : ℝ} {code : ℕ → BitVec 64} {perm : ℕ → ℕ} {q : ℝ} {n : ℕ}
    (hB : boundsOf M (xs.map (fun x => (![x] : Pt ℝ 1))) = ⟨![-2 ^ 23], ![x]⟩) (hq : (Ieee.float fma).quot x (-2 ^ 23) (11 / 2) = q) (hq0 : 0 < q)
    (hn : ⌈q⌉ = (n : ℤ)) (hn2 : n < 2 ^ 64) :
    (lineCloud xs M code perm).grid (Ieee.float fma) (11 / 2) (5 * 2 ^ (-23 : ℤ)) = some (lineGrid (-2 ^ 23) (11 / 2) q n) := by
  unfold Cloud.grid
  rw [length_one, if_neg (EReal.coe_ne_top _), EReal.toReal_coe]
  exact lineGrid_build _ hB (by norm_num) hq hq0 hn hn2 (fun _ => prec_ok fma)

lemma join_low (fma : Bool) : (Ieee.float fma).quot (41 / 16) (-2 ^ 23) (11 / 2) = ((1525202 : ℝ) : EReal) := by
  refine quot_of _ (d := 8388611) ?_ ?_
  · exact float_eq _ 0 8388611 (by norm_num) (by norm_num) (by norm_num) (by norm_num) (by norm_num) (by norm_num) (by norm_num)
  · exact float_is fma 1525202 0 (by norm_num) (by norm_num) (by norm_num) (by norm_num) (by norm_num)

lemma join_high (fma : Bool) : (Ieee.float fma).quot (17 / 2) (-2 ^ 23) (11 / 2) = ((12201623 / 8 : ℝ) : EReal) := by
  refine quot_of _ (d := 8388616) ?_ ?_
  · exact float_tie _ 0 8388616 (by norm_num) (by norm_num) (by norm_num) (by norm_num) (by norm_num) (by norm_num) (by norm_num) (by norm_num)
  · exact float_eq _ (-3) 12201623 (by norm_num) (by norm_num) (by norm_num) (by norm_num) (by norm_num) (by norm_num) (by norm_num)

lemma join_box (fma : Bool) (top : ℝ) (n : ℕ) (hn : 1525202 < n) : ∃ r : ℝ, (r = 8 ∨ r = 17 / 2) ∧ (lineGrid (-2 ^ 23) (11 / 2) top n).cellBox (Ieee.float fma) 1525202 = ⟨![3], ![r]⟩ := by
  refine ⟨if fma then 17 / 2 else 8, by cases fma <;> simp, lineGrid_box _ hn ?_ ?_⟩
  · refine corner_of _ (y := 1525202) (m := 8388611) (m' := 8388611) ?_ (by norm_num) (fun _ => ?_) ?_ (fun _ => ?_)
    · exact float_is fma 1525202 0 (by norm_num) (by norm_num) (by norm_num) (by norm_num) (by norm_num)
    · exact float_is fma 3 0 (by norm_num) (by norm_num) (by norm_num) (by norm_num) (by norm_num)
    · exact float_is fma 8388611 0 (by norm_num) (by norm_num) (by norm_num) (by norm_num) (by norm_num)
    · exact float_is fma 3 0 (by norm_num) (by norm_num) (by norm_num) (by norm_num) (by norm_num)
  · refine corner_of _ (y := 1525203) (m := 16777233 / 2) (m' := 8388616) ?_ (by norm_num) (fun h => ?_) ?_ (fun h => ?_)
    · exact float_is fma 1525203 0 (by norm_num) (by norm_num) (by norm_num) (by norm_num) (by norm_num)
    · have h : fma = true := h
      rw [if_pos h]
      exact float_is fma 17 (-1) (by norm_num) (by norm_num) (by norm_num) (by norm_num) (by norm_num)
    · exact float_tie _ 0 8388616 (by norm_num) (by norm_num) (by norm_num) (by norm_num) (by norm_num) (by norm_num) (by norm_num) (by norm_num)
    · have h : fma = false := h
      subst h
      exact float_is false 8 0 (by norm_num) (by norm_num) (by norm_num) (by norm_num) (by norm_num)

lemma close_one (fma : Bool) {a b : ℝ} (k : ℤ) (hk : |k| ≤ 88) (h : b - a = k / 16) :
    decide ((Ieee.float fma).distPoint ![a] ![b] ≤ ((11 / 2 : ℝ) : EReal)) = true := by
  rw [decide_eq_true_eq, dist_one fma k (by omega) h, EReal.coe_le_coe_iff]
  have : ((|k| : ℤ) : ℝ) ≤ 88 := by exact_mod_cast hk
  linarith

lemma apart_one (fma : Bool) {a b : ℝ} (k : ℤ) (hk : |k| ≤ 4096) (hk' : 88 < |k|) (h : b - a = k / 16) :
    decide ((Ieee.float fma).distPoint ![a] ![b] ≤ ((11 / 2 : ℝ) : EReal)) = false := by
  rw [decide_eq_false_iff_not, dist_one fma k hk h, EReal.coe_le_coe_iff, not_le]
  have : (88 : ℝ) < ((|k| : ℤ) : ℝ) := by exact_mod_cast hk'
  linarith

lemma e_close {a b : ℝ} (h : |a - b| ≤ 11 / 2) : decide (|a - b| ≤ 11 / 2) = true := decide_eq_true h

lemma e_far {a b : ℝ} (h : 11 / 2 < |a - b|) : decide (|a - b| ≤ 11 / 2) = false := decide_eq_false (not_le.mpr h)

lemma remote_one (fma : Bool) {a b : ℝ} (h : 6 ≤ |b - a|) :
    decide ((Ieee.float fma).distPoint ![a] ![b] ≤ ((11 / 2 : ℝ) : EReal)) = false := by
  rw [decide_eq_false_iff_not]; exact far_one fma h

/-- **C77 (defect).** `float`, with or without contraction: for the points `-2 ^ 23`, 2.5625 and 8.5 and the radius 5.5 the grid is accepted and puts the last two into one
cell, which is dense for `core_min_size` 2 although the points are 5.9375 apart and their computed distance is exact. The code makes them a cluster; by the computed distances as
well as by the Euclidean ones all points are noise. (The clustering is run for the answers of the distance tests given by `joinTable`.) -/
theorem densebox_float_joins (fma : Bool) (M : ℝ) (hM : 2 ^ 24 ≤ M) (code : ℕ → BitVec 64) (perm : ℕ → ℕ) (R : DenseRest 1) :
    ∃ g, (lineCloud joinPts M code perm).grid (Ieee.float fma) (11 / 2) (5 * 2 ^ (-23 : ℤ)) = some g ∧
      (∀ i < 3, ∀ j < 3, ((lineCloud joinPts M code perm).dense (Ieee.float fma) (11 / 2) g R).near i j = joinTable.near i j) ∧
      (∀ i < 3, ∀ j < 3, (lineCloud joinPts M code perm).ewithin (11 / 2) i j = joinTable.near i j) ∧
      (∀ i < 3, ((lineCloud joinPts M code perm).dense (Ieee.float fma) (11 / 2) g R).cell i = joinTable.cell i) ∧
      (∀ i < 3, ((lineCloud joinPts M code perm).dense (Ieee.float fma) (11 / 2) g R).nearBox i 1525202 = joinTable.nearBox i 1525202) ∧
      joinTable.dbscan (DenseBox.roundRobin 3) 6 = .labels [-1, 1, 1] ∧
      ¬ Dbscan.IsDBSCAN 3 joinTable.near 2 (Dbscan.labelOf [-1, 1, 1]) := by
  refine ⟨_, grid_eq fma (x := 17 / 2) (q := 12201623 / 8) (n := 1525203) ?_ (join_high fma) (by norm_num) ?_ (by norm_num), ?_, ?_, ?_, ?_, by decide +kernel, ?_⟩
  · have h1 : (-2 ^ 23 : ℝ) ≤ M := by linarith
    have h2 : -M ≤ (-2 ^ 23 : ℝ) := by linarith
    simp only [joinPts, boundsOf, List.map_cons, List.map_nil, List.foldl_cons, List.foldl_nil, Box.expandPoint, Box.empty]
    congr 1
    · funext d; fin_cases d
      simp only [Fin.zero_eta, Matrix.cons_val_zero]
      rw [min_eq_right h1, min_eq_left (by norm_num), min_eq_left (by norm_num)]
    · funext d; fin_cases d
      simp only [Fin.zero_eta, Matrix.cons_val_zero]
      rw [max_eq_right h2, max_eq_right (by norm_num)]
  · rw [Int.ceil_eq_iff]; norm_num
  · intro i hi j hj
    interval_cases i <;> interval_cases j
    all_goals (rw [near_eq fma (xs := joinPts) rfl rfl])
    · exact close_one fma 0 (by norm_num) (by norm_num)
    · exact remote_one fma (by norm_num)
    · exact remote_one fma (by norm_num)
    · exact remote_one fma (by norm_num)
    · exact close_one fma 0 (by norm_num) (by norm_num)
    · exact apart_one fma 95 (by norm_num) (by norm_num) (by norm_num)
    · exact remote_one fma (by norm_num)
    · exact apart_one fma (-95) (by norm_num) (by norm_num) (by norm_num)
    · exact close_one fma 0 (by norm_num) (by norm_num)
  · intro i hi j hj
    interval_cases i <;> interval_cases j
    all_goals (rw [ewithin_eq (xs := joinPts) rfl rfl])
    all_goals first
      | (refine e_close ?_; rw [abs_le]; norm_num; done)
      | (refine e_far ?_; rw [lt_abs]; left; norm_num; done)
      | (refine e_far ?_; rw [lt_abs]; right; norm_num; done)
  · intro i hi
    interval_cases i
    · exact cell_eq fma (xs := joinPts) rfl (lineGrid_cell _ _ (quot_low fma) (i := 0) (by norm_num) (by norm_num))
    · exact cell_eq fma (xs := joinPts) rfl (lineGrid_cell _ _ (join_low fma) (i := 1525202) (by rw [Int.floor_eq_iff]; norm_num) (by norm_num))
    · exact cell_eq fma (xs := joinPts) rfl (lineGrid_cell _ _ (join_high fma) (i := 1525202) (by rw [Int.floor_eq_iff]; norm_num) (by norm_num))
  · intro i hi
    obtain ⟨r, hr, hbox⟩ := join_box fma (12201623 / 8) 1525203 (by norm_num)
    have hM' : (3 : ℝ) ≤ M ∧ -M ≤ r := by
      refine ⟨by linarith, ?_⟩
      rcases hr with rfl | rfl <;> linarith
    have hlr : (3 : ℝ) ≤ r := by rcases hr with rfl | rfl <;> norm_num
    interval_cases i
    · rw [nearBox_eq fma (xs := joinPts) (i := 0) rfl hbox hlr hM' (x := 3) (by norm_num)]
      exact remote_one fma (by norm_num)
    · rw [nearBox_eq fma (xs := joinPts) (i := 1) rfl hbox hlr hM' (x := 3) (by norm_num)]
      exact close_one fma 7 (by norm_num) (by norm_num)
    · rw [nearBox_eq fma (xs := joinPts) (i := 2) rfl hbox hlr hM' (x := r) ?_]
      · rcases hr with rfl | rfl
        · exact close_one fma (-8) (by norm_num) (by norm_num)
        · exact close_one fma 0 (by norm_num) (by norm_num)
      · rcases hr with rfl | rfl <;> norm_num
  · intro h
    exact absurd (h.noise 1 (by norm_num) (by decide) (by rintro ⟨j, hj, h1, h2⟩; interval_cases j <;> revert h1 h2 <;> decide)) (by decide)

/-! ## A cluster split -/

/-- The points `-2 ^ 23`, 3, 8.25, 13.6875 and 19; the gaps after the second one are 5.25, 5.4375 and 5.3125. -/
noncomputable def splitPts : List ℝ := [-2 ^ 23, 3, 33 / 4, 219 / 16, 19]

/-- What the kernels ask about them: see `densebox_float_splits`. -/
def splitTable : DenseBox.DIn (Finset ℕ) 64 :=
  tableIn 5 (fun i j => decide (i = j ∨ 0 < i ∧ 0 < j ∧ i ≤ j + 1 ∧ j ≤ i + 1)) (fun i => if i = 0 then 0 else if i ≤ 2 then 1525202 else 1525204)
    (fun i c => decide (c = 1525202 ∧ (i = 1 ∨ i = 2) ∨ c = 1525204 ∧ (i = 3 ∨ i = 4)))

lemma split_quot : (Ieee.float false).quot 3 (-2 ^ 23) (11 / 2) = ((1525202 : ℝ) : EReal) ∧
    (Ieee.float false).quot (33 / 4) (-2 ^ 23) (11 / 2) = ((12201623 / 8 : ℝ) : EReal) ∧
    (Ieee.float false).quot (219 / 16) (-2 ^ 23) (11 / 2) = ((1525204 : ℝ) : EReal) ∧
    (Ieee.float false).quot 19 (-2 ^ 23) (11 / 2) = ((12201639 / 8 : ℝ) : EReal) := by
  refine ⟨quot_of _ (d := 8388611) ?_ ?_, quot_of _ (d := 8388616) ?_ ?_, quot_of _ (d := 8388622) ?_ ?_, quot_of _ (d := 8388627) ?_ ?_⟩
  · exact float_eq _ 0 8388611 (by norm_num) (by norm_num) (by norm_num) (by norm_num) (by norm_num) (by norm_num) (by norm_num)
  · exact float_is false 1525202 0 (by norm_num) (by norm_num) (by norm_num) (by norm_num) (by norm_num)
  · exact float_eq _ 0 8388616 (by norm_num) (by norm_num) (by norm_num) (by norm_num) (by norm_num) (by norm_num) (by norm_num)
  · exact float_eq _ (-3) 12201623 (by norm_num) (by norm_num) (by norm_num) (by norm_num) (by norm_num) (by norm_num) (by norm_num)
  · exact float_eq _ 0 8388622 (by norm_num) (by norm_num) (by norm_num) (by norm_num) (by norm_num) (by norm_num) (by norm_num)
  · exact float_is false 1525204 0 (by norm_num) (by norm_num) (by norm_num) (by norm_num) (by norm_num)
  · exact float_eq _ 0 8388627 (by norm_num) (by norm_num) (by norm_num) (by norm_num) (by norm_num) (by norm_num) (by norm_num)
  · exact float_eq _ (-3) 12201639 (by norm_num) (by norm_num) (by norm_num) (by norm_num) (by norm_num) (by norm_num) (by norm_num)

lemma split_box1 (top : ℝ) : (lineGrid (-2 ^ 23) (11 / 2) top 1525205).cellBox (Ieee.float false) 1525202 = ⟨![3], ![8]⟩ := by
  refine lineGrid_box _ (by norm_num) ?_ ?_
  · refine corner_of _ (y := 1525202) (m := 8388611) (m' := 8388611) ?_ (by norm_num) (fun h => absurd (show false = true from h) (by decide)) ?_ (fun _ => ?_)
    · exact float_is false 1525202 0 (by norm_num) (by norm_num) (by norm_num) (by norm_num) (by norm_num)
    · exact float_is false 8388611 0 (by norm_num) (by norm_num) (by norm_num) (by norm_num) (by norm_num)
    · exact float_is false 3 0 (by norm_num) (by norm_num) (by norm_num) (by norm_num) (by norm_num)
  · refine corner_of _ (y := 1525203) (m := 16777233 / 2) (m' := 8388616) ?_ (by norm_num) (fun h => absurd (show false = true from h) (by decide)) ?_ (fun h => ?_)
    · exact float_is false 1525203 0 (by norm_num) (by norm_num) (by norm_num) (by norm_num) (by norm_num)
    · exact float_tie _ 0 8388616 (by norm_num) (by norm_num) (by norm_num) (by norm_num) (by norm_num) (by norm_num) (by norm_num) (by norm_num)
    · exact float_is false 8 0 (by norm_num) (by norm_num) (by norm_num) (by norm_num) (by norm_num)

lemma split_box2 (top : ℝ) : (lineGrid (-2 ^ 23) (11 / 2) top 1525205).cellBox (Ieee.float false) 1525204 = ⟨![14], ![20]⟩ := by
  refine lineGrid_box _ (by norm_num) ?_ ?_
  · refine corner_of _ (y := 1525204) (m := 8388622) (m' := 8388622) ?_ (by norm_num) (fun h => absurd (show false = true from h) (by decide)) ?_ (fun _ => ?_)
    · exact float_is false 1525204 0 (by norm_num) (by norm_num) (by norm_num) (by norm_num) (by norm_num)
    · exact float_is false 8388622 0 (by norm_num) (by norm_num) (by norm_num) (by norm_num) (by norm_num)
    · exact float_is false 14 0 (by norm_num) (by norm_num) (by norm_num) (by norm_num) (by norm_num)
  · refine corner_of _ (y := 1525205) (m := 16777255 / 2) (m' := 8388628) ?_ (by norm_num) (fun h => absurd (show false = true from h) (by decide)) ?_ (fun h => ?_)
    · exact float_is false 1525205 0 (by norm_num) (by norm_num) (by norm_num) (by norm_num) (by norm_num)
    · exact float_tie _ 0 8388628 (by norm_num) (by norm_num) (by norm_num) (by norm_num) (by norm_num) (by norm_num) (by norm_num) (by norm_num)
    · exact float_is false 20 0 (by norm_num) (by norm_num) (by norm_num) (by norm_num) (by norm_num)

/-- **C77 (defect).** `float` without contraction: for the points `-2 ^ 23`, 3, 8.25, 13.6875, 19 and the radius 5.5 the grid is accepted, and 8.25 and 13.6875 are in cells whose
computed boxes do not contain them: the boxes are 5.75 and 5.6875 away from the point of the other cell, while the points are 5.4375 apart. With
`core_min_size` 2 the code returns two clusters; by the computed distances as well as by the Euclidean ones the last four points are one cluster. (The clustering is run for the
answers of the distance tests given by `splitTable`.) -/
theorem densebox_float_splits (M : ℝ) (hM : 2 ^ 24 ≤ M) (code : ℕ → BitVec 64) (perm : ℕ → ℕ) (R : DenseRest 1) :
    ∃ g, (lineCloud splitPts M code perm).grid (Ieee.float false) (11 / 2) (5 * 2 ^ (-23 : ℤ)) = some g ∧
      (∀ i < 5, ∀ j < 5, ((lineCloud splitPts M code perm).dense (Ieee.float false) (11 / 2) g R).near i j = splitTable.near i j) ∧
      (∀ i < 5, ∀ j < 5, (lineCloud splitPts M code perm).ewithin (11 / 2) i j = splitTable.near i j) ∧
      (∀ i < 5, ((lineCloud splitPts M code perm).dense (Ieee.float false) (11 / 2) g R).cell i = splitTable.cell i) ∧
      (∀ i < 5, ∀ c, c = 1525202 ∨ c = 1525204 →
        ((lineCloud splitPts M code perm).dense (Ieee.float false) (11 / 2) g R).nearBox i c = splitTable.nearBox i c) ∧
      splitTable.dbscan (DenseBox.roundRobin 5) 10 = .labels [-1, 1, 1, 3, 3] ∧
      ¬ Dbscan.IsDBSCAN 5 splitTable.near 2 (Dbscan.labelOf [-1, 1, 1, 3, 3]) := by
  obtain ⟨q1, q2, q3, q4⟩ := split_quot
  refine ⟨_, grid_eq false (x := 19) (q := 12201639 / 8) (n := 1525205) ?_ q4 (by norm_num) ?_ (by norm_num), ?_, ?_, ?_, ?_, by decide +kernel, ?_⟩
  · have h1 : (-2 ^ 23 : ℝ) ≤ M := by linarith
    have h2 : -M ≤ (-2 ^ 23 : ℝ) := by linarith
    simp only [splitPts, boundsOf, List.map_cons, List.map_nil, List.foldl_cons, List.foldl_nil, Box.expandPoint, Box.empty]
    congr 1
    · funext d; fin_cases d
      simp only [Fin.zero_eta, Matrix.cons_val_zero]
      rw [min_eq_right h1, min_eq_left (by norm_num), min_eq_left (by norm_num), min_eq_left (by norm_num), min_eq_left (by norm_num)]
    · funext d; fin_cases d
      simp only [Fin.zero_eta, Matrix.cons_val_zero]
      rw [max_eq_right h2, max_eq_right (by norm_num)]
  · rw [Int.ceil_eq_iff]; norm_num
  · intro i hi j hj
    interval_cases i <;> interval_cases j
    all_goals (rw [near_eq false (xs := splitPts) rfl rfl])
    all_goals first
      | (refine close_one false (0) ?_ ?_ <;> norm_num; done)
      | (refine close_one false (84) ?_ ?_ <;> norm_num; done)
      | (refine close_one false (-84) ?_ ?_ <;> norm_num; done)
      | (refine close_one false (87) ?_ ?_ <;> norm_num; done)
      | (refine close_one false (-87) ?_ ?_ <;> norm_num; done)
      | (refine close_one false (85) ?_ ?_ <;> norm_num; done)
      | (refine close_one false (-85) ?_ ?_ <;> norm_num; done)
      | (refine remote_one false ?_; norm_num; done)
      | (refine remote_one false ?_; rw [le_abs]; right; norm_num; done)
      | (refine remote_one false ?_; rw [le_abs]; left; norm_num; done)
  · intro i hi j hj
    interval_cases i <;> interval_cases j
    all_goals (rw [ewithin_eq (xs := splitPts) rfl rfl])
    all_goals first
      | (refine e_close ?_; rw [abs_le]; norm_num; done)
      | (refine e_far ?_; rw [lt_abs]; left; norm_num; done)
      | (refine e_far ?_; rw [lt_abs]; right; norm_num; done)
  · intro i hi
    interval_cases i
    · exact cell_eq false (xs := splitPts) rfl (lineGrid_cell _ _ (quot_low false) (i := 0) (by norm_num) (by norm_num))
    · exact cell_eq false (xs := splitPts) rfl (lineGrid_cell _ _ q1 (i := 1525202) (by rw [Int.floor_eq_iff]; norm_num) (by norm_num))
    · exact cell_eq false (xs := splitPts) rfl (lineGrid_cell _ _ q2 (i := 1525202) (by rw [Int.floor_eq_iff]; norm_num) (by norm_num))
    · exact cell_eq false (xs := splitPts) rfl (lineGrid_cell _ _ q3 (i := 1525204) (by rw [Int.floor_eq_iff]; norm_num) (by norm_num))
    · exact cell_eq false (xs := splitPts) rfl (lineGrid_cell _ _ q4 (i := 1525204) (by rw [Int.floor_eq_iff]; norm_num) (by norm_num))
  · have m1 : (3 : ℝ) ≤ M ∧ -M ≤ 8 := ⟨by linarith, by linarith⟩
    have m2 : (14 : ℝ) ≤ M ∧ -M ≤ 20 := ⟨by linarith, by linarith⟩
    intro i hi c hc
    rcases hc with rfl | rfl
    · interval_cases i
      · rw [nearBox_eq false (xs := splitPts) (i := 0) rfl (split_box1 _) (by norm_num) m1 (x := 3) (by norm_num)]
        exact remote_one false (by norm_num)
      · rw [nearBox_eq false (xs := splitPts) (i := 1) rfl (split_box1 _) (by norm_num) m1 (x := 3) (by norm_num)]
        exact close_one false 0 (by norm_num) (by norm_num)
      · rw [nearBox_eq false (xs := splitPts) (i := 2) rfl (split_box1 _) (by norm_num) m1 (x := 8) (by norm_num)]
        exact close_one false (-4) (by norm_num) (by norm_num)
      · rw [nearBox_eq false (xs := splitPts) (i := 3) rfl (split_box1 _) (by norm_num) m1 (x := 8) (by norm_num)]
        exact apart_one false (-91) (by norm_num) (by norm_num) (by norm_num)
      · rw [nearBox_eq false (xs := splitPts) (i := 4) rfl (split_box1 _) (by norm_num) m1 (x := 8) (by norm_num)]
        exact apart_one false (-176) (by norm_num) (by norm_num) (by norm_num)
    · interval_cases i
      · rw [nearBox_eq false (xs := splitPts) (i := 0) rfl (split_box2 _) (by norm_num) m2 (x := 14) (by norm_num)]
        exact remote_one false (by norm_num)
      · rw [nearBox_eq false (xs := splitPts) (i := 1) rfl (split_box2 _) (by norm_num) m2 (x := 14) (by norm_num)]
        exact apart_one false 176 (by norm_num) (by norm_num) (by norm_num)
      · rw [nearBox_eq false (xs := splitPts) (i := 2) rfl (split_box2 _) (by norm_num) m2 (x := 14) (by norm_num)]
        exact apart_one false 92 (by norm_num) (by norm_num) (by norm_num)
      · rw [nearBox_eq false (xs := splitPts) (i := 3) rfl (split_box2 _) (by norm_num) m2 (x := 14) (by norm_num)]
        exact close_one false 5 (by norm_num) (by norm_num)
      · rw [nearBox_eq false (xs := splitPts) (i := 4) rfl (split_box2 _) (by norm_num) m2 (x := 19) (by norm_num)]
        exact close_one false 0 (by norm_num) (by norm_num)
  · intro h
    have hc : Dbscan.Chained 5 splitTable.near 2 2 3 := Relation.ReflTransGen.single ⟨by norm_num, by norm_num, by decide, by decide, by decide⟩
    exact absurd ((h.clusters 2 (by norm_num) 3 (by norm_num) (by decide) (by decide)).mpr hc) (by decide)

end ArborX.Fp
