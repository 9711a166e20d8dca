import Verif.Fp.DistributedBoxes

/-!
# Property theorems: distributed nearest queries with boxes at integer coordinates (C70)
-/

namespace ArborX.Fp

open Geometry BVH Euclid

variable {D : ℕ} {T : Type}

/-! ## Specification -/

/-- An integer of absolute value at most `K`. -/
def SmallInt (K : ℤ) (x : ℝ) : Prop := ∃ z : ℤ, x = z ∧ |z| ≤ K

/-- The coordinates of a point or of the corners of a box are integers of absolute value at most `K`. -/
def OnGrid (K : ℤ) : Geom ℝ D → Prop
  | .point p => ∀ d, SmallInt K (p d)
  | .box B => ∀ d, SmallInt K (B.lo d) ∧ SmallInt K (B.hi d)
  | _ => False

/-! ## Lemmas -/

/-- Integers below `2 ^ p` are numbers of a type with `p` significant bits. -/
lemma Ieee.num_of_int {p : ℕ} {emin emax : ℤ} (hp : 1 ≤ p) (fma : Bool) (he : emin ≤ 0) (hm : (p : ℤ) ≤ emax) {z : ℤ} (hz : |z| < 2 ^ p) :
    (format p hp emin emax fma).Num z := by
  have key : ∀ z : ℤ, 0 < z → z < 2 ^ p → (format p hp emin emax fma).Num z := by
    intro z h0 hz
    have hx : (0 : ℝ) < z := by exact_mod_cast h0
    have hlt : (z : ℝ) < 2 ^ (p : ℤ) := by rw [zpow_natCast]; exact_mod_cast hz
    rw [num_iff hp fma hx.le]
    refine ⟨?_, hlt.trans_le (zpow_le_zpow_right₀ (by norm_num) hm)⟩
    have hlog : Int.log 2 (z : ℝ) < p := by
      by_contra hc
      have := (zpow_le_zpow_right₀ (by norm_num : (1 : ℝ) ≤ 2) (not_lt.mp hc)).trans (log_le hx)
      linarith
    have hu : ulpExp p emin (z : ℝ) ≤ 0 := max_le (by omega) he
    refine near_of_mul (z * 2 ^ (0 - ulpExp p emin (z : ℝ)).toNat) ?_
    have h2 := zpow_split hu
    rw [zpow_zero] at h2
    rw [Int.cast_mul, mul_assoc, ← h2, mul_one]
  rcases lt_trichotomy z 0 with h | h | h
  · have := key (-z) (by omega) (by rw [abs_of_neg h] at hz; exact hz)
    have := num_neg _ this
    rwa [Int.cast_neg, neg_neg] at this
  · rw [h, Int.cast_zero]; exact num_zero _
  · exact key z h (by rwa [abs_of_pos h] at hz)

lemma madd_ge (F : Format) {s : EReal} (hs : 0 ≤ s) {g : ℝ} (hg : F.Num g) (hgg : F.Num (g * g)) : ((g * g : ℝ) : EReal) ≤ F.madd s (F.rnd g) := by
  have h0 : 0 ≤ s.toReal := EReal.toReal_nonneg hs
  have e : F.rnd g = (g : EReal) := hg
  have e2 : F.rnd (g * g) = ((g * g : ℝ) : EReal) := hgg
  rw [e]
  unfold Format.madd
  rw [EReal.toReal_coe, e2, EReal.toReal_coe]
  split
  · exact le_top
  · split
    · rw [← e2]; exact F.mono (by linarith)
    · split
      · exact le_top
      · rw [← e2]; exact F.mono (by linarith)

lemma fold_ge (F : Format) {ι : Type} (l : List ι) (gap : ι → Option ℝ) :
    ∀ {s : EReal}, F.Rounded s → s ≤ l.foldl (fun s d => F.step s (gap d)) s ∧
      ∀ d ∈ l, ∀ g, gap d = some g → F.Num g → F.Num (g * g) → ((g * g : ℝ) : EReal) ≤ l.foldl (fun s d => F.step s (gap d)) s := by
  induction l with
  | nil => exact fun _ => ⟨le_rfl, fun d hd => absurd hd (by simp)⟩
  | cons a l ih =>
    intro s hs
    obtain ⟨h1, h2⟩ := ih (F.rounded_step hs (gap a))
    have hle : s ≤ F.step s (gap a) := by
      cases gap a with
      | none => exact le_rfl
      | some x => exact F.le_madd hs
    rw [List.foldl_cons]
    refine ⟨hle.trans h1, fun d hd g hg hn hnn => ?_⟩
    rcases List.mem_cons.mp hd with rfl | hd
    · refine le_trans ?_ h1
      rw [hg]
      exact madd_ge F hs.1 hn hnn
    · exact h2 d hd g hg hn hnn

/-- The computed distance is at least the distance along an axis, if that and its square are numbers of the type. -/
lemma norm_ge (F : Format) {gap : Fin D → Option ℝ} {d : Fin D} {g : ℝ} (hg : gap d = some g) (hn : F.Num g) (hnn : F.Num (g * g)) : ((|g| : ℝ) : EReal) ≤ F.norm gap := by
  have habs : F.Num |g| := by
    rcases abs_choice g with h | h <;> rw [h]
    · exact hn
    · exact Ieee.num_neg F hn
  have h1 := (fold_ge F (List.finRange D) gap F.rounded_zero).2 d (List.mem_finRange d) g hg hn hnn
  have h2 := F.sqrt_mono (EReal.coe_nonneg.mpr (mul_self_nonneg g)) h1
  have e : F.sqrt ((g * g : ℝ) : EReal) = ((|g| : ℝ) : EReal) := by
    unfold Format.sqrt
    rw [if_neg (EReal.coe_ne_top _), EReal.toReal_coe, Real.sqrt_mul_self_eq_abs]
    exact habs
  rw [e] at h2
  exact h2

section

variable {F : Format} {K N : ℤ}

lemma SmallInt.gap {x y : ℝ} (hx : SmallInt K x) (hy : SmallInt K y) (hK : (2 * K) ^ 2 < N) (hF : ∀ z : ℤ, |z| < N → F.Num z) :
    F.Num (x - y) ∧ F.Num ((x - y) * (x - y)) := by
  obtain ⟨a, rfl, ha⟩ := hx
  obtain ⟨b, rfl, hb⟩ := hy
  have h0 : 0 ≤ K := (abs_nonneg a).trans ha
  have h1 : |a - b| ≤ 2 * K := (abs_sub a b).trans (by linarith)
  have h2 : (a - b) * (a - b) ≤ (2 * K) ^ 2 := by
    rw [← abs_mul_abs_self, sq]
    exact mul_le_mul h1 h1 (abs_nonneg _) (by linarith)
  have h3 : |a - b| ≤ |a - b| * |a - b| := by
    rcases eq_or_ne (a - b) 0 with h | h
    · rw [h]; simp
    · have := Int.one_le_abs h
      nlinarith
  rw [abs_mul_abs_self] at h3
  constructor
  · have := hF (a - b) (by omega)
    rwa [Int.cast_sub] at this
  · have := hF ((a - b) * (a - b)) (by rw [abs_of_nonneg (mul_self_nonneg _)]; omega)
    rwa [Int.cast_mul, Int.cast_sub] at this

lemma within_grid (hK : (2 * K) ^ 2 < N) (hF : ∀ z : ℤ, |z| < N → F.Num z) {B : Box ℝ D} (hB : B.Valid) (hBg : OnGrid K (.box B)) {g : Geom ℝ D} (hg : Simple g)
    (hgg : OnGrid K g) {r : EReal} (hr : F.distance (.box B) g = some r) : Within (.box B) g r := by
  cases g with
  | point q =>
    have e : F.distPoint q (closestPointBox q B) = r := Option.some_inj.mp hr
    refine ⟨closestPointBox q B, fun d => Format.clamp_mem (hB d), q, rfl, fun d => ?_⟩
    rw [← e]
    have hs : SmallInt K (closestPointBox q B d) := by
      show SmallInt K (if q d < B.lo d then B.lo d else if q d > B.hi d then B.hi d else q d)
      split
      · exact (hBg d).1
      · split
        · exact (hBg d).2
        · exact hgg d
    obtain ⟨h1, h2⟩ := hs.gap (hgg d) hK hF
    exact norm_ge F rfl h1 h2
  | box C =>
    have e : F.norm (boxGap B C) = r := Option.some_inj.mp hr
    have hC : C.Valid := hg
    refine ⟨fun d => if B.lo d > C.hi d then B.lo d else if C.lo d > B.hi d then B.hi d else max (B.lo d) (C.lo d), fun d => ?_,
      fun d => if B.lo d > C.hi d then C.hi d else if C.lo d > B.hi d then C.lo d else max (B.lo d) (C.lo d), fun d => ?_, fun d => ?_⟩
    · have := hB d
      dsimp only
      split
      · exact ⟨le_rfl, this⟩
      · split
        · exact ⟨this, le_rfl⟩
        · rename_i h1 h2
          exact ⟨le_max_left _ _, max_le this (not_lt.mp h2)⟩
    · have := hC d
      dsimp only
      split
      · exact ⟨this, le_rfl⟩
      · split
        · exact ⟨le_rfl, this⟩
        · rename_i h1 h2
          exact ⟨le_max_right _ _, max_le (not_lt.mp h1) this⟩
    · rw [← e]
      by_cases h1 : B.lo d > C.hi d
      · simp only [if_pos h1]
        obtain ⟨h3, h4⟩ := (hBg d).1.gap (hgg d).2 hK hF
        exact norm_ge F (by unfold boxGap; rw [if_pos h1]) h3 h4
      · by_cases h2 : C.lo d > B.hi d
        · simp only [if_neg h1, if_pos h2]
          obtain ⟨h3, h4⟩ := (hgg d).1.gap (hBg d).2 hK hF
          rw [abs_sub_comm]
          exact norm_ge F (by unfold boxGap; rw [if_neg h1, if_pos h2]) h3 h4
        · simp only [if_neg h1, if_neg h2, sub_self, abs_zero]
          exact F.norm_nonneg _
  | _ => exact hg.elim

/-- Sums of squares of small integers are exact. -/
lemma fold_grid (hF : ∀ z : ℤ, |z| < N → F.Num z) {ι : Type} (l : List ι) (gap : ι → Option ℝ) (L : ℤ)
    (hgap : ∀ d g, gap d = some g → ∃ z : ℤ, g = z ∧ |z| < N ∧ z * z ≤ L) : ∀ m : ℤ, 0 ≤ m → m + l.length * L < N → 0 ≤ L →
    ∃ m' : ℤ, 0 ≤ m' ∧ m' ≤ m + l.length * L ∧ l.foldl (fun s d => F.step s (gap d)) ((m : ℝ) : EReal) = ((m' : ℝ) : EReal) := by
  induction l with
  | nil => exact fun m h0 _ _ => ⟨m, h0, by simp, rfl⟩
  | cons a l ih =>
    intro m h0 hm hL
    rw [List.length_cons, Nat.cast_add, Nat.cast_one, add_mul, one_mul] at hm ⊢
    have hl : 0 ≤ (l.length : ℤ) * L := mul_nonneg (by positivity) hL
    rw [List.foldl_cons]
    cases hg : gap a with
    | none =>
      obtain ⟨m', h1, h2, h3⟩ := ih m h0 (by omega) hL
      exact ⟨m', h1, by omega, h3⟩
    | some g =>
      obtain ⟨z, rfl, hz, hzz⟩ := hgap a g hg
      have hz0 := mul_self_nonneg z
      have e1 : F.rnd z = ((z : ℝ) : EReal) := hF z hz
      have e2 : F.rnd ((z : ℝ) * z) = (((z : ℝ) * z : ℝ) : EReal) := by
        have := hF (z * z) (by rw [abs_of_nonneg hz0]; omega)
        rw [Int.cast_mul] at this
        exact this
      have e3 : F.rnd ((m : ℝ) + z * z) = (((m : ℝ) + z * z : ℝ) : EReal) := by
        have := hF (m + z * z) (by rw [abs_of_nonneg (by omega)]; omega)
        rw [Int.cast_add, Int.cast_mul] at this
        exact this
      have e : F.step ((m : ℝ) : EReal) (some (z : ℝ)) = (((m + z * z : ℤ) : ℝ) : EReal) := by
        show F.madd _ (F.rnd z) = _
        unfold Format.madd
        simp only [e1, EReal.coe_ne_top, EReal.coe_ne_bot, or_self, if_false, EReal.toReal_coe, e2, e3, add_comm ((z : ℝ) * z), ite_self]
        push_cast
        rfl
      rw [e]
      obtain ⟨m', h1, h2, h3⟩ := ih (m + z * z) (by omega) (by omega) hL
      exact ⟨m', h1, by omega, h3⟩

lemma norm_grid (hF : ∀ z : ℤ, |z| < N → F.Num z) {gap : Fin D → Option ℝ} {L : ℤ} (hL : 0 ≤ L)
    (hgap : ∀ d g, gap d = some g → ∃ z : ℤ, g = z ∧ |z| < N ∧ z * z ≤ L) (hN : D * L < N) : F.norm gap < ⊤ := by
  obtain ⟨m, h0, h1, h2⟩ := fold_grid hF (List.finRange D) gap L hgap 0 le_rfl (by rw [List.length_finRange]; omega) hL
  rw [List.length_finRange] at h1
  rw [Int.cast_zero] at h2
  unfold Format.norm
  rw [show (0 : EReal) = ((0 : ℝ) : EReal) from rfl, h2]
  unfold Format.sqrt
  rw [if_neg (EReal.coe_ne_top _), EReal.toReal_coe]
  have hm := hF m (by rw [abs_of_nonneg h0]; omega)
  have hle : Real.sqrt m ≤ m := by
    rcases eq_or_lt_of_le h0 with h | h
    · rw [← h]; simp
    · have h1 : (1 : ℝ) ≤ m := by exact_mod_cast h
      rw [Real.sqrt_le_left (by linarith)]
      nlinarith
  refine lt_of_le_of_lt (F.mono hle) ?_
  rw [show F.rnd (m : ℝ) = ((m : ℝ) : EReal) from hm]
  exact EReal.coe_lt_top _

lemma SmallInt.gap_sq {x y : ℝ} (hx : SmallInt K x) (hy : SmallInt K y) : ∃ z : ℤ, x - y = z ∧ |z| ≤ 2 * K ∧ z * z ≤ (2 * K) ^ 2 := by
  obtain ⟨a, rfl, ha⟩ := hx
  obtain ⟨b, rfl, hb⟩ := hy
  have h1 : |a - b| ≤ 2 * K := (abs_sub a b).trans (by linarith)
  refine ⟨a - b, by push_cast; ring, h1, ?_⟩
  rw [← abs_mul_abs_self, sq]
  exact mul_le_mul h1 h1 (abs_nonneg _) ((abs_nonneg _).trans h1)

/-- Distances between boxes and values at small integer coordinates do not overflow. -/
lemma distance_grid (hK : D * (2 * K) ^ 2 < N) (hK' : (2 * K) ^ 2 < N) (hF : ∀ z : ℤ, |z| < N → F.Num z) {B : Box ℝ D} (hBg : OnGrid K (.box B)) {g : Geom ℝ D} (hg : Simple g)
    (hgg : OnGrid K g) {r : EReal} (hr : F.distance (.box B) g = some r) : r < ⊤ := by
  have conv : ∀ {x y : ℝ}, SmallInt K x → SmallInt K y → ∃ z : ℤ, x - y = z ∧ |z| < N ∧ z * z ≤ (2 * K) ^ 2 := by
    intro x y hx hy
    obtain ⟨z, h1, h2, h3⟩ := hx.gap_sq hy
    refine ⟨z, h1, lt_of_le_of_lt ?_ hK', h3⟩
    refine h2.trans ?_
    have : 0 ≤ 2 * K := (abs_nonneg z).trans h2
    nlinarith
  cases g with
  | point q =>
    have e : F.distPoint q (closestPointBox q B) = r := Option.some_inj.mp hr
    rw [← e]
    refine norm_grid hF (sq_nonneg (2 * K)) (fun d g hg' => ?_) hK
    rw [← Option.some_inj.mp hg']
    refine conv ?_ (hgg d)
    show SmallInt K (if q d < B.lo d then B.lo d else if q d > B.hi d then B.hi d else q d)
    split
    · exact (hBg d).1
    · split
      · exact (hBg d).2
      · exact hgg d
  | box C =>
    have e : F.norm (boxGap B C) = r := Option.some_inj.mp hr
    rw [← e]
    refine norm_grid hF (sq_nonneg (2 * K)) (fun d g hg' => ?_) hK
    unfold boxGap at hg'
    split at hg'
    · rw [← Option.some_inj.mp hg']; exact conv (hBg d).1 (hgg d).2
    · split at hg'
      · rw [← Option.some_inj.mp hg']; exact conv (hgg d).1 (hBg d).2
      · exact absurd hg' (by simp)
  | _ => exact hg.elim

end

/-! ## Theorems -/

/-- **C70 (partial), boxes at integer coordinates.** In a type of IEEE 754 with `p` significant bits, with and without fused multiply-adds: if all coordinates of the values and of the queries
are integers of absolute value at most `K`, where `D (2 K) ^ 2 < 2 ^ p` in `D` dimensions, then queries `nearest(box, k)` on a distributed tree return, on every process and for each of its queries in their order,
`min k n` values of all processes in the order of their computed distances, such that no value left out on any process has a smaller computed distance. `E` ranges over all executions.
For `float` in three dimensions this is the case up to `K = 1182`. Partial as `distributed_nearest_box_partial`. -/
theorem distributed_nearest_box_integers_partial {p : ℕ} {emin emax : ℤ} (hp : 1 ≤ p) (fma : Bool) (he : emin ≤ 0) (hm : (p : ℤ) ≤ emax)
    (S : DScene D) (h : S.Valid) (M : ℝ) (up : EReal → ℝ) (hn : (Ieee.format p hp emin emax fma).IsNext M up)
    (withCallback asserts : Bool) (hab : S.size ≠ 0 ∨ withCallback = true ∨ asserts = false)
    (hb : ∀ t < S.P, Nearest.StackFits (S.scene t).input 64) (ht : ∀ r < S.P, Nearest.StackFits (S.tree.top r) 64)
    (E : Distributed.NEnv EReal) (hE : E.Valid S.P) (fuel : ℕ) (hft : 2 * S.P ≤ fuel)
    (hfb : ∀ r < S.P, 2 * (S.scene r).geo.length ≤ fuel) (cb : Distributed.NPred (ℕ × ℕ) (Bound D) EReal → ℕ × ℕ → T)
    (hD : 1 ≤ D) (K : ℤ) (hK : D * (2 * K) ^ 2 < 2 ^ p) (hgrid : ∀ a, S.Has a → OnGrid K (S.at a)) (queries : ℕ → List (Box ℝ D × ℕ))
    (hq : ∀ s < S.P, ∀ q ∈ queries s, q.1.Valid ∧ OnGrid K (.box q.1)) :
    ∃ res, S.tree.nearest withCallback asserts E fuel cb (fun s => (queries s).map (fun q => S.npred (Ieee.format p hp emin emax fma) up (.box q.1) q.2)) = some res ∧
      ∀ s < S.P, ∃ calls : ℕ → List (ℕ × ℕ),
        (∃ rows : ℕ → List T, Crs.IsCrs (queries s).length rows (res s).1 ((res s).2.map some) ∧
          ∀ i (hi : i < (queries s).length), rows i = (calls i).map (cb (S.npred (Ieee.format p hp emin emax fma) up (.box (queries s)[i].1) (queries s)[i].2))) ∧
        ∀ i (hi : i < (queries s).length), S.NearestOf (Ieee.format p hp emin emax fma) (.box (queries s)[i].1) (queries s)[i].2 (calls i) := by
  have hK' : (2 * K) ^ 2 < 2 ^ p := by
    have h1 : (1 : ℤ) ≤ D := by exact_mod_cast hD
    nlinarith [sq_nonneg (2 * K)]
  have hF : ∀ z : ℤ, |z| < 2 ^ p → (Ieee.format p hp emin emax fma).Num z := fun z hz => Ieee.num_of_int hp fma he hm hz
  have hsmall : ∀ x, SmallInt K x → (Ieee.format p hp emin emax fma).Num x := by
    rintro x ⟨z, rfl, hz⟩
    have h0 : 0 ≤ K := (abs_nonneg z).trans hz
    exact hF z (by nlinarith)
  refine distributed_nearest_box_partial S h _ M up hn withCallback asserts hab hb ht E hE fuel hft hfb cb (fun a ha => ?_) queries
    fun s hs q hqm => ⟨(hq s hs q hqm).1, fun a ha r hr => ⟨distance_grid hK hK' hF (hq s hs q hqm).2 (h.at a) (hgrid a ha) hr,
      within_grid hK' hF (hq s hs q hqm).1 (hq s hs q hqm).2 (h.at a) (hgrid a ha) hr⟩⟩
  have hg := hgrid a ha
  cases hga : S.at a with
  | point q => rw [hga] at hg; exact fun d => hsmall _ (hg d)
  | box C => rw [hga] at hg; exact fun d => ⟨hsmall _ (hg d).1, hsmall _ (hg d).2⟩
  | _ => rw [hga] at hg; exact hg.elim

/-- The hypotheses are met: by two processes with a point each and a box as query, of type `float`, with coordinates up to 2. -/
example (fma : Bool) : ((24 : ℕ) : ℤ) ≤ 128 ∧ (-149 : ℤ) ≤ 0 ∧ ((3 : ℕ) : ℤ) * (2 * 1182) ^ 2 < 2 ^ 24 ∧ ((2 : ℕ) : ℤ) * (2 * 1182) ^ 2 < 2 ^ 24 ∧ ∃ S : DScene 2, S.Valid ∧ S.P = 2 ∧ S.size = 2 ∧ (∃ M up, (Ieee.float fma).IsNext M up) ∧
    (∀ t < S.P, Nearest.StackFits (S.scene t).input 64) ∧ (∀ r < S.P, Nearest.StackFits (S.tree.top r) 64) ∧
    (∀ a, S.Has a → OnGrid 1182 (S.at a)) ∧ loneQuery.Valid ∧ OnGrid 1182 (.box loneQuery) := by
  obtain ⟨S, h1, h2, h3, h4, h5, hat⟩ := side_exists
  refine ⟨by norm_num, by norm_num, by norm_num, by norm_num, S, h1, h2, h3, Ieee.exists_next (by norm_num) fma, h4, h5, fun a ha => ?_, loneQuery_valid, fun d => ?_⟩
  · rw [hat a ha]
    intro d
    fin_cases d
    · show SmallInt 1182 (2 ^ ((if a.1 = 0 then 0 else 1 : ℤ)) - 1)
      split
      · exact ⟨0, by norm_num, by norm_num⟩
      · exact ⟨1, by norm_num, by norm_num⟩
    · exact ⟨0, by simp [sidePoint], by norm_num⟩
  · fin_cases d
    · exact ⟨⟨-2, by simp [loneQuery], by norm_num⟩, ⟨-1, by simp [loneQuery], by norm_num⟩⟩
    · exact ⟨⟨-1, by simp [loneQuery], by norm_num⟩, ⟨1, by simp [loneQuery], by norm_num⟩⟩

end ArborX.Fp
