import Verif.BruteForce.Model
import Mathlib.Tactic.Linarith
import Mathlib.Tactic.Positivity
import Mathlib.Tactic.FieldSimp
import Mathlib.Tactic.Ring
import Mathlib.Data.Multiset.Bind
import Mathlib.Algebra.Order.Floor.Semiring
import Mathlib.Algebra.Order.Field.Power

/-!
# Property theorems: brute-force spatial query (C11)
-/

namespace ArborX.BruteForce

lemma roundEven_int (z : ℤ) : roundEven z = z := by
  simp [roundEven]

lemma roundEven_err (x : ℚ) : |(roundEven x : ℚ) - x| ≤ 1 / 2 := by
  have h1 := Int.floor_le x
  have h2 := Int.lt_floor_add_one x
  unfold roundEven
  dsimp only
  split_ifs <;> rw [abs_le] <;> push_cast <;> constructor <;> linarith

lemma unit_pos (x : ℚ) : (0 : ℚ) < 2 ^ (Int.log 2 x - 23) := by positivity

lemma f32_of_mul {x : ℚ} (hx : 0 < x) (z : ℤ) (h : x = z * 2 ^ (Int.log 2 x - 23)) : f32 x = x := by
  unfold f32
  rw [if_neg (not_le.mpr hx)]
  dsimp only
  have hu := unit_pos x
  have : x / 2 ^ (Int.log 2 x - 23) = z := by
    rw [div_eq_iff hu.ne']; exact h
  rw [this, roundEven_int]
  exact h.symm

/-- Relative error of the rounding. -/
lemma f32_err {x : ℚ} (hx : 0 < x) : |f32 x - x| < x / 2 ^ 24 := by
  have hlog := Int.zpow_log_le_self (b := 2) (by norm_num) hx
  push_cast at hlog
  have hu := unit_pos x
  have e : (2 : ℚ) ^ (Int.log 2 x - 23) = 2 ^ (Int.log 2 x) / 2 ^ 23 := by
    rw [zpow_sub₀ (by norm_num)]; norm_num
  rcases hlog.lt_or_eq with h | h
  · unfold f32
    rw [if_neg (not_le.mpr hx)]
    dsimp only
    have herr := roundEven_err (x / 2 ^ (Int.log 2 x - 23))
    have : |(roundEven (x / 2 ^ (Int.log 2 x - 23)) : ℚ) * 2 ^ (Int.log 2 x - 23) - x|
        = |(roundEven (x / 2 ^ (Int.log 2 x - 23)) : ℚ) - x / 2 ^ (Int.log 2 x - 23)| *
          2 ^ (Int.log 2 x - 23) := by
      rw [← abs_of_pos hu, ← abs_mul, abs_of_pos hu, sub_mul, div_mul_cancel₀ _ hu.ne']
    rw [this]
    calc _ ≤ 1 / 2 * (2 : ℚ) ^ (Int.log 2 x - 23) := mul_le_mul_of_nonneg_right herr hu.le
      _ = (2 : ℚ) ^ (Int.log 2 x) / 2 ^ 24 := by rw [e]; ring
      _ < x / 2 ^ 24 := by apply div_lt_div_of_pos_right h; norm_num
  · rw [f32_of_mul hx (2 ^ 23) (by rw [e, h]; push_cast; ring)]
    simp; exact hx

/-- Integers up to `2^24` are represented exactly. -/
lemma f32_nat {n : ℕ} (hn : n ≤ 2 ^ 24) : f32 n = n := by
  rcases Nat.eq_zero_or_pos n with h | h
  · subst h; simp [f32]
  · have hx : (0 : ℚ) < n := by exact_mod_cast h
    have hlog : Int.log 2 (n : ℚ) = Nat.log 2 n := Int.log_natCast 2 n
    rcases Nat.lt_or_ge n (2 ^ 24) with h' | h'
    · have hl : Nat.log 2 n < 24 := Nat.log_lt_of_lt_pow (by omega) h'
      refine f32_of_mul hx (n * 2 ^ (23 - Nat.log 2 n)) ?_
      rw [hlog]
      push_cast
      have : (2 : ℚ) ^ (23 - Nat.log 2 n) * 2 ^ ((Nat.log 2 n : ℤ) - 23) = 1 := by
        rw [← zpow_natCast, ← zpow_add₀ (by norm_num)]
        have : ((23 - Nat.log 2 n : ℕ) : ℤ) + ((Nat.log 2 n : ℤ) - 23) = 0 := by omega
        rw [this, zpow_zero]
      rw [mul_assoc, this, mul_one]
    · have he : n = 2 ^ 24 := le_antisymm hn h'
      refine f32_of_mul hx (2 ^ 23) ?_
      rw [hlog, he, Nat.log_pow (by norm_num)]
      norm_num

/-- For at most `2^24` items the number of tiles is the exact quotient rounded up. -/
lemma tiles_eq {n per : ℕ} (hn : n ≤ 2 ^ 24) (hp : 0 < per) (hp' : per ≤ 2 ^ 24) :
    tiles n per = (n + per - 1) / per := by
  unfold tiles
  rw [f32_nat hn, f32_nat hp']
  set m := (n + per - 1) / per with hm
  have hper : (0 : ℚ) < per := by exact_mod_cast hp
  have b1 : n ≤ m * per := by
    have e1 := Nat.div_add_mod (n + per - 1) per
    have e2 := Nat.mod_lt (n + per - 1) hp
    rw [← hm, Nat.mul_comm] at e1
    omega
  have b2 : m * per ≤ n + per - 1 := by rw [hm]; exact Nat.div_mul_le_self _ _
  rcases Nat.eq_zero_or_pos n with h0 | h0
  · subst h0
    have : m = 0 := by rw [hm]; apply Nat.div_eq_of_lt; omega
    rw [this]; simp [f32]
  have hx : (0 : ℚ) < (n : ℚ) / per := by
    apply div_pos _ hper; exact_mod_cast h0
  have herr := f32_err hx
  rw [abs_lt] at herr
  have hsmall : (n : ℚ) / per / 2 ^ 24 ≤ 1 / per := by
    rw [div_div, div_le_div_iff₀ (by positivity) hper]
    have : (n : ℚ) ≤ 2 ^ 24 := by exact_mod_cast hn
    nlinarith
  have hm1 : 1 ≤ m := by
    rw [hm, Nat.one_le_div_iff hp]; omega
  have low : (m : ℚ) - 1 + 1 / per ≤ (n : ℚ) / per := by
    rw [← sub_nonneg]
    have : (n : ℚ) / per - ((m : ℚ) - 1 + 1 / per) = ((n : ℚ) + per - 1 - m * per) / per := by
      field_simp; ring
    rw [this]
    apply div_nonneg _ hper.le
    have : ((m * per + 1 : ℕ) : ℚ) ≤ ((n + per : ℕ) : ℚ) := by exact_mod_cast (by omega)
    push_cast at this
    linarith
  rw [Nat.ceil_eq_iff (by omega)]
  have cast1 : ((m - 1 : ℕ) : ℚ) = (m : ℚ) - 1 := by rw [Nat.cast_sub hm1]; simp
  rw [cast1]
  refine ⟨by linarith, ?_⟩
  rcases Nat.eq_or_lt_of_le b1 with h | h
  · have : (n : ℚ) / per = m := by rw [div_eq_iff hper.ne']; exact_mod_cast h
    have hm24 : m ≤ 2 ^ 24 := by nlinarith
    rw [this, f32_nat hm24]
  · have : (n : ℚ) / per ≤ m - 1 / per := by
      rw [← sub_nonneg]
      have e : (m : ℚ) - 1 / per - n / per = (m * per - 1 - n) / per := by field_simp
      rw [e]
      apply div_nonneg _ hper.le
      have : ((n + 1 : ℕ) : ℚ) ≤ ((m * per : ℕ) : ℚ) := by exact_mod_cast h
      push_cast at this
      linarith
    linarith

/-- The tiles cover each index once. -/
lemma tile_cover (n per : ℕ) (m : ℕ) :
    (List.range m).flatMap (tile n per) = List.range (min n (per * m)) := by
  induction m with
  | zero => simp
  | succ m ih =>
    rw [List.range_succ, List.flatMap_append, ih]
    simp only [List.flatMap_cons, List.flatMap_nil, List.append_nil, tile]
    rcases Nat.le_total n (per * m) with h | h
    · rw [Nat.min_eq_left h, Nat.min_eq_left (a := n) (by rw [Nat.mul_succ]; omega)]
      simp [Nat.sub_eq_zero_of_le h]
    · rw [Nat.min_eq_right h]
      have e : min n (per * (m + 1)) = per * m + min per (n - per * m) := by
        rw [Nat.mul_succ]; omega
      rw [e, List.range_add]

lemma range_mul {β : Type} (a b : ℕ) (f : ℕ → ℕ → List β) :
    (List.range (b * a)).flatMap (fun t => f (t % b) (t / b)) =
      (List.range a).flatMap (fun i => (List.range b).flatMap (fun j => f j i)) := by
  induction a with
  | zero => simp
  | succ a ih =>
    rw [Nat.mul_succ, List.range_add, List.flatMap_append, ih, List.range_succ, List.flatMap_append]
    congr 1
    simp only [List.flatMap_cons, List.flatMap_nil, List.append_nil, List.flatMap_map]
    apply List.flatMap_congr
    intro j hj
    have hjb := List.mem_range.mp hj
    rw [Nat.mul_add_mod, Nat.mod_eq_of_lt hjb, Nat.mul_add_div (by omega), Nat.div_eq_of_lt hjb]
    simp

/-- Calls of the tiled loops, any number of tiles. -/
lemma calls_perm (nI nP perI perP a b : ℕ) (p : ℕ → ℕ → Bool) :
    ((List.range (b * a)).flatMap fun team =>
      (tile nI perI (team % b)).flatMap fun j =>
        ((tile nP perP (team / b)).filter (fun q => p q j)).map (fun q => (q, j))).Perm
    ((List.range (min nP (perP * a))).flatMap fun q =>
      ((List.range (min nI (perI * b))).filter (fun j => p q j)).map (fun j => (q, j))) := by
  rw [range_mul a b (fun x y => (tile nI perI x).flatMap fun j =>
        ((tile nP perP y).filter (fun q => p q j)).map (fun q => (q, j)))]
  have hfilt : ∀ (l : List ℕ) (j : ℕ), (l.filter (fun q => p q j)).map (fun q => (q, j))
      = l.flatMap (fun q => if p q j then [(q, j)] else []) := by
    intro l j
    induction l with
    | nil => rfl
    | cons x l ih =>
      rw [List.flatMap_cons, ← ih, List.filter_cons]
      split_ifs <;> simp
  have hfilt' : ∀ (l : List ℕ) (q : ℕ), (l.filter (fun j => p q j)).map (fun j => (q, j))
      = l.flatMap (fun j => if p q j then [(q, j)] else []) := by
    intro l q
    induction l with
    | nil => rfl
    | cons x l ih =>
      rw [List.flatMap_cons, ← ih, List.filter_cons]
      split_ifs <;> simp
  simp only [hfilt, hfilt', ← tile_cover, List.flatMap_assoc]
  rw [← Multiset.coe_eq_coe]
  simp only [← Multiset.coe_bind]
  refine Multiset.bind_congr fun y _ => ?_
  refine Eq.trans ?_ (Multiset.bind_bind (↑(List.range b)) (↑(tile nP perP y))
    (f := fun b' q => (↑(tile nI perI b') : Multiset ℕ).bind fun j =>
      (↑(if p q j = true then [(q, j)] else []) : Multiset (ℕ × ℕ))))
  refine Multiset.bind_congr fun x _ => ?_
  exact Multiset.bind_bind _ _

/-- All matching pairs, by definition. -/
def matching (nI nP : ℕ) (p : ℕ → ℕ → Bool) : List (ℕ × ℕ) :=
  (List.range nP).flatMap fun q => ((List.range nI).filter (fun j => p q j)).map (fun j => (q, j))

/-- Number of tiles of `per` items, the last one may be smaller. -/
def ntiles (n per : ℕ) : ℕ := (n + per - 1) / per

lemma ntiles_bounds {n per : ℕ} (h : 0 < per) : n ≤ per * ntiles n per ∧ per * (ntiles n per - 1) ≤ n := by
  have h1 := Nat.div_add_mod (n + per - 1) per
  have h2 := Nat.mod_lt (n + per - 1) h
  unfold ntiles
  generalize (n + per - 1) / per = m at h1
  refine ⟨by omega, ?_⟩
  rcases Nat.eq_zero_or_pos m with h0 | h0
  · subst h0; omega
  · have : per * m = per * (m - 1) + per := by
      rw [← Nat.mul_succ, Nat.succ_eq_add_one, Nat.sub_add_cancel h0]
    omega

/-- **C11 (partial).** For every tile size and every predicate, the callback is called
exactly once for each matching pair of a query and a value and never otherwise, if there are
at most `2^24` values and queries and fewer than `2^31` pairs of tiles. Missing: larger
numbers, for which the rounding of the number of tiles makes the statement false, see
`brute_force_spatial_wrong`, and more pairs of tiles, see `brute_force_teams_overflow`. -/
theorem brute_force_spatial_partial (nI nP perI perP : ℕ) (p : ℕ → ℕ → Bool)
    (hI : nI ≤ 2 ^ 24) (hP : nP ≤ 2 ^ 24) (hi : 0 < perI) (hp : 0 < perP)
    (hi' : perI ≤ 2 ^ 24) (hp' : perP ≤ 2 ^ 24) (hT : ntiles nI perI * ntiles nP perP < 2 ^ 31) :
    ∃ calls, spatialCalls nI nP perI perP p = some calls ∧ calls.Perm (matching nI nP p) := by
  obtain ⟨c1, c2⟩ := ntiles_bounds (n := nI) hi
  obtain ⟨c3, c4⟩ := ntiles_bounds (n := nP) hp
  have small : ∀ n per, n ≤ 2 ^ 24 → 0 < per → per * (ntiles n per - 1) ≤ n → ntiles n per < 2 ^ 31 := by
    intro n per h1 h2 h3
    have := Nat.le_mul_of_pos_left (ntiles n per - 1) h2
    omega
  have s1 := small nI perI hI hi c2
  have s2 := small nP perP hP hp c4
  refine ⟨leagueCalls nI nP perI perP (ntiles nI perI) (ntiles nP perP) p, ?_, ?_⟩
  · unfold spatialCalls
    dsimp only
    have e1 : tiles nI perI = ntiles nI perI := tiles_eq hI hi hi'
    have e2 : tiles nP perP = ntiles nP perP := tiles_eq hP hp hp'
    rw [e1, e2, if_pos ⟨s1, s2, hT, .inr ⟨by omega, by omega⟩⟩]
  · have := calls_perm nI nP perI perP (ntiles nP perP) (ntiles nI perI) p
    rwa [Nat.min_eq_left c1, Nat.min_eq_left c3] at this

/-- **C11 (defect).** With `2^31` pairs of tiles or more the number of teams overflows. -/
theorem brute_force_teams_overflow (nI nP perI perP : ℕ) (p : ℕ → ℕ → Bool)
    (hI : nI ≤ 2 ^ 24) (hP : nP ≤ 2 ^ 24) (hi : 0 < perI) (hp : 0 < perP)
    (hi' : perI ≤ 2 ^ 24) (hp' : perP ≤ 2 ^ 24) (hT : 2 ^ 31 ≤ ntiles nI perI * ntiles nP perP) :
    spatialCalls nI nP perI perP p = none := by
  unfold spatialCalls
  dsimp only
  rw [tiles_eq hI hi hi', tiles_eq hP hp hp']
  rw [if_neg]
  rintro ⟨-, -, h, -⟩
  exact absurd h (not_lt.mpr hT)

/-- `2^24` values and queries in tiles of 256: `2^32` teams. Boxes of six or more dimensions
on a device with 48 kB of scratch memory have smaller tiles. -/
example (p : ℕ → ℕ → Bool) : spatialCalls (2 ^ 24) (2 ^ 24) 256 256 p = none :=
  brute_force_teams_overflow _ _ _ _ _ le_rfl le_rfl (by norm_num) (by norm_num) (by norm_num) (by norm_num)
    (by norm_num [ntiles])

/-- `10^6` values and queries in tiles of 1024: each matching pair once. -/
example (p : ℕ → ℕ → Bool) : ∃ calls, spatialCalls (10 ^ 6) (10 ^ 6) 1024 1024 p = some calls ∧
    calls.Perm (matching (10 ^ 6) (10 ^ 6) p) :=
  brute_force_spatial_partial _ _ _ _ _ (by norm_num) (by norm_num) (by norm_num) (by norm_num) (by norm_num)
    (by norm_num) (by norm_num [ntiles])

lemma f32_bounds {x : ℚ} (hx : 0 ≤ x) : x * (1 - 1 / 2 ^ 24) ≤ f32 x ∧ f32 x ≤ x * (1 + 1 / 2 ^ 24) := by
  rcases hx.eq_or_lt with h | h
  · subst h; simp [f32]
  · have := abs_lt.mp (f32_err h)
    constructor <;> linarith [this.1, this.2]

/-- The tiles cover almost all indices. -/
lemma tiles_cover {n per : ℕ} (h : 0 < per) : (n : ℚ) * (1 - 3 / 2 ^ 24) ≤ per * tiles n per := by
  have hper : (0 : ℚ) < per := by exact_mod_cast h
  have hn : (0 : ℚ) ≤ n := Nat.cast_nonneg n
  obtain ⟨a1, -⟩ := f32_bounds hn
  obtain ⟨b1, b2⟩ := f32_bounds hper.le
  have hp : 0 < f32 per := lt_of_lt_of_le (mul_pos hper (by norm_num)) b1
  have h0 : 0 ≤ f32 n := le_trans (mul_nonneg hn (by norm_num)) a1
  obtain ⟨c1, -⟩ := f32_bounds (div_nonneg h0 hp.le)
  have c2 : f32 (f32 n / f32 per) ≤ tiles n per := Nat.le_ceil _
  have d : f32 n / f32 per * per ≥ n * (1 - 1 / 2 ^ 24) / (1 + 1 / 2 ^ 24) := by
    rw [ge_iff_le, div_le_iff₀ (by norm_num), div_mul_eq_mul_div, div_mul_eq_mul_div, le_div_iff₀ hp]
    calc n * (1 - 1 / 2 ^ 24) * f32 per ≤ f32 n * f32 per := mul_le_mul_of_nonneg_right a1 hp.le
      _ ≤ f32 n * (per * (1 + 1 / 2 ^ 24)) := mul_le_mul_of_nonneg_left b2 h0
      _ = _ := by ring
  calc (n : ℚ) * (1 - 3 / 2 ^ 24) ≤ n * ((1 - 1 / 2 ^ 24) / (1 + 1 / 2 ^ 24) * (1 - 1 / 2 ^ 24)) :=
        mul_le_mul_of_nonneg_left (by norm_num) hn
    _ = n * (1 - 1 / 2 ^ 24) / (1 + 1 / 2 ^ 24) * (1 - 1 / 2 ^ 24) := by ring
    _ ≤ f32 n / f32 per * per * (1 - 1 / 2 ^ 24) := mul_le_mul_of_nonneg_right d (by norm_num)
    _ = f32 n / f32 per * (1 - 1 / 2 ^ 24) * per := by ring
    _ ≤ tiles n per * per := mul_le_mul_of_nonneg_right (c1.trans c2) hper.le
    _ = _ := by ring

/-- **C11 (partial).** For any number of values and queries, if no `int` overflows: the
callback is never called on a pair that does not match and at most once on each; and it is
called on each matching pair but those with one of the last queries or values, at most three
out of `2^24`. Missing: these last ones, see `brute_force_spatial_wrong`. -/
theorem brute_force_spatial_large_partial (nI nP perI perP : ℕ) (p : ℕ → ℕ → Bool) (hi : 0 < perI) (hp : 0 < perP)
    (calls : List (ℕ × ℕ)) (hc : spatialCalls nI nP perI perP p = some calls) :
    calls.Nodup ∧ (∀ q j, (q, j) ∈ calls → q < nP ∧ j < nI ∧ p q j) ∧
    ∀ q j, 2 ^ 24 * q < (2 ^ 24 - 3) * nP → 2 ^ 24 * j < (2 ^ 24 - 3) * nI → p q j → (q, j) ∈ calls := by
  unfold spatialCalls at hc
  dsimp only at hc
  split_ifs at hc
  have hc := Option.some.inj hc
  have h := calls_perm nI nP perI perP (tiles nP perP) (tiles nI perI) p
  change (leagueCalls nI nP perI perP (tiles nI perI) (tiles nP perP) p).Perm _ at h
  rw [hc] at h
  have cover : ∀ n per j, 0 < per → 2 ^ 24 * j < (2 ^ 24 - 3) * n → j < min n (per * tiles n per) := by
    intro n per j h1 h2
    have h3 := tiles_cover (n := n) h1
    rw [lt_min_iff]
    refine ⟨by omega, ?_⟩
    have h4 : (16777216 * j : ℚ) < 16777213 * n := by
      have : 16777216 * j < 16777213 * n := h2
      exact_mod_cast this
    have : (j : ℚ) < (per * tiles n per : ℕ) := by
      push_cast
      calc (j : ℚ) < n * (1 - 3 / 2 ^ 24) := by linarith
        _ ≤ _ := h3
    exact_mod_cast this
  refine ⟨?_, fun q j hm => ?_, fun q j hq hj hpq => ?_⟩
  · rw [h.nodup_iff]
    rw [List.nodup_flatMap]
    refine ⟨fun q _ => (List.Nodup.filter _ List.nodup_range).map fun a b e => (Prod.mk.inj e).2, ?_⟩
    refine List.Pairwise.imp_of_mem ?_ List.nodup_range
    intro a b _ _ hab x hx hy
    obtain ⟨_, _, rfl⟩ := List.mem_map.mp hx
    obtain ⟨_, _, e⟩ := List.mem_map.mp hy
    exact hab (Prod.mk.inj e).1.symm
  · rw [h.mem_iff] at hm
    simp only [List.mem_flatMap, List.mem_map, List.mem_filter, List.mem_range, Prod.mk.injEq] at hm
    obtain ⟨q', h1, j', ⟨h2, h3⟩, rfl, rfl⟩ := hm
    exact ⟨lt_of_lt_of_le h1 (Nat.min_le_left _ _), lt_of_lt_of_le h2 (Nat.min_le_left _ _), h3⟩
  · rw [h.mem_iff]
    simp only [List.mem_flatMap, List.mem_map, List.mem_filter, List.mem_range, Prod.mk.injEq]
    exact ⟨q, cover nP perP q hp hq, j, ⟨cover nI perI j hi hj, hpq⟩, rfl, rfl⟩

lemma f32_past : f32 ((2 ^ 24 + 1 : ℕ) : ℚ) = ((2 ^ 24 : ℕ) : ℚ) := by
  have hlog : Int.log 2 (((2 ^ 24 + 1 : ℕ) : ℚ)) = 24 := by
    rw [Int.log_natCast, (Nat.log_eq_iff (m := 24) (by norm_num)).mpr (by norm_num)]; rfl
  unfold f32
  rw [if_neg (by norm_num), hlog]
  norm_num [roundEven]

/-- **C11 (defect).** With `2^24 + 1` values and a tile size that divides `2^24`, the last
value is never tested, although it matches. -/
theorem brute_force_spatial_wrong (nP perI perP q : ℕ) (p : ℕ → ℕ → Bool) (hd : perI ∣ 2 ^ 24) (calls : List (ℕ × ℕ))
    (hc : spatialCalls (2 ^ 24 + 1) nP perI perP p = some calls) : (q, 2 ^ 24) ∉ calls := by
  have hpos : 0 < perI := Nat.pos_of_dvd_of_pos hd (by norm_num)
  have hle : perI ≤ 2 ^ 24 := Nat.le_of_dvd (by norm_num) hd
  have ht : perI * tiles (2 ^ 24 + 1) perI = 2 ^ 24 := by
    have : tiles (2 ^ 24 + 1) perI = tiles (2 ^ 24) perI := by
      unfold tiles
      rw [f32_past, f32_nat (n := 2 ^ 24) le_rfl]
    rw [this, tiles_eq le_rfl hpos hle]
    obtain ⟨c, hc⟩ := hd
    rw [hc]
    congr 1
    rw [show perI * c + perI - 1 = perI * c + (perI - 1) by omega, Nat.mul_add_div hpos,
      Nat.div_eq_of_lt (by omega)]
    simp
  intro hmem
  unfold spatialCalls at hc
  dsimp only at hc
  split_ifs at hc
  rw [← Option.some.inj hc] at hmem
  unfold leagueCalls at hmem
  rw [(calls_perm _ nP perI perP (tiles nP perP) (tiles (2 ^ 24 + 1) perI) p).mem_iff, ht] at hmem
  simp only [List.mem_flatMap, List.mem_map, List.mem_filter, List.mem_range, Prod.mk.injEq] at hmem
  obtain ⟨q', -, j, ⟨hj, -⟩, -, hj'⟩ := hmem
  have : j < 2 ^ 24 := lt_of_lt_of_le hj (Nat.min_le_right _ _)
  omega

/-- A concrete case of the defect: one query that accepts everything, tiles of 512. -/
example : (0, 2 ^ 24) ∈ matching (2 ^ 24 + 1) 1 (fun _ _ => true) ∧
    ∃ calls, spatialCalls (2 ^ 24 + 1) 1 512 512 (fun _ _ => true) = some calls ∧ (0, 2 ^ 24) ∉ calls := by
  refine ⟨by simp [matching], ?_⟩
  have h1 : tiles 1 512 = 1 := by rw [tiles_eq (by norm_num) (by norm_num) (by norm_num)]
  have h2 : tiles (2 ^ 24 + 1) 512 = 2 ^ 15 := by
    have : tiles (2 ^ 24 + 1) 512 = tiles (2 ^ 24) 512 := by
      unfold tiles
      rw [f32_past, f32_nat (n := 2 ^ 24) le_rfl]
    rw [this, tiles_eq le_rfl (by norm_num) (by norm_num)]
    norm_num
  have : spatialCalls (2 ^ 24 + 1) 1 512 512 (fun _ _ => true) = some (leagueCalls (2 ^ 24 + 1) 1 512 512 (2 ^ 15) 1 (fun _ _ => true)) := by
    unfold spatialCalls
    rw [h1, h2, if_pos (by norm_num)]
  exact ⟨_, this, brute_force_spatial_wrong _ _ _ _ _ ⟨2 ^ 15, by norm_num⟩ _ this⟩

end ArborX.BruteForce
