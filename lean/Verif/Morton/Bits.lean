import Verif.Morton.Model
import Mathlib.Tactic.IntervalCases

/-!
# Bit-level lemmas about the expansion functions

Every expansion function is a program: a mask, then rounds `x = (x op x << s) & m`. A
symbolic evaluator computes which input bits each output bit combines.
-/

namespace ArborX.Morton

/-- Rounds `(shift, mask)`, last one first. -/
abbrev Rounds := List (ℕ × ℕ)

/-- The program with operation `op`. -/
def runRounds {w : ℕ} (op : BitVec w → BitVec w → BitVec w) (m0 : ℕ) (x : BitVec w) :
    Rounds → BitVec w
  | [] => x &&& BitVec.ofNat w m0
  | (s, m) :: rs =>
    (op (runRounds op m0 x rs) (runRounds op m0 x rs <<< s)) &&& BitVec.ofNat w m

/-- Input bits combined into output bit `j`. -/
def sym (m0 : ℕ) : Rounds → ℕ → List ℕ
  | [], j => if m0.testBit j then [j] else []
  | (s, m) :: rs, j =>
    if m.testBit j then sym m0 rs j ++ (if j < s then [] else sym m0 rs (j - s)) else []

lemma getLsbD_or_rounds {w : ℕ} (m0 : ℕ) (x : BitVec w) (rs : Rounds) (j : ℕ) (hj : j < w) :
    (runRounds (· ||| ·) m0 x rs).getLsbD j
      = ((sym m0 rs j).map x.getLsbD).foldr (· || ·) false := by
  induction rs generalizing j with
  | nil =>
    simp only [runRounds, sym, BitVec.getLsbD_and, BitVec.getLsbD_ofNat, hj, decide_true,
      Bool.true_and]
    cases m0.testBit j <;> simp
  | cons r rs ih =>
    obtain ⟨s, m⟩ := r
    simp only [runRounds, sym, BitVec.getLsbD_and, BitVec.getLsbD_ofNat, BitVec.getLsbD_or,
      BitVec.getLsbD_shiftLeft, hj, decide_true, Bool.true_and]
    rw [ih j hj, ih (j - s) (by omega)]
    cases m.testBit j
    · simp
    · by_cases hs : j < s
      · simp [hs]
      · simp only [hs, decide_false, Bool.not_false, Bool.true_and, Bool.and_true, if_true, if_false,
          List.map_append, List.foldr_append]
        generalize sym m0 rs j = l
        induction l with
        | nil => simp
        | cons a l ihl => simp only [List.map_cons, List.foldr_cons, ← ihl, Bool.or_assoc]

lemma getLsbD_xor_rounds {w : ℕ} (m0 : ℕ) (x : BitVec w) (rs : Rounds) (j : ℕ) (hj : j < w) :
    (runRounds (· ^^^ ·) m0 x rs).getLsbD j
      = ((sym m0 rs j).map x.getLsbD).foldr Bool.xor false := by
  induction rs generalizing j with
  | nil =>
    simp only [runRounds, sym, BitVec.getLsbD_and, BitVec.getLsbD_ofNat, hj, decide_true,
      Bool.true_and]
    cases m0.testBit j <;> simp
  | cons r rs ih =>
    obtain ⟨s, m⟩ := r
    simp only [runRounds, sym, BitVec.getLsbD_and, BitVec.getLsbD_ofNat, BitVec.getLsbD_xor,
      BitVec.getLsbD_shiftLeft, hj, decide_true, Bool.true_and]
    rw [ih j hj, ih (j - s) (by omega)]
    cases m.testBit j
    · simp
    · by_cases hs : j < s
      · simp [hs]
      · simp only [hs, decide_false, Bool.not_false, Bool.true_and, Bool.and_true, if_true, if_false,
          List.map_append, List.foldr_append]
        generalize sym m0 rs j = l
        induction l with
        | nil => simp
        | cons a l ihl => simp only [List.map_cons, List.foldr_cons, ← ihl, Bool.xor_assoc]

/-- The program spreads `b` bits with stride `k`. -/
def Spreads (w k b m0 : ℕ) (rs : Rounds) : Prop :=
  ∀ j < w, sym m0 rs j = if j % k = 0 ∧ j / k < b then [j / k] else []

instance (w k b m0 : ℕ) (rs : Rounds) : Decidable (Spreads w k b m0 rs) := by
  unfold Spreads; infer_instance

/-- What an expansion function does: bit `i` of the low `b` bits goes to bit `k * i`, all
other output bits are zero. -/
def IsSpread {w : ℕ} (k b : ℕ) (f : BitVec w → BitVec w) : Prop :=
  ∀ x j, j < w → (f x).getLsbD j = (decide (j % k = 0 ∧ j / k < b) && x.getLsbD (j / k))

lemma isSpread_or {w k b m0 : ℕ} {rs : Rounds} (h : Spreads w k b m0 rs) :
    IsSpread k b (fun x : BitVec w => runRounds (· ||| ·) m0 x rs) := by
  intro x j hj
  dsimp only
  rw [getLsbD_or_rounds _ _ _ _ hj, h j hj]
  split_ifs with hc <;> simp [hc]

lemma isSpread_xor {w k b m0 : ℕ} {rs : Rounds} (h : Spreads w k b m0 rs) :
    IsSpread k b (fun x : BitVec w => runRounds (· ^^^ ·) m0 x rs) := by
  intro x j hj
  dsimp only
  rw [getLsbD_xor_rounds _ _ _ _ hj, h j hj]
  split_ifs with hc <;> simp [hc]

lemma expand32_1_spread : IsSpread 2 (32 / 2) expand32_1 :=
  isSpread_xor (m0 := 0x0000ffff)
    (rs := [(1, 0x55555555), (2, 0x33333333), (4, 0x0f0f0f0f), (8, 0x00ff00ff)]) (by decide +kernel)

lemma expand32_2_spread : IsSpread 3 (32 / 3) expand32_2 :=
  isSpread_xor (m0 := 0x000003ff)
    (rs := [(2, 0x09249249), (4, 0x030c30c3), (8, 0x0300f00f), (16, 0xff0000ff)]) (by decide +kernel)

lemma expand32_3_spread : IsSpread 4 (32 / 4) expand32_3 :=
  isSpread_or (m0 := 0xff)
    (rs := [(1, 0x11111111), (2, 0x9090909), (4, 0x8430843), (8, 0xc03807), (16, 0xc0003f)]) (by decide +kernel)

lemma expand32_4_spread : IsSpread 5 (32 / 5) expand32_4 :=
  isSpread_or (m0 := 0x3f)
    (rs := [(4, 0x2108421), (8, 0x300c03), (16, 0x30000f)]) (by decide +kernel)

lemma expand32_5_spread : IsSpread 6 (32 / 6) expand32_5 :=
  isSpread_or (m0 := 0x1f)
    (rs := [(1, 0x1041041), (2, 0x1021021), (4, 0x1008421), (8, 0x100c03), (16, 0x10000f)]) (by decide +kernel)

lemma expand32_6_spread : IsSpread 7 (32 / 7) expand32_6 :=
  isSpread_or (m0 := 0xf)
    (rs := [(2, 0x204081), (4, 0x84021), (8, 0x80403), (16, 0x80007)]) (by decide +kernel)

lemma expand32_7_spread : IsSpread 8 (32 / 8) expand32_7 :=
  isSpread_or (m0 := 0xf)
    (rs := [(1, 0x1010101), (2, 0x810081), (4, 0x804021), (8, 0x80403), (16, 0x80007)]) (by decide +kernel)

lemma expand32_8_spread : IsSpread 9 (32 / 9) expand32_8 :=
  isSpread_or (m0 := 0x7)
    (rs := [(8, 0x40201), (16, 0x40003)]) (by decide +kernel)

lemma expand32_9_spread : IsSpread 10 (32 / 10) expand32_9 :=
  isSpread_or (m0 := 0x7)
    (rs := [(1, 0x100401), (2, 0x100201), (8, 0x40201), (16, 0x40003)]) (by decide +kernel)

lemma expand64_1_spread : IsSpread 2 (63 / 2) expand64_1 :=
  isSpread_or (m0 := 0x7fffffff)
    (rs := [(1, 0x1555555555555555), (2, 0x1333333333333333), (4, 0x70f0f0f0f0f0f0f), (8, 0x7f00ff00ff00ff), (16, 0x7fff0000ffff)]) (by decide +kernel)

lemma expand64_2_spread : IsSpread 3 (63 / 3) expand64_2 :=
  isSpread_or (m0 := 0x1fffff)
    (rs := [(2, 0x1249249249249249), (4, 0x10c30c30c30c30c3), (8, 0x100f00f00f00f00f), (16, 0x1f0000ff0000ff), (32, 0x1f00000000ffff)]) (by decide +kernel)

lemma expand64_3_spread : IsSpread 4 (63 / 4) expand64_3 :=
  isSpread_or (m0 := 0x7fff)
    (rs := [(1, 0x111111111111111), (2, 0x109090909090909), (4, 0x43084308430843), (8, 0x40380700c03807), (16, 0x780007c0003f), (32, 0x7800000007ff)]) (by decide +kernel)

lemma expand64_4_spread : IsSpread 5 (63 / 5) expand64_4 :=
  isSpread_or (m0 := 0xfff)
    (rs := [(4, 0x84210842108421), (8, 0xc0300c0300c03), (16, 0xf0000f0000f), (32, 0xf00000000ff)]) (by decide +kernel)

lemma expand64_5_spread : IsSpread 6 (63 / 6) expand64_5 :=
  isSpread_or (m0 := 0x3ff)
    (rs := [(1, 0x41041041041041), (2, 0x21021021021021), (4, 0x21008421008421), (8, 0x3008060100c03), (16, 0x3800070000f), (32, 0x3800000007f)]) (by decide +kernel)

lemma expand64_6_spread : IsSpread 7 (63 / 7) expand64_6 :=
  isSpread_or (m0 := 0x1ff)
    (rs := [(2, 0x102040810204081), (4, 0x100840210084021), (8, 0x100804030080403), (16, 0x10000c000380007), (32, 0x1c00000003f)]) (by decide +kernel)

lemma expand64_7_spread : IsSpread 8 (63 / 8) expand64_7 :=
  isSpread_or (m0 := 0x7f)
    (rs := [(1, 0x1010101010101), (2, 0x1008100810081), (4, 0x402100804021), (8, 0x402010080403), (16, 0x6000180007), (32, 0x600000001f)]) (by decide +kernel)

lemma expand64_8_spread : IsSpread 9 (63 / 9) expand64_8 :=
  isSpread_or (m0 := 0x7f)
    (rs := [(8, 0x40201008040201), (16, 0x400030000c0003), (32, 0x700000000f)]) (by decide +kernel)

lemma expand64_9_spread : IsSpread 10 (63 / 10) expand64_9 :=
  isSpread_or (m0 := 0x3f)
    (rs := [(1, 0x4010040100401), (2, 0x2010020100201), (4, 0x2010008040201), (8, 0x201008040201), (16, 0x30000c0003), (32, 0x300000000f)]) (by decide +kernel)

end ArborX.Morton
