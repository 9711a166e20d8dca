import Verif.Float.Round

/-!
# Model of the Morton codes

Models `src/spatial/detail/ArborX_MortonCode.hpp`.
-/

namespace ArborX.Morton

open Float

/-- `expandBitsBy<0>(unsigned int)` (lines 45-48). -/
def expand32_0 (x : BitVec 32) : BitVec 32 :=
  x

/-- `expandBitsBy<1>(unsigned int)` (lines 52-60). -/
def expand32_1 (x : BitVec 32) : BitVec 32 :=
  let x := x &&& 0x0000ffff#32
  let x := (x ^^^ x <<< 8) &&& 0x00ff00ff#32
  let x := (x ^^^ x <<< 4) &&& 0x0f0f0f0f#32
  let x := (x ^^^ x <<< 2) &&& 0x33333333#32
  let x := (x ^^^ x <<< 1) &&& 0x55555555#32
  x

/-- `expandBitsBy<2>(unsigned int)` (lines 64-72). -/
def expand32_2 (x : BitVec 32) : BitVec 32 :=
  let x := x &&& 0x000003ff#32
  let x := (x ^^^ x <<< 16) &&& 0xff0000ff#32
  let x := (x ^^^ x <<< 8) &&& 0x0300f00f#32
  let x := (x ^^^ x <<< 4) &&& 0x030c30c3#32
  let x := (x ^^^ x <<< 2) &&& 0x09249249#32
  x

/-- `expandBitsBy<3>(unsigned int)` (lines 76-85). -/
def expand32_3 (x : BitVec 32) : BitVec 32 :=
  let x := x &&& 0xff#32
  let x := (x ||| x <<< 16) &&& 0xc0003f#32
  let x := (x ||| x <<< 8) &&& 0xc03807#32
  let x := (x ||| x <<< 4) &&& 0x8430843#32
  let x := (x ||| x <<< 2) &&& 0x9090909#32
  let x := (x ||| x <<< 1) &&& 0x11111111#32
  x

/-- `expandBitsBy<4>(unsigned int)` (lines 89-96). -/
def expand32_4 (x : BitVec 32) : BitVec 32 :=
  let x := x &&& 0x3f#32
  let x := (x ||| x <<< 16) &&& 0x30000f#32
  let x := (x ||| x <<< 8) &&& 0x300c03#32
  let x := (x ||| x <<< 4) &&& 0x2108421#32
  x

/-- `expandBitsBy<5>(unsigned int)` (lines 100-109). -/
def expand32_5 (x : BitVec 32) : BitVec 32 :=
  let x := x &&& 0x1f#32
  let x := (x ||| x <<< 16) &&& 0x10000f#32
  let x := (x ||| x <<< 8) &&& 0x100c03#32
  let x := (x ||| x <<< 4) &&& 0x1008421#32
  let x := (x ||| x <<< 2) &&& 0x1021021#32
  let x := (x ||| x <<< 1) &&& 0x1041041#32
  x

/-- `expandBitsBy<6>(unsigned int)` (lines 113-121). -/
def expand32_6 (x : BitVec 32) : BitVec 32 :=
  let x := x &&& 0xf#32
  let x := (x ||| x <<< 16) &&& 0x80007#32
  let x := (x ||| x <<< 8) &&& 0x80403#32
  let x := (x ||| x <<< 4) &&& 0x84021#32
  let x := (x ||| x <<< 2) &&& 0x204081#32
  x

/-- `expandBitsBy<7>(unsigned int)` (lines 125-134). -/
def expand32_7 (x : BitVec 32) : BitVec 32 :=
  let x := x &&& 0xf#32
  let x := (x ||| x <<< 16) &&& 0x80007#32
  let x := (x ||| x <<< 8) &&& 0x80403#32
  let x := (x ||| x <<< 4) &&& 0x804021#32
  let x := (x ||| x <<< 2) &&& 0x810081#32
  let x := (x ||| x <<< 1) &&& 0x1010101#32
  x

/-- `expandBitsBy<8>(unsigned int)` (lines 138-144). -/
def expand32_8 (x : BitVec 32) : BitVec 32 :=
  let x := x &&& 0x7#32
  let x := (x ||| x <<< 16) &&& 0x40003#32
  let x := (x ||| x <<< 8) &&& 0x40201#32
  x

/-- `expandBitsBy<9>(unsigned int)` (lines 148-156). -/
def expand32_9 (x : BitVec 32) : BitVec 32 :=
  let x := x &&& 0x7#32
  let x := (x ||| x <<< 16) &&& 0x40003#32
  let x := (x ||| x <<< 8) &&& 0x40201#32
  let x := (x ||| x <<< 2) &&& 0x100201#32
  let x := (x ||| x <<< 1) &&& 0x100401#32
  x

/-- `expandBitsBy<0>(unsigned long long)` (lines 168-171). -/
def expand64_0 (x : BitVec 64) : BitVec 64 :=
  x

/-- `expandBitsBy<1>(unsigned long long)` (lines 175-184). -/
def expand64_1 (x : BitVec 64) : BitVec 64 :=
  let x := x &&& 0x7fffffff#64
  let x := (x ||| x <<< 16) &&& 0x7fff0000ffff#64
  let x := (x ||| x <<< 8) &&& 0x7f00ff00ff00ff#64
  let x := (x ||| x <<< 4) &&& 0x70f0f0f0f0f0f0f#64
  let x := (x ||| x <<< 2) &&& 0x1333333333333333#64
  let x := (x ||| x <<< 1) &&& 0x1555555555555555#64
  x

/-- `expandBitsBy<2>(unsigned long long)` (lines 188-197). -/
def expand64_2 (x : BitVec 64) : BitVec 64 :=
  let x := x &&& 0x1fffff#64
  let x := (x ||| x <<< 32) &&& 0x1f00000000ffff#64
  let x := (x ||| x <<< 16) &&& 0x1f0000ff0000ff#64
  let x := (x ||| x <<< 8) &&& 0x100f00f00f00f00f#64
  let x := (x ||| x <<< 4) &&& 0x10c30c30c30c30c3#64
  let x := (x ||| x <<< 2) &&& 0x1249249249249249#64
  x

/-- `expandBitsBy<3>(unsigned long long)` (lines 201-211). -/
def expand64_3 (x : BitVec 64) : BitVec 64 :=
  let x := x &&& 0x7fff#64
  let x := (x ||| x <<< 32) &&& 0x7800000007ff#64
  let x := (x ||| x <<< 16) &&& 0x780007c0003f#64
  let x := (x ||| x <<< 8) &&& 0x40380700c03807#64
  let x := (x ||| x <<< 4) &&& 0x43084308430843#64
  let x := (x ||| x <<< 2) &&& 0x109090909090909#64
  let x := (x ||| x <<< 1) &&& 0x111111111111111#64
  x

/-- `expandBitsBy<4>(unsigned long long)` (lines 215-223). -/
def expand64_4 (x : BitVec 64) : BitVec 64 :=
  let x := x &&& 0xfff#64
  let x := (x ||| x <<< 32) &&& 0xf00000000ff#64
  let x := (x ||| x <<< 16) &&& 0xf0000f0000f#64
  let x := (x ||| x <<< 8) &&& 0xc0300c0300c03#64
  let x := (x ||| x <<< 4) &&& 0x84210842108421#64
  x

/-- `expandBitsBy<5>(unsigned long long)` (lines 227-237). -/
def expand64_5 (x : BitVec 64) : BitVec 64 :=
  let x := x &&& 0x3ff#64
  let x := (x ||| x <<< 32) &&& 0x3800000007f#64
  let x := (x ||| x <<< 16) &&& 0x3800070000f#64
  let x := (x ||| x <<< 8) &&& 0x3008060100c03#64
  let x := (x ||| x <<< 4) &&& 0x21008421008421#64
  let x := (x ||| x <<< 2) &&& 0x21021021021021#64
  let x := (x ||| x <<< 1) &&& 0x41041041041041#64
  x

/-- `expandBitsBy<6>(unsigned long long)` (lines 241-250). -/
def expand64_6 (x : BitVec 64) : BitVec 64 :=
  let x := x &&& 0x1ff#64
  let x := (x ||| x <<< 32) &&& 0x1c00000003f#64
  let x := (x ||| x <<< 16) &&& 0x10000c000380007#64
  let x := (x ||| x <<< 8) &&& 0x100804030080403#64
  let x := (x ||| x <<< 4) &&& 0x100840210084021#64
  let x := (x ||| x <<< 2) &&& 0x102040810204081#64
  x

/-- `expandBitsBy<7>(unsigned long long)` (lines 254-264). -/
def expand64_7 (x : BitVec 64) : BitVec 64 :=
  let x := x &&& 0x7f#64
  let x := (x ||| x <<< 32) &&& 0x600000001f#64
  let x := (x ||| x <<< 16) &&& 0x6000180007#64
  let x := (x ||| x <<< 8) &&& 0x402010080403#64
  let x := (x ||| x <<< 4) &&& 0x402100804021#64
  let x := (x ||| x <<< 2) &&& 0x1008100810081#64
  let x := (x ||| x <<< 1) &&& 0x1010101010101#64
  x

/-- `expandBitsBy<8>(unsigned long long)` (lines 268-275). -/
def expand64_8 (x : BitVec 64) : BitVec 64 :=
  let x := x &&& 0x7f#64
  let x := (x ||| x <<< 32) &&& 0x700000000f#64
  let x := (x ||| x <<< 16) &&& 0x400030000c0003#64
  let x := (x ||| x <<< 8) &&& 0x40201008040201#64
  x

/-- `expandBitsBy<9>(unsigned long long)` (lines 279-289). -/
def expand64_9 (x : BitVec 64) : BitVec 64 :=
  let x := x &&& 0x3f#64
  let x := (x ||| x <<< 32) &&& 0x300000000f#64
  let x := (x ||| x <<< 16) &&& 0x30000c0003#64
  let x := (x ||| x <<< 8) &&& 0x201008040201#64
  let x := (x ||| x <<< 4) &&& 0x2010008040201#64
  let x := (x ||| x <<< 2) &&& 0x2010020100201#64
  let x := (x ||| x <<< 1) &&& 0x4010040100401#64
  x

/-- `expandBitsBy<k>` on 32-bit words. -/
def expand32 : ℕ → BitVec 32 → BitVec 32
  | 0 => expand32_0
  | 1 => expand32_1
  | 2 => expand32_2
  | 3 => expand32_3
  | 4 => expand32_4
  | 5 => expand32_5
  | 6 => expand32_6
  | 7 => expand32_7
  | 8 => expand32_8
  | 9 => expand32_9
  | _ => fun _ => 0 -- rejected at compile time (lines 38-39)

/-- `expandBitsBy<k>` on 64-bit words. -/
def expand64 : ℕ → BitVec 64 → BitVec 64
  | 0 => expand64_0
  | 1 => expand64_1
  | 2 => expand64_2
  | 3 => expand64_3
  | 4 => expand64_4
  | 5 => expand64_5
  | 6 => expand64_6
  | 7 => expand64_7
  | 8 => expand64_8
  | 9 => expand64_9
  | _ => fun _ => 0 -- rejected at compile time (lines 161-162)

/-- `Kokkos::clamp`. -/
def clamp (v lo hi : ℚ) : ℚ := if v < lo then lo else if hi < v then hi else v

/-- Bits per coordinate: `morton32` (line 297). -/
def bits32 (dim : ℕ) : ℕ := if dim = 1 then 31 else 32 / dim

/-- Bits per coordinate: `morton64` (line 324). -/
def bits64 (dim : ℕ) : ℕ := 63 / dim

/-- A coordinate of `morton32` (lines 303-312) as an integer: `prec` is the precision of the
type `Float` (24 for `float` or integer coordinates, 53 for `double`). The product with the
power of two `N` is exact; the result is stored in a `float` and truncated. Simplification:
coordinates are rational numbers (no NaN or infinity, no overflow of the product). -/
def cell32 (dim prec : ℕ) (p : ℚ) : ℕ :=
  let N : ℕ := 2 ^ bits32 dim
  ⌊flr 24 (clamp (p * N) 0 (flr prec ((N - 1 : ℕ) : ℚ)))⌋₊

/-- `NeedDouble` (line 331): `N > 16777217`. -/
def needDouble (dim : ℕ) : Bool := decide (2 ^ bits64 dim > 16777217)

/-- A coordinate of `morton64` (lines 331-342) as an integer; `prec` is the precision of the
coordinate type of the point (24 for integer types). -/
def cell64 (dim prec : ℕ) (p : ℚ) : ℕ :=
  let N : ℕ := 2 ^ bits64 dim
  let dflt := if needDouble dim then 53 else 24
  let prec' := if needDouble dim then 53 else prec
  ⌊flr dflt (clamp (p * N) 0 (flr prec' ((N - 1 : ℕ) : ℚ)))⌋₊

/-- The loop of `morton32`/`morton64` (lines 309-313, 339-343) over coordinates `0 .. m-1`. -/
def codeLoop {w : ℕ} (expand : BitVec w → BitVec w) (dim : ℕ) (q : ℕ → ℕ) : ℕ → BitVec w
  | 0 => 0
  | d + 1 => codeLoop expand dim q d + (expand (BitVec.ofNat w (q d)) <<< (dim - d - 1))

/-- `morton32` (lines 291-316). -/
def morton32 (dim prec : ℕ) (p : ℕ → ℚ) : BitVec 32 :=
  codeLoop (expand32 (dim - 1)) dim (fun d => cell32 dim prec (p d)) dim

/-- `morton64` (lines 318-347). -/
def morton64 (dim prec : ℕ) (p : ℕ → ℚ) : BitVec 64 :=
  codeLoop (expand64 (dim - 1)) dim (fun d => cell64 dim prec (p d)) dim

/-- `translateAndScale` (`src/geometry/algorithms/ArborX_TranslateAndScale.hpp` lines 26-37),
one coordinate. Simplification: exact arithmetic. -/
def translateAndScale (x a b : ℚ) : ℚ := if a ≠ b then (x - a) / (b - a) else 0

end ArborX.Morton
