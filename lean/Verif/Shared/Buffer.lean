import Mathlib.Data.List.Basic
import Mathlib.Algebra.BigOperators.Group.List.Basic
import Mathlib.Algebra.Order.Group.Nat

/-! # Model of the buffer of the nearest queries (`src/spatial/detail/ArborX_NearestBufferProvider.hpp`) -/

namespace ArborX.Shared

/-- `_offset(i)` after `allocateBuffer` (`ArborX_NearestBufferProvider.hpp` 55-66): the exclusive scan of the numbers of neighbours `k`, in 32-bit
integers. `exclusive_scan` by its specification; the values wrap around, which is what happens in practice, although signed
overflow is undefined. -/
def offset (k : ℕ → ℕ) (i : ℕ) : BitVec 32 := BitVec.ofNat 32 ((List.range i).map k).sum

lemma sum_succ (k : ℕ → ℕ) (i : ℕ) : ((List.range (i + 1)).map k).sum = ((List.range i).map k).sum + k i := by
  simp [List.range_succ]

lemma sum_mono (k : ℕ → ℕ) {i j : ℕ} (h : i ≤ j) : ((List.range i).map k).sum ≤ ((List.range j).map k).sum := by
  induction h with
  | refl => exact le_rfl
  | step _ ih => rw [sum_succ]; omega

lemma offset_eq {k : ℕ → ℕ} {n : ℕ} (h : ((List.range n).map k).sum < 2 ^ 31) {i : ℕ} (hi : i ≤ n) :
    (offset k i).toNat = ((List.range i).map k).sum := by
  have := sum_mono k hi
  rw [offset, BitVec.toNat_ofNat, Nat.mod_eq_of_lt (by omega)]

end ArborX.Shared
