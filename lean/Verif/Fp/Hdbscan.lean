import Verif.Fp.Cloud
import Verif.Euclid.Hdbscan

/-!
# HDBSCAN in floating-point arithmetic (C68)
-/

namespace ArborX.Fp

open Geometry BVH Euclid

/-! ## The bit pattern of a `float` -/

/-- `Kokkos::bit_cast<int>(weight)` (`src/cluster/detail/ArborX_BoruvkaHelpers.hpp` 613) of a `float` which is not negative: infinity has all bits of the
exponent set; with unit in the last place `2 ^ e`, it is `k 2 ^ e` with `k < 2 ^ 24`. Subnormal numbers have `e = -149` and the pattern `k`; normal numbers have `k ≥ 2 ^ 23`, the
biased exponent `e + 150` and the fraction `k - 2 ^ 23`, together `(e + 149) 2 ^ 23 + k`. -/
noncomputable def Ieee.bits (x : EReal) : ℕ :=
  if x = 0 then 0
  else if x = ⊤ then 0x7f800000
  else ((Ieee.ulpExp 24 (-149) x.toReal + 149) * 2 ^ 23 + ⌊x.toReal / 2 ^ Ieee.ulpExp 24 (-149) x.toReal⌋).toNat

namespace Ieee

/-- The significand of a number of the type is a number of at most 24 bits, and at least 24 if the unit is not the smallest one. -/
lemma significand {x : ℝ} (hx : 0 < x) (h : near 24 (-149) x = x) :
    ∃ k : ℕ, x = k * 2 ^ ulpExp 24 (-149) x ∧ ⌊x / 2 ^ ulpExp 24 (-149) x⌋ = (k : ℤ) ∧ 0 < k ∧ k < 2 ^ 24 ∧ (ulpExp 24 (-149) x ≠ -149 → 2 ^ 23 ≤ k) := by
  set e := ulpExp 24 (-149) x with he
  have hu := ulp_pos e
  obtain ⟨z, hz⟩ : ∃ z : ℤ, x = z * 2 ^ e := ⟨roundEven (x / 2 ^ e), by unfold near at h; exact h.symm⟩
  have hz0 : 0 ≤ z := by
    by_contra hneg
    have : (z : ℝ) < 0 := by exact_mod_cast not_le.mp hneg
    have := mul_neg_of_neg_of_pos this hu
    rw [← hz] at this; linarith
  obtain ⟨k, rfl⟩ := Int.eq_ofNat_of_zero_le hz0
  have hz' : x = (k : ℝ) * 2 ^ e := by rw [hz]; norm_cast
  refine ⟨k, hz', ?_, ?_, ?_, fun hne => ?_⟩
  · have : x / 2 ^ e = ((k : ℤ) : ℝ) := by
      rw [div_eq_iff hu.ne', hz']; norm_cast
    rw [this, Int.floor_intCast]
  · rcases Nat.eq_zero_or_pos k with h0 | h0
    · rw [hz', h0] at hx; simp at hx
    · exact h0
  · have h1 : x < 2 ^ (e + 24) := by
      refine lt_of_lt_of_le lt_log (zpow_le_zpow_right₀ (by norm_num) ?_)
      have : Int.log 2 x - ((24 : ℕ) - 1) ≤ e := le_max_left _ _
      push_cast at this
      omega
    rw [zpow_add₀ (by norm_num), mul_comm] at h1
    rw [hz'] at h1
    have h2 := lt_of_mul_lt_mul_right h1 hu.le
    have h3 : (k : ℝ) < ((2 ^ 24 : ℕ) : ℝ) := by
      rw [Nat.cast_pow]
      exact h2
    exact_mod_cast h3
  · have hlog : Int.log 2 x = e + 23 := by
      have : e = Int.log 2 x - ((24 : ℕ) - 1) := by
        unfold ulpExp at he; omega
      push_cast at this
      omega
    have h1 := log_le hx
    rw [hlog, zpow_add₀ (by norm_num), mul_comm] at h1
    rw [hz'] at h1
    have h2 := le_of_mul_le_mul_right h1 hu
    have h3 : ((2 ^ 23 : ℕ) : ℝ) ≤ (k : ℝ) := by
      rw [Nat.cast_pow]
      exact h2
    exact_mod_cast h3

lemma bits_top : bits ⊤ = 0x7f800000 := by
  unfold bits
  rw [if_neg (by simp), if_pos rfl]

lemma bits_zero : bits (0 : ℝ) = 0 := by
  unfold bits
  rw [if_pos EReal.coe_zero]

lemma bits_eq {x : ℝ} (hx : 0 < x) {k : ℕ} (h : ⌊x / 2 ^ ulpExp 24 (-149) x⌋ = (k : ℤ)) :
    (bits x : ℤ) = (ulpExp 24 (-149) x + 149) * 2 ^ 23 + k := by
  unfold bits
  rw [if_neg (EReal.coe_ne_zero.mpr hx.ne'), if_neg (EReal.coe_ne_top x), EReal.toReal_coe, h, Int.toNat_of_nonneg]
  have : (-149 : ℤ) ≤ ulpExp 24 (-149) x := le_max_right _ _
  have : (0 : ℤ) ≤ (k : ℤ) := Int.natCast_nonneg k
  omega

/-- Bit patterns have no sign bit ... -/
lemma bits_small {x : ℝ} (hx : 0 ≤ x) (h : near 24 (-149) x = x) (hlt : x < 2 ^ (128 : ℤ)) : bits x < 0x7f800000 := by
  rcases hx.eq_or_lt with h0 | h0
  · rw [← h0, bits_zero]; norm_num
  obtain ⟨k, -, hf, -, hk, -⟩ := significand h0 h
  have hb := bits_eq h0 hf
  have he : ulpExp 24 (-149) x ≤ 104 := by
    have : Int.log 2 x < 128 := by
      rw [← Int.lt_zpow_iff_log_lt (b := 2) (by norm_num) h0]
      exact_mod_cast hlt
    unfold ulpExp
    push_cast
    omega
  omega

/-- ... and are in the order of the numbers. -/
lemma bits_lt {x y : ℝ} (hx : 0 ≤ x) (hx' : near 24 (-149) x = x) (hy' : near 24 (-149) y = y) (h : x < y) : bits x < bits y := by
  have hy : 0 < y := lt_of_le_of_lt hx h
  obtain ⟨m, em, hg, hm0, hm, hm'⟩ := significand hy hy'
  have hc := bits_eq hy hg
  have hmin : (-149 : ℤ) ≤ ulpExp 24 (-149) y := le_max_right _ _
  rcases hx.eq_or_lt with h0 | h0
  · rw [← h0, bits_zero]
    omega
  obtain ⟨k, ek, hf, -, hk, -⟩ := significand h0 hx'
  have hb := bits_eq h0 hf
  have hmin' : (-149 : ℤ) ≤ ulpExp 24 (-149) x := le_max_right _ _
  have he : ulpExp 24 (-149) x ≤ ulpExp 24 (-149) y := by
    have := Int.log_mono_right (b := 2) h0 h.le
    unfold ulpExp
    omega
  rcases lt_or_eq_of_le he with he | he
  · have := hm' (by omega)
    omega
  · have hkm : k < m := by
      rw [ek, em, ← he] at h
      have := lt_of_mul_lt_mul_right h (ulp_pos _).le
      exact_mod_cast this
    rw [he] at hb
    omega

end Ieee

lemma Format.rounded_norm (F : Format) {D : ℕ} (g : Fin D → Option ℝ) : F.Rounded (F.norm g) := by
  unfold Format.norm Format.sqrt
  split_ifs
  · exact F.rounded_top
  · exact F.rounded_rnd (Real.sqrt_nonneg _)

lemma float_kept {fma : Bool} {x : ℝ} (hx : 0 ≤ x) (h : (Ieee.float fma).rnd x = x) : Ieee.near 24 (-149) x = x ∧ x < 2 ^ (128 : ℤ) := by
  have h' : Ieee.pos 24 (-149) 128 x = (x : EReal) := by
    have : (Ieee.float fma).rnd x = Ieee.rnd 24 (-149) 128 x := rfl
    rw [this] at h
    unfold Ieee.rnd at h
    rwa [if_pos hx] at h
  unfold Ieee.pos at h'
  split_ifs at h' with hlt
  · have e : Ieee.near 24 (-149) x = x := EReal.coe_eq_coe_iff.mp h'
    exact ⟨e, e ▸ hlt⟩
  · exact absurd h'.symm (EReal.coe_ne_top x)

variable {D : ℕ}

/-- The bit patterns of computed distances are in the order of the distances. -/
lemma Cloud.bits_ok (A : Cloud D) (fma : Bool) : Hdbscan.BitsOk A.pts.length (A.dist (Ieee.float fma)) Ieee.bits := by
  have key : ∀ p < A.pts.length, ∀ q < A.pts.length, A.dist (Ieee.float fma) p q = ⊤ ∨ ∃ x : ℝ, A.dist (Ieee.float fma) p q = x ∧ 0 ≤ x ∧
      Ieee.near 24 (-149) x = x ∧ x < 2 ^ (128 : ℤ) := by
    intro p hp q hq
    by_cases htop : A.dist (Ieee.float fma) p q = ⊤
    · exact .inl htop
    right
    obtain ⟨h0, hr⟩ := (Ieee.float fma).rounded_norm (fun d => some (A.pt q d - A.pt p d))
    have hne : A.dist (Ieee.float fma) p q ≠ ⊥ := fun e => by
      have : (0 : EReal) ≤ A.dist (Ieee.float fma) p q := h0
      rw [e] at this
      exact absurd this (by simp)
    obtain ⟨x, ex⟩ : ∃ x : ℝ, A.dist (Ieee.float fma) p q = x := ⟨_, (EReal.coe_toReal htop hne).symm⟩
    have hx : 0 ≤ x := by
      have : (0 : EReal) ≤ A.dist (Ieee.float fma) p q := h0
      rw [ex] at this
      exact EReal.coe_nonneg.mp this
    exact ⟨x, ex, hx, float_kept hx (hr x ex)⟩
  constructor
  · intro p hp q hq
    rcases key p hp q hq with e | ⟨x, ex, h0, h1, h2⟩
    · rw [e, Ieee.bits_top]; norm_num
    · rw [ex]; exact (Ieee.bits_small h0 h1 h2).trans (by norm_num)
  · intro p hp q hq a ha b hb hlt
    rcases key p hp q hq with e | ⟨x, ex, h0, h1, h2⟩
    · rw [e] at hlt
      exact absurd hlt not_top_lt
    rcases key a ha b hb with e | ⟨y, ey, -, h3, -⟩
    · rw [e, ex, Ieee.bits_top]
      exact Ieee.bits_small h0 h1 h2
    · rw [ex, ey] at hlt ⊢
      exact Ieee.bits_lt h0 h1 h3 (EReal.coe_lt_coe_iff.mp hlt)

/-- **C68 (partial).** `hdbscan` on points with coordinates of type `float`, at least two and at distances that do not overflow, for any `k` and both
implementations: whatever the schedules of all kernels and the behaviour of the library sort on equal keys, no out-of-bounds access, and when it returns,
parents and heights are a binary dendrogram of the single-linkage clusters for the computed distances (`k ≤ 1`) or for the mutual reachability distances
made from them (`k > 1`). It returns if every thread gets enough steps.

Partial: the stacks of 64 entries are assumed to be large enough for the tree (`stack_fits_partial` says when). -/
theorem hdbscan_float_partial (boruvka : Bool) (A : Cloud D) (hA : A.Valid) (hn : 2 ≤ A.pts.length) (hbig : A.pts.length ≤ 2 ^ 30) (fma : Bool)
    (hfin : ∀ p < A.pts.length, ∀ q < A.pts.length, A.dist (Ieee.float fma) p q < ⊤) (shared : Bool) (k : ℕ)
    (hcap : Nearest.StackFits A.scene.input 64) (schedB : List ℕ) (hB : A.scene.input.Finished schedB)
    (ordP : List ℕ) (hoP : ordP.Perm (List.range (2 * A.pts.length - 2)))
    (sc : ℕ → Hdbscan.HSched) (hsc : ∀ it, (sc it).Valid A.pts.length) (ro : Hdbscan.Reorder EReal) (hro : ro.Valid (A.pts.length - 1))
    (fuel : ℕ) (hfuel : 2 * A.pts.length ≤ fuel) (iters : ℕ) :
    ∃ weight : ℕ → ℕ → EReal,
      (k ≤ 1 → weight = A.dist (Ieee.float fma)) ∧
      (1 < k → ∃ core : ℕ → EReal, (∀ p < A.pts.length, Mst.IsCore (A.dist (Ieee.float fma)) A.pts.length k p (core p)) ∧
        weight = Mst.mutualReach (A.dist (Ieee.float fma)) core) ∧
      (Hdbscan.hdbscan boruvka (A.geo (Ieee.float fma) shared) Ieee.bits k A.scene.input schedB ordP sc ro fuel iters = .running ∨
        ∃ parents heights, Hdbscan.hdbscan boruvka (A.geo (Ieee.float fma) shared) Ieee.bits k A.scene.input schedB ordP sc ro fuel iters
            = .ok (parents, heights) ∧ Hdbscan.IsDendrogram A.pts.length weight parents heights) ∧
      ((∀ it, (sc it).toSched.Fair A.pts.length) → A.pts.length ≤ 2 ^ iters →
        Hdbscan.hdbscan boruvka (A.geo (Ieee.float fma) shared) Ieee.bits k A.scene.input schedB ordP sc ro fuel iters ≠ .running) := by
  have hlen := A.n_eq
  have := Hdbscan.hdbscan_correct_partial boruvka (A.geo (Ieee.float fma) shared) Ieee.bits k A.scene.input hA.scene.input (by omega) (by omega)
    (fun _ _ => rfl) (A.box_le _ shared) (fun p q => Format.distPoint_comm _ _ _) (by rw [hlen]; exact hfin)
    (by rw [hlen]; exact A.bits_ok fma) hcap schedB hB ordP (by rw [hlen]; exact hoP) sc (by rw [hlen]; exact hsc)
    ro (by rw [hlen]; exact hro) fuel (by omega) iters
  rw [hlen] at this
  exact this

end ArborX.Fp
