import Verif.Fp.Examples
import Verif.Fp.DenseBoxLimits
import Verif.Hdbscan.Finite

/-!
# Property theorems: spanning trees and HDBSCAN of points whose distances overflow (C94)
-/

namespace ArborX.Fp

open Geometry BVH Euclid
open Mst (FiniteSteps reachable)

variable {D : ℕ}

/-! ## Lemmas: overflow -/

lemma rnd_overflow (fma : Bool) {x : ℝ} (hx : 2 ^ (128 : ℤ) ≤ x) : (Ieee.float fma).rnd x = ⊤ := by
  have h : (Ieee.float fma).rnd (2 ^ (128 : ℤ)) = ⊤ := by
    show Ieee.rnd 24 (-149) 128 (2 ^ (128 : ℤ)) = ⊤
    unfold Ieee.rnd Ieee.pos
    rw [if_pos (by positivity), Ieee.near_pow (by norm_num) (by norm_num), if_neg (lt_irrefl _)]
  exact top_le_iff.mp (h ▸ (Ieee.float fma).mono hx)

lemma madd_overflow (fma : Bool) {s : EReal} (hs : 0 ≤ s) : (Ieee.float fma).madd s ((2 ^ (64 : ℤ) : ℝ) : EReal) = ⊤ := by
  by_cases h : s = ⊤
  · unfold Format.madd
    rw [if_pos (.inl h)]
  have hs' : 0 ≤ s.toReal := EReal.toReal_nonneg hs
  have e : (2 ^ (64 : ℤ) : ℝ) * 2 ^ (64 : ℤ) = 2 ^ (128 : ℤ) := by norm_num
  unfold Format.madd
  rw [EReal.toReal_coe, e, rnd_overflow fma le_rfl, rnd_overflow fma (by linarith)]
  simp

lemma fold_overflow (fma : Bool) {d : Fin D} : ∀ (l : List (Fin D)) (s : EReal), 0 ≤ s → d ∈ l →
    l.foldl (fun s e => (Ieee.float fma).step s (if e = d then some (2 ^ (64 : ℤ) : ℝ) else none)) s = ⊤ := by
  have top : ∀ l : List (Fin D), l.foldl (fun s e => (Ieee.float fma).step s (if e = d then some (2 ^ (64 : ℤ) : ℝ) else none)) ⊤ = ⊤ := by
    intro l
    induction l with
    | nil => rfl
    | cons a l ih =>
      rw [List.foldl_cons]
      have : (Ieee.float fma).step ⊤ (if a = d then some (2 ^ (64 : ℤ) : ℝ) else none) = ⊤ := by
        split_ifs
        · show (Ieee.float fma).madd ⊤ _ = ⊤
          unfold Format.madd
          rw [if_pos (.inl rfl)]
        · rfl
      rw [this]; exact ih
  intro l
  induction l with
  | nil => intro s _ h; cases h
  | cons a l ih =>
    intro s hs h
    rw [List.foldl_cons]
    by_cases ha : a = d
    · rw [if_pos ha]
      have e : (Ieee.float fma).rnd (2 ^ (64 : ℤ)) = ((2 ^ (64 : ℤ) : ℝ) : EReal) :=
        float_exact fma 1 64 (by norm_num) (by norm_num) (by norm_num) (by norm_num)
      unfold Format.step
      dsimp only
      rw [e, madd_overflow fma hs]
      exact top l
    · rw [if_neg ha]
      exact ih s hs ((List.mem_cons.mp h).resolve_left (fun e => ha e.symm))

/-- Coordinates that differ by `2 ^ 64` or more: the square overflows. -/
lemma distPoint_overflow (fma : Bool) {a b : Pt ℝ D} {d : Fin D} (h : 2 ^ (64 : ℤ) ≤ |b d - a d|) :
    (Ieee.float fma).distPoint a b = ⊤ := by
  have h1 : (Ieee.float fma).norm (fun e => if e = d then some (2 ^ (64 : ℤ) : ℝ) else none) = ⊤ := by
    unfold Format.norm
    rw [fold_overflow fma _ 0 le_rfl (List.mem_finRange d)]
    unfold Format.sqrt
    rw [if_pos rfl]
  refine top_le_iff.mp (h1 ▸ (Ieee.float fma).norm_mono (fun e x hx => ⟨_, rfl, ?_⟩))
  by_cases he : e = d
  · rw [if_pos he, Option.some_inj] at hx
    rw [← hx, he, abs_of_pos (by positivity)]
    exact h
  · rw [if_neg he] at hx
    cases hx

/-! ## Property theorems -/

/-- **C94 (partial).** `MinimumSpanningTree` in floating-point arithmetic on any points with finite coordinates, whether or not their computed distances
overflow: a minimum spanning tree for the computed distances (or the mutual reachability distances made from them) if the points are connected by distances
that do not overflow, an access out of bounds if they are not.

Partial: the stacks of 64 entries are assumed to be large enough for the tree (`stack_fits_partial` says when). -/
theorem mst_float_infinite_partial (A : Cloud D) (hA : A.Valid) (F : Format) (hn : 2 ≤ A.pts.length) (hbig : A.pts.length < 2 ^ 31) (shared : Bool) (k : ℕ)
    (hcap : Nearest.StackFits A.scene.input 64) (schedB : List ℕ) (hB : A.scene.input.Finished schedB)
    (ordP : List ℕ) (hoP : ordP.Perm (List.range (2 * A.pts.length - 2)))
    (sc : ℕ → Boruvka.Sched) (hsc : ∀ it, (sc it).Valid A.pts.length) (fuel : ℕ) (hfuel : 2 * A.pts.length ≤ fuel) (iters : ℕ) :
    ∃ weight : ℕ → ℕ → EReal,
      (k ≤ 1 → weight = A.dist F) ∧
      (1 < k → ∃ core : ℕ → EReal, (∀ p < A.pts.length, Mst.IsCore (A.dist F) A.pts.length (min k (reachable (A.dist F) A.pts.length p)) p (core p)) ∧
        weight = Mst.mutualReach (A.dist F) core) ∧
      (FiniteSteps A.pts.length (A.dist F) →
        Boruvka.mstK (A.geo F shared) k A.scene.input schedB ordP sc fuel iters = .running ∨
        ∃ E, Boruvka.mstK (A.geo F shared) k A.scene.input schedB ordP sc fuel iters = .ok E ∧ Mst.IsMst A.pts.length weight E ∧ ∀ e ∈ E, e.weight < ⊤) ∧
      (¬ FiniteSteps A.pts.length (A.dist F) →
        Boruvka.mstK (A.geo F shared) k A.scene.input schedB ordP sc fuel iters = .running ∨
        Boruvka.mstK (A.geo F shared) k A.scene.input schedB ordP sc fuel iters = .fault) ∧
      ((∀ it, (sc it).Fair A.pts.length) → A.pts.length ≤ 2 ^ iters →
        Boruvka.mstK (A.geo F shared) k A.scene.input schedB ordP sc fuel iters ≠ .running) := by
  have hlen := A.n_eq
  have := Boruvka.mst_k_infinite_partial (A.geo F shared) k A.scene.input hA.scene.input (by omega) (by omega)
    (fun _ _ => rfl) (A.box_le F shared) (fun p q => F.distPoint_comm _ _)
    (fun p _ => by
      show F.distPoint _ _ < ⊤
      rw [F.distPoint_self]; exact EReal.zero_lt_top) hcap schedB hB ordP (by rw [hlen]; exact hoP) sc (by rw [hlen]; exact hsc) fuel (by omega) iters
  rw [hlen] at this
  exact this

/-- **C94 (partial).** The same for `hdbscan` with coordinates of type `float`. -/
theorem hdbscan_float_infinite_partial (boruvka : Bool) (A : Cloud D) (hA : A.Valid) (hn : 2 ≤ A.pts.length) (hbig : A.pts.length ≤ 2 ^ 30) (fma : Bool)
    (shared : Bool) (k : ℕ)
    (hcap : Nearest.StackFits A.scene.input 64) (schedB : List ℕ) (hB : A.scene.input.Finished schedB)
    (ordP : List ℕ) (hoP : ordP.Perm (List.range (2 * A.pts.length - 2)))
    (sc : ℕ → Hdbscan.HSched) (hsc : ∀ it, (sc it).Valid A.pts.length) (ro : Hdbscan.Reorder EReal) (hro : ro.Valid (A.pts.length - 1))
    (fuel : ℕ) (hfuel : 2 * A.pts.length ≤ fuel) (iters : ℕ) :
    ∃ weight : ℕ → ℕ → EReal,
      (k ≤ 1 → weight = A.dist (Ieee.float fma)) ∧
      (1 < k → ∃ core : ℕ → EReal, (∀ p < A.pts.length,
          Mst.IsCore (A.dist (Ieee.float fma)) A.pts.length (min k (reachable (A.dist (Ieee.float fma)) A.pts.length p)) p (core p)) ∧
        weight = Mst.mutualReach (A.dist (Ieee.float fma)) core) ∧
      (FiniteSteps A.pts.length (A.dist (Ieee.float fma)) →
        Hdbscan.hdbscan boruvka (A.geo (Ieee.float fma) shared) Ieee.bits k A.scene.input schedB ordP sc ro fuel iters = .running ∨
        ∃ parents heights, Hdbscan.hdbscan boruvka (A.geo (Ieee.float fma) shared) Ieee.bits k A.scene.input schedB ordP sc ro fuel iters
            = .ok (parents, heights) ∧ Hdbscan.IsDendrogram A.pts.length weight parents heights) ∧
      (¬ FiniteSteps A.pts.length (A.dist (Ieee.float fma)) →
        Hdbscan.hdbscan boruvka (A.geo (Ieee.float fma) shared) Ieee.bits k A.scene.input schedB ordP sc ro fuel iters = .running ∨
        Hdbscan.hdbscan boruvka (A.geo (Ieee.float fma) shared) Ieee.bits k A.scene.input schedB ordP sc ro fuel iters = .fault) ∧
      ((∀ it, (sc it).toSched.Fair A.pts.length) → A.pts.length ≤ 2 ^ iters →
        Hdbscan.hdbscan boruvka (A.geo (Ieee.float fma) shared) Ieee.bits k A.scene.input schedB ordP sc ro fuel iters ≠ .running) := by
  have hlen := A.n_eq
  have := Hdbscan.hdbscan_infinite_partial boruvka (A.geo (Ieee.float fma) shared) Ieee.bits k A.scene.input hA.scene.input (by omega) (by omega)
    (fun _ _ => rfl) (A.box_le _ shared) (fun p q => Format.distPoint_comm _ _ _)
    (fun p _ => by
      show Format.distPoint _ _ _ < ⊤
      rw [Format.distPoint_self]; exact EReal.zero_lt_top)
    (by rw [hlen]; exact A.bits_ok fma) hcap schedB hB ordP (by rw [hlen]; exact hoP) sc (by rw [hlen]; exact hsc)
    ro (by rw [hlen]; exact hro) fuel (by omega) iters
  rw [hlen] at this
  exact this

/-- **C94 (defect).** Coordinates of type `float`, all finite. If the points fall into two parts such that any two points of different parts differ by at least
`2 ^ 64` in some coordinate, neither `MinimumSpanningTree` nor `hdbscan` returns a result, whatever the schedule and `k`: they access memory out of bounds
if every thread gets enough steps. -/
theorem far_apart_fault (boruvka : Bool) (A : Cloud D) (hA : A.Valid) (hbig : A.pts.length ≤ 2 ^ 30) (fma : Bool)
    (S : ℕ → Prop) (hS : ∃ p < A.pts.length, S p) (hS' : ∃ q < A.pts.length, ¬ S q)
    (hfar : ∀ p < A.pts.length, ∀ q < A.pts.length, S p → ¬ S q → ∃ d, 2 ^ (64 : ℤ) ≤ |A.pt q d - A.pt p d|)
    (shared : Bool) (k : ℕ)
    (hcap : Nearest.StackFits A.scene.input 64) (schedB : List ℕ) (hB : A.scene.input.Finished schedB)
    (ordP : List ℕ) (hoP : ordP.Perm (List.range (2 * A.pts.length - 2)))
    (sc : ℕ → Hdbscan.HSched) (hsc : ∀ it, (sc it).Valid A.pts.length) (ro : Hdbscan.Reorder EReal) (hro : ro.Valid (A.pts.length - 1))
    (fuel : ℕ) (hfuel : 2 * A.pts.length ≤ fuel) (iters : ℕ) :
    (∀ E, Boruvka.mstK (A.geo (Ieee.float fma) shared) k A.scene.input schedB ordP (fun it => (sc it).toSched) fuel iters ≠ .ok E) ∧
    (∀ o, Hdbscan.hdbscan boruvka (A.geo (Ieee.float fma) shared) Ieee.bits k A.scene.input schedB ordP sc ro fuel iters ≠ .ok o) ∧
    ((∀ it, (sc it).toSched.Fair A.pts.length) → A.pts.length ≤ 2 ^ iters →
      Boruvka.mstK (A.geo (Ieee.float fma) shared) k A.scene.input schedB ordP (fun it => (sc it).toSched) fuel iters = .fault ∧
      Hdbscan.hdbscan boruvka (A.geo (Ieee.float fma) shared) Ieee.bits k A.scene.input schedB ordP sc ro fuel iters = .fault) := by
  obtain ⟨p, hp, hSp⟩ := hS
  obtain ⟨q, hq, hSq⟩ := hS'
  have hn : 2 ≤ A.pts.length := by
    by_contra h
    obtain rfl : p = q := by omega
    exact hSq hSp
  have hno : ¬ FiniteSteps A.pts.length (A.dist (Ieee.float fma)) := by
    intro h
    have key : ∀ x, Relation.ReflTransGen (fun a b => a < A.pts.length ∧ b < A.pts.length ∧ A.dist (Ieee.float fma) a b < ⊤) p x → S x := by
      intro x hx
      induction hx with
      | refl => exact hSp
      | @tail y z _ hbc ih =>
        by_contra hz
        obtain ⟨d, hd⟩ := hfar _ hbc.1 _ hbc.2.1 ih hz
        have := hbc.2.2
        unfold Cloud.dist at this
        rw [distPoint_overflow fma hd] at this
        exact absurd this (lt_irrefl _)
    exact hSq (key q (h p hp q hq))
  obtain ⟨-, -, -, -, h1, h2⟩ := mst_float_infinite_partial A hA (Ieee.float fma) hn (by omega) shared k hcap schedB hB ordP hoP
    (fun it => (sc it).toSched) (fun it => (hsc it).base) fuel hfuel iters
  obtain ⟨-, -, -, -, h3, h4⟩ := hdbscan_float_infinite_partial boruvka A hA hn hbig fma shared k hcap schedB hB ordP hoP sc hsc ro hro fuel hfuel iters
  refine ⟨fun E e => ?_, fun o e => ?_, fun a b => ⟨(h1 hno).resolve_left (h2 a b), (h3 hno).resolve_left (h4 a b)⟩⟩
  · rcases h1 hno with h | h <;> rw [h] at e <;> cases e
  · rcases h3 hno with h | h <;> rw [h] at e <;> cases e

/-! ## Non-vacuity -/

/-- Three points on a line, at 0, 1 and `2 ^ 65`. -/
noncomputable def farCloud : Cloud 1 where
  pts := [![0], ![1], ![2 ^ (65 : ℤ)]]
  M := 2 ^ (127 : ℤ)
  code := fun i => BitVec.ofNat 64 i
  perm := fun i => i

theorem farCloud_valid : farCloud.Valid where
  fits := by show 3 ≤ 2 ^ 63; norm_num
  sorted := by
    refine ⟨by show ((List.range 3).map (fun i => i)).Perm (List.range 3); rw [List.map_id'], fun i hi => ?_⟩
    have hi' : i + 1 < 3 := hi
    rcases (by omega : i = 0 ∨ i = 1) with rfl | rfl
    · exact (by decide : (BitVec.ofNat 64 0).toNat ≤ (BitVec.ofNat 64 (0 + 1)).toNat)
    · exact (by decide : (BitVec.ofNat 64 1).toNat ≤ (BitVec.ofNat 64 (1 + 1)).toNat)
  top := by
    intro i hi
    have hi' : i < 3 := hi
    rcases (by omega : i = 0 ∨ i = 1 ∨ i = 2) with rfl | rfl | rfl <;> decide

/-- `far_apart_fault` applies to these points. -/
example (boruvka fma shared : Bool) (k : ℕ) : ∃ schedB ordP sc ro fuel iters,
    Hdbscan.hdbscan boruvka (farCloud.geo (Ieee.float fma) shared) Ieee.bits k farCloud.scene.input schedB ordP sc ro fuel iters = .fault := by
  obtain ⟨schedB, hB⟩ := Construction.exists_complete farCloud.scene.input.params (farCloud_valid.scene.input.keys (by show 2 ≤ 3; norm_num))
  obtain ⟨sc, hsc, h2⟩ := Boruvka.exists_sched 3
  obtain ⟨ro, hro⟩ := Hdbscan.exists_reorder (W := EReal) (3 - 1)
  have hcap : Nearest.StackFits farCloud.scene.input 64 := fun T hT =>
    Nearest.stack_suffices_small farCloud.scene.input (by norm_num) (by show 3 ≤ _; norm_num) T hT
  refine ⟨schedB, List.range (2 * 3 - 2), (fun _ => ⟨sc, List.range 3, List.range 3⟩), ro, 6, 2, ((far_apart_fault boruvka farCloud farCloud_valid (by show 3 ≤ 2 ^ 30; norm_num) fma
    (fun p => p < 2) ⟨0, by show 0 < 3; norm_num, by norm_num⟩ ⟨2, by show 2 < 3; norm_num, by norm_num⟩ ?_ shared k hcap schedB (fun _ => hB)
    _ (List.Perm.refl _) (fun _ => ⟨sc, List.range 3, List.range 3⟩) (fun _ => ⟨hsc, List.Perm.refl _, List.Perm.refl _⟩) ro hro 6 (by show 6 ≤ 6; norm_num) 2).2.2 (fun _ => h2) (by show 3 ≤ 4; norm_num)).2⟩
  intro p hp q hq h1 h2
  have hq' : q < 3 := hq
  obtain rfl : q = 2 := by omega
  rcases (by omega : p = 0 ∨ p = 1) with rfl | rfl
  · exact ⟨0, by norm_num [farCloud, Cloud.pt]⟩
  · refine ⟨0, ?_⟩
    have : |farCloud.pt 2 0 - farCloud.pt 1 0| = 2 ^ (65 : ℤ) - 1 := by
      rw [abs_of_nonneg] <;> norm_num [farCloud, Cloud.pt]
    rw [this]
    norm_num

end ArborX.Fp
