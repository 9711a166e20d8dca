import Verif.Fp.DistributedLimits
import Verif.Fp.Examples
import Verif.Euclid.Distributed

/-!
# The hypotheses of the theorems on distributed queries in floating-point arithmetic are satisfiable
-/

namespace ArborX.Fp

open Geometry BVH Euclid

/-- Every family of valid scenes is that of a valid distributed tree. -/
theorem exists_dscene {D : ℕ} (P : ℕ) (hP : P ≤ 2 ^ 63) (sc : ℕ → Scene D) (hsc : ∀ t, (sc t).Valid) : ∃ S : DScene D, S.Valid ∧ S.P = P ∧ S.scene = sc := by
  let S0 : DScene D := ⟨P, sc, fun _ => [], fun _ _ => 0, fun _ i => i, fun _ => []⟩
  have hb : ∀ t, ∃ s, (S0.bottom t).Finished s := by
    intro t
    have := (hsc t).input
    exact Euclid.finished_exists (S0.bottom t) ⟨this.width, this.fits, ⟨this.sorted.perm, this.sorted.sorted⟩, this.top⟩
  choose bs hbs using hb
  let S1 : DScene D := ⟨P, sc, bs, fun _ _ => 0, fun _ i => i, fun _ => []⟩
  have hs : ∀ r, (S1.tree.top r).Sorted := fun r => ⟨by
    show ((List.range P).map (fun i => i)).Perm (List.range P)
    rw [List.map_id'], fun i _ => le_rfl⟩
  have ht : ∀ r, ∃ s, (S1.tree.top r).Finished s := fun r => Euclid.finished_exists _
    ⟨by norm_num, hP, hs r, fun i _ => by show (0 : BitVec 64).toNat < 2 ^ 63; decide⟩
  choose ts hts using ht
  exact ⟨⟨P, sc, bs, fun _ _ => 0, fun _ i => i, ts⟩, ⟨hP, fun t _ => ⟨hsc t, hbs t⟩, fun r _ => ⟨hs r, hts r⟩,
    fun r _ i _ => by show (0 : BitVec 64).toNat < 2 ^ 63; decide⟩, rfl, rfl⟩

lemma example_dist (fma : Bool) (i : ℕ) (hi : i < exampleScene.geo.length) : ∃ x : ℝ,
    (Ieee.float fma).distance (.point ![4, 4]) (exampleScene.at i) = some (x : EReal) := by
  obtain ⟨x, ex, -⟩ := distance_accuracy (float_accurate fma) _ _ (example_range i hi)
  exact ⟨x, by rw [distance_foot _ _ (exampleScene_valid.at i), ex]⟩

lemma sphere_finite (F : Format) (c : Pt ℝ 2) {r : ℝ} (hr : 0 ≤ r) {g : Geom ℝ 2} (hg : Simple g) {x : ℝ} (h : F.distance (.point c) g = some (x : EReal)) :
    ∀ s, F.distance (.sphere ⟨c, r⟩) g = some s → s < ⊤ := by
  intro s hs
  have key : ∀ e : EReal, e = (x : EReal) → 0 ≤ e → F.Rounded e → max (F.sub e r) 0 < ⊤ := by
    rintro _ rfl h0 hx
    unfold Format.sub
    rw [if_neg (EReal.coe_ne_top x), EReal.toReal_coe]
    have := F.mono (show x - r ≤ x by linarith)
    rw [hx.2 x rfl] at this
    exact max_lt (lt_of_le_of_lt this (EReal.coe_lt_top x)) EReal.zero_lt_top
  have hround : ∀ q : Pt ℝ 2, F.Rounded (F.distPoint c q) := by
    intro q
    unfold Format.distPoint Format.norm Format.sqrt
    split_ifs
    · exact F.rounded_top
    · exact F.rounded_rnd (Real.sqrt_nonneg _)
  cases g with
  | point q =>
    have e : F.distPointSphere q ⟨c, r⟩ = s := Option.some_inj.mp hs
    rw [← e]
    unfold Format.distPointSphere
    rw [F.distPoint_comm]
    exact key _ (Option.some_inj.mp h) (F.distPoint_nonneg _ _) (hround q)
  | box B =>
    have e : F.distSphereBox ⟨c, r⟩ B = s := Option.some_inj.mp hs
    rw [← e]
    exact key _ (Option.some_inj.mp h) (F.distPoint_nonneg _ _) (hround _)
  | _ => exact hg.elim

/-- Three processes with three values each: the hypotheses of `distributed_spatial_float` and `distributed_nearest_float_partial` hold for `float`, a
point and a ball. -/
example (fma : Bool) : ∃ (S : DScene 2) (M : ℝ) (up : EReal → ℝ), S.Valid ∧ S.P = 3 ∧ S.size = 9 ∧ (Ieee.float fma).IsNext M up ∧
    (Ieee.float fma).Spaced ∧ (∀ t < S.P, Nearest.StackFits (S.scene t).input 64) ∧ (∀ r < S.P, Nearest.StackFits (S.tree.top r) 64) ∧
    ∀ Q ∈ [.point ![4, 4], .sphere ⟨![4, 4], 1⟩], SimpleQuery Q ∧ Expandable Q ∧
      ∀ a, S.Has a → ∀ r, (Ieee.float fma).distance Q (S.at a) = some r → r < ⊤ := by
  obtain ⟨S, hS, hP, hsc⟩ := exists_dscene 3 (by norm_num) (fun _ => exampleScene) (fun _ => exampleScene_valid)
  obtain ⟨M, up, hup⟩ := Ieee.exists_next (p := 24) (emin := -149) (emax := 128) (by norm_num) fma
  have hat : ∀ a, S.Has a → S.at a = exampleScene.at a.2 ∧ a.2 < exampleScene.geo.length := by
    rintro ⟨t, i⟩ ⟨h1, h2⟩
    unfold DScene.at
    rw [if_pos h1, hsc]
    rw [hsc] at h2
    exact ⟨rfl, h2⟩
  refine ⟨S, M, up, hS, hP, ?_, hup, Ieee.spaced (by norm_num) fma, fun t _ => ?_, fun r _ => ?_, ?_⟩
  · unfold DScene.size
    rw [hP, hsc]
    show ((List.range 3).map (fun _ => 3)).sum = 9
    decide
  · rw [hsc]; exact example_stack
  · exact Nearest.stack_suffices_small _ (by norm_num) (by show S.P ≤ _; omega)
  · intro Q hQ
    simp only [List.mem_cons, List.not_mem_nil, or_false] at hQ
    rcases hQ with rfl | rfl
    · refine ⟨trivial, trivial, fun a ha r hr => ?_⟩
      obtain ⟨e, hlt⟩ := hat a ha
      obtain ⟨x, ex⟩ := example_dist fma a.2 hlt
      rw [e, ex, Option.some_inj] at hr
      rw [← hr]; exact EReal.coe_lt_top x
    · refine ⟨trivial, zero_le_one, fun a ha r hr => ?_⟩
      obtain ⟨e, hlt⟩ := hat a ha
      obtain ⟨x, ex⟩ := example_dist fma a.2 hlt
      rw [e] at hr
      exact sphere_finite _ _ zero_le_one (exampleScene_valid.at a.2) ex r hr

end ArborX.Fp
