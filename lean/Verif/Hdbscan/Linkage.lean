import Verif.Hdbscan.Spec
import Verif.Mst.Spec
import Mathlib.Tactic.Ring

/-!
# A minimum spanning tree has the single-linkage clusters of the graph (lemmas)
-/

namespace ArborX.Hdbscan

open Graph (Conn Connects SpanningTree comps comps_cons comps_cons_lt comps_connects comps_pos)
open Mst (WeightedEdge IsMst)

lemma comps_append (n : ℕ) (F : List (ℕ × ℕ)) : ∀ G : List (ℕ × ℕ), comps n F ≤ comps n (G ++ F) + G.length := by
  intro G
  induction G with
  | nil => simp
  | cons e G ih =>
    have := comps_cons n e (G ++ F)
    rw [List.cons_append, List.length_cons]
    omega

/-- A graph is completed with as few edges as it has components to merge. -/
lemma complete (n : ℕ) : ∀ (S F : List (ℕ × ℕ)), (∀ e ∈ S, e.1 < n ∧ e.2 < n) →
    ∃ R, R ⊆ S ∧ R.length + comps n (R ++ F) ≤ comps n F ∧ ∀ e ∈ S, Conn (R ++ F) e.1 e.2 := by
  intro S
  induction S with
  | nil => intro F _; exact ⟨[], by simp, by simp, by simp⟩
  | cons e S ih =>
    intro F hS
    by_cases hc : Conn F e.1 e.2
    · obtain ⟨R, h1, h2, h3⟩ := ih F (fun f hf => hS f (List.mem_cons_of_mem _ hf))
      refine ⟨R, fun x hx => List.mem_cons_of_mem _ (h1 hx), h2, fun f hf => ?_⟩
      rcases List.mem_cons.mp hf with rfl | hf
      · exact hc.mono (fun x hx => List.mem_append_right _ hx)
      · exact h3 f hf
    · obtain ⟨R, h1, h2, h3⟩ := ih (e :: F) (fun f hf => hS f (List.mem_cons_of_mem _ hf))
      have hlt := comps_cons_lt (hS e List.mem_cons_self).1 (hS e List.mem_cons_self).2 hc
      have e1 : (R ++ [e]) ++ F = R ++ e :: F := by simp
      refine ⟨R ++ [e], ?_, ?_, ?_⟩
      · intro x hx
        rcases List.mem_append.mp hx with hx | hx
        · exact List.mem_cons_of_mem _ (h1 hx)
        · rw [List.mem_singleton.mp hx]; exact List.mem_cons_self
      · rw [e1, List.length_append, List.length_singleton]
        change comps n (e :: F) < comps n F at hlt
        omega
      · rw [e1]
        intro f hf
        rcases List.mem_cons.mp hf with rfl | hf
        · exact Conn.edge (List.mem_append_right _ List.mem_cons_self)
        · exact h3 f hf

variable {W : Type} [LinearOrder W]

/-- The edges up to height `h` of a minimum spanning tree join the same points as all pairs of
points at distance up to `h`. -/
lemma mst_linked {n : ℕ} (hn : 0 < n) {dist : ℕ → ℕ → W} {E : List (WeightedEdge W)} (hM : IsMst n dist E) (h : W) {u v : ℕ} :
    Conn ((E.filter (fun e => e.weight ≤ h)).map (fun e => (e.source, e.target))) u v ↔ Linked n dist h u v := by
  set ends : WeightedEdge W → ℕ × ℕ := fun e => (e.source, e.target) with hends
  set F := (E.filter (fun e => e.weight ≤ h)).map ends with hF
  set G := (E.filter (fun e => !decide (e.weight ≤ h))).map ends with hG
  have hFe : ∀ e ∈ F, e.1 < n ∧ e.2 < n ∧ dist e.1 e.2 ≤ h := by
    intro e he
    obtain ⟨f, hf, rfl⟩ := List.mem_map.mp he
    obtain ⟨hf, hle⟩ := List.mem_filter.mp hf
    have hr := hM.tree.range _ (List.mem_map_of_mem hf)
    refine ⟨hr.1, hr.2, ?_⟩
    have := (hM.weights f hf).2
    simp only [hends]
    rw [← this]
    exact of_decide_eq_true hle
  constructor
  · intro c
    refine Conn.min (R := Linked n dist h) ?_ ?_ c
    · exact ⟨fun a => .refl a, fun hh => .symm _ _ hh, fun h1 h2 => .trans _ _ _ h1 h2⟩
    · intro e he
      exact .rel _ _ (hFe e he)
  · intro c
    have key : ∀ a b, a < n → b < n → dist a b ≤ h → Conn F a b := by
      intro a b ha hb hab
      by_contra hno
      obtain ⟨R, r1, r2, r3⟩ := complete n (E.map ends) ((a, b) :: F) hM.tree.range
      have hlt := comps_cons_lt ha hb hno
      have hT : Connects n (R ++ (a, b) :: F) := by
        intro x hx y hy
        exact Conn.of_conn r3 (hM.tree.connects x hx y hy)
      have hT1 := (comps_connects hn).mp hT
      have hGF : Connects n (G ++ F) := by
        intro x hx y hy
        refine Conn.mono ?_ (hM.tree.connects x hx y hy)
        intro e he
        obtain ⟨f, hf, rfl⟩ := List.mem_map.mp he
        by_cases hle : f.weight ≤ h
        · exact List.mem_append_right _ (List.mem_map_of_mem (List.mem_filter.mpr ⟨hf, decide_eq_true hle⟩))
        · exact List.mem_append_left _ (List.mem_map_of_mem (List.mem_filter.mpr ⟨hf, by simp [hle]⟩))
      have hGF1 := (comps_connects hn).mp hGF
      have hcG := comps_append n F G
      have hmin := hM.minimal (R ++ (a, b) :: F) (by
        intro e he
        rcases List.mem_append.mp he with he | he
        · exact hM.tree.range e (r1 he)
        · rcases List.mem_cons.mp he with rfl | he
          · exact ⟨ha, hb⟩
          · exact ⟨(hFe e he).1, (hFe e he).2.1⟩) hT ℕ (fun x => if x ≤ h then 0 else 1) (by
        intro x y hxy
        dsimp only
        split_ifs with h1 h2 h2
        · exact le_rfl
        · exact Nat.zero_le _
        · exact absurd (hxy.trans h2) h1
        · exact le_rfl) (fun _ => Nat.zero_le _)
      have hsumE : (E.map (fun e => if e.weight ≤ h then 0 else 1)).sum = G.length := by
        rw [hG, List.length_map]
        clear_value G F
        clear hM hFe hmin hGF hGF1 hT hT1 hcG r1 r2 r3 hF hG hlt hno
        induction E with
        | nil => rfl
        | cons e E ih =>
          rw [List.map_cons, List.sum_cons, ih, List.filter_cons]
          by_cases hle : e.weight ≤ h
          · simp [hle]
          · simp [hle]; ring
      have hsumF : (F.map (fun e => if dist e.1 e.2 ≤ h then 0 else 1)).sum = 0 := by
        rw [List.sum_eq_zero]
        intro x hx
        obtain ⟨e, he, rfl⟩ := List.mem_map.mp hx
        rw [if_pos (hFe e he).2.2]
      have hsumR : ∀ R : List (ℕ × ℕ), (R.map (fun e => if dist e.1 e.2 ≤ h then 0 else 1)).sum ≤ R.length := by
        intro R
        induction R with
        | nil => simp
        | cons e R ih =>
          rw [List.map_cons, List.sum_cons, List.length_cons]
          split_ifs <;> omega
      have := hsumR R
      rw [hsumE, List.map_append, List.sum_append, List.map_cons, List.sum_cons, hsumF, if_pos hab] at hmin
      omega
    induction c with
    | rel a b hab => exact key a b hab.1 hab.2.1 hab.2.2
    | refl a => exact Conn.refl _ _
    | symm a b _ ih => exact ih.symm
    | trans a b c _ _ ih1 ih2 => exact ih1.trans ih2

end ArborX.Hdbscan
