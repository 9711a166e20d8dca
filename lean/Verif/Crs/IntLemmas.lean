import Verif.Crs.IntModel
import Verif.Crs.Theorems
import Mathlib.Algebra.BigOperators.Group.Finset.Basic
import Mathlib.Algebra.BigOperators.Group.Finset.Piecewise

/-!
# The code with `int`s does what the code with natural numbers does, as long as they fit
-/

namespace ArborX.Crs.Int32

open Function (update)

variable {T : Type}

/-! ## Arithmetic -/

/-- the `int` of a natural number -/
abbrev i32 (x : ℕ) : BitVec 32 := BitVec.ofNat 32 x

lemma toInt_i32 {x : ℕ} (h : x < 2 ^ 31) : (i32 x).toInt = x := by
  rw [BitVec.toInt_eq_toNat_cond, BitVec.toNat_ofNat, Nat.mod_eq_of_lt (by omega), if_pos (by omega)]

lemma i32_add (x y : ℕ) : i32 x + i32 y = i32 (x + y) := by
  exact (BitVec.ofNat_add x y).symm

lemma i32_sub {x y : ℕ} (h : y ≤ x) : i32 x - i32 y = i32 (x - y) := by
  have : i32 (x - y) + i32 y = i32 x := by rw [i32_add]; congr 1; omega
  rw [← this, BitVec.add_sub_cancel]

lemma scan_i32 (f : ℕ → ℕ) (j : ℕ) : scan (fun i => i32 (f i)) j = i32 (Crs.scan f j) := by
  induction j with
  | zero => rfl
  | succ j ih => simp only [scan, Crs.scan]; rw [ih, i32_add]

lemma copyCounts_i32 (permute : ℕ → ℕ) (counts offset : ℕ → ℕ) (n : ℕ) :
    copyCounts permute (fun i => i32 (counts i)) (fun i => i32 (offset i)) n
      = fun i => i32 (Crs.copyCounts permute counts offset n i) := by
  induction n with
  | zero => rfl
  | succ n ih =>
    simp only [copyCounts, Crs.copyCounts]
    rw [ih]
    funext i
    by_cases h : i = permute n
    · subst h; simp
    · simp [Function.update_of_ne h]

/-! ## Passes -/

/-- insertions for `q` that are still to do -/
def todo (nt : ℕ) (thr : ℕ → List (ℕ × T)) (q : ℕ) : ℕ :=
  ∑ t ∈ Finset.range nt, ((thr t).filter (fun e => decide (e.1 = q))).length

lemma todo_inserted (nt : ℕ) (prog : ℕ → List (ℕ × T)) (q : ℕ) :
    todo nt prog q = (inserted nt prog q).length := by
  unfold todo inserted
  rw [List.length_map]
  induction nt with
  | zero => simp
  | succ nt ih => rw [Finset.sum_range_succ, ih, List.range_succ]; simp

lemma todo_update {nt : ℕ} (thr : ℕ → List (ℕ × T)) {t : ℕ} (ht : t < nt) {e : ℕ × T}
    {rest : List (ℕ × T)} (h : thr t = e :: rest) (q : ℕ) :
    todo nt thr q = todo nt (update thr t rest) q + if e.1 = q then 1 else 0 := by
  unfold todo
  have hm : t ∈ Finset.range nt := Finset.mem_range.mpr ht
  rw [← Finset.add_sum_erase _ _ hm, ← Finset.add_sum_erase _ _ hm]
  have : ∑ x ∈ (Finset.range nt).erase t, ((update thr t rest x).filter (fun e => decide (e.1 = q))).length
      = ∑ x ∈ (Finset.range nt).erase t, ((thr x).filter (fun e => decide (e.1 = q))).length := by
    apply Finset.sum_congr rfl
    intro x hx
    rw [Function.update_of_ne (Finset.ne_of_mem_erase hx)]
  rw [this, h, Function.update_self, List.filter_cons]
  by_cases hq : e.1 = q
  · simp [hq]; omega
  · simp [hq]

/-- the state with `int`s that stands for a state with natural numbers -/
def wide (s : Crs.State T) : State T :=
  { counts := fun q => i32 (s.counts q)
    out := s.out
    thr := fun t => ((s.thr t).1, (s.thr t).2.map (fun p => ((p.1 : ℤ), p.2)))
    fault := s.fault }

/-- Invariant of a pass: what was counted and what is still to be counted. -/
def Total (nt : ℕ) (prog : ℕ → List (ℕ × T)) (c0 : ℕ → ℕ) (s : Crs.State T) : Prop :=
  ∀ q, s.counts q + todo nt (fun t => (s.thr t).1) q = c0 q + (inserted nt prog q).length

lemma total_step {nt : ℕ} {prog : ℕ → List (ℕ × T)} {c0 : ℕ → ℕ} {target : ℕ → ℕ → Option ℕ} {len : ℕ}
    {s : Crs.State T} (h : Total nt prog c0 s) (t : ℕ) : Total nt prog c0 (Crs.step nt target len s t) := by
  unfold Crs.step
  split_ifs with ht
  · exact h
  rw [Nat.not_le] at ht
  rcases hs : s.thr t with ⟨rest, pend⟩
  rcases pend with _ | ⟨slot, v⟩
  · rcases rest with _ | ⟨⟨q, v⟩, rest⟩
    · exact h
    · intro q'
      have h1 := h q'
      rw [todo_update (fun t => (s.thr t).1) ht (e := (q, v)) (rest := rest) (by rw [hs]) q'] at h1
      have h2 : (fun x => (update s.thr t (rest, (target q (s.counts q)).map (fun slot => (slot, v))) x).1)
          = update (fun t => (s.thr t).1) t rest := by
        funext x
        by_cases hx : x = t
        · subst hx; simp
        · simp [Function.update_of_ne hx]
      dsimp only
      rw [h2]
      by_cases hq : q = q'
      · subst hq
        rw [Function.update_self]
        simp only [if_true] at h1
        omega
      · rw [Function.update_of_ne (Ne.symm hq)]
        rw [if_neg hq] at h1
        omega
  · intro q'
    have h2 : (fun x => (update s.thr t (rest, (none : Option (ℕ × T))) x).1) = fun t => (s.thr t).1 := by
      funext x
      by_cases hx : x = t
      · subst hx; simp [hs]
      · simp [Function.update_of_ne hx]
    dsimp only
    rw [h2]
    exact h q'

lemma wide_step {nt : ℕ} {prog : ℕ → List (ℕ × T)} {c0 : ℕ → ℕ} {target : ℕ → ℕ → Option ℕ}
    {target' : ℕ → BitVec 32 → Option ℤ} {len : ℕ} {s : Crs.State T} (h : Total nt prog c0 s)
    (ht : ∀ q k, k < (inserted nt prog q).length → target' q (i32 (c0 q + k)) =
      (target q (c0 q + k)).map (fun x : ℕ => (x : ℤ)))
    (hc : ∀ q, c0 q ≤ s.counts q) (t : ℕ) :
    step nt target' len (wide s) t = wide (Crs.step nt target len s t) := by
  unfold step Crs.step
  split_ifs with htn
  · rfl
  rw [Nat.not_le] at htn
  rcases hs : s.thr t with ⟨rest, pend⟩
  have hw : (wide s).thr t = (rest, pend.map (fun p => ((p.1 : ℤ), p.2))) := by simp [wide, hs]
  rw [hw]
  have hupd : ∀ (a : List (ℕ × T)) (b : Option (ℕ × T)),
      update (wide s).thr t (a, b.map (fun p => ((p.1 : ℤ), p.2)))
        = fun x => ((update s.thr t (a, b) x).1, (update s.thr t (a, b) x).2.map (fun p => ((p.1 : ℤ), p.2))) := by
    intro a b
    funext x
    by_cases hx : x = t
    · subst hx; simp
    · simp [Function.update_of_ne hx, wide]
  rcases pend with _ | ⟨slot, v⟩
  · rcases rest with _ | ⟨⟨q, v⟩, rest⟩
    · rfl
    · have h1 := h q
      rw [todo_update (fun t => (s.thr t).1) htn (e := (q, v)) (rest := rest) (by rw [hs]) q] at h1
      simp only [if_true] at h1
      have h2 := ht q (s.counts q - c0 q) (by have := hc q; omega)
      rw [Nat.add_sub_cancel' (hc q)] at h2
      have h3 : (target' q ((wide s).counts q)).map (fun slot => (slot, v))
          = ((target q (s.counts q)).map (fun slot => (slot, v))).map (fun p => ((p.1 : ℤ), p.2)) := by
        show (target' q (i32 (s.counts q))).map _ = _
        rw [h2]
        cases target q (s.counts q) <;> rfl
      dsimp only [Option.map_none]
      rw [h3, hupd]
      unfold wide
      dsimp only
      congr 1
      funext x
      by_cases hx : x = q
      · subst hx; rw [Function.update_self, Function.update_self]; exact i32_add _ 1
      · simp [Function.update_of_ne hx]
  · dsimp only [Option.map_some]
    have := hupd rest none
    rw [Option.map_none] at this
    rw [this]
    unfold wide
    dsimp only
    congr 1
    · rw [show (decide ((slot : ℤ) < 0 ∨ (len : ℤ) ≤ slot)) = decide (len ≤ slot) by
        apply decide_eq_decide.mpr; omega]

lemma counts_step {nt : ℕ} {target : ℕ → ℕ → Option ℕ} {len : ℕ} (s : Crs.State T) (t q : ℕ) :
    s.counts q ≤ (Crs.step nt target len s t).counts q := by
  unfold Crs.step
  split_ifs
  · exact le_rfl
  split
  · exact le_rfl
  · rename_i q' v rest _
    dsimp only
    by_cases hx : q = q'
    · subst hx; simp
    · rw [Function.update_of_ne hx]
  · exact le_rfl

/-- A pass with `int`s. -/
lemma wide_run {nt : ℕ} {prog : ℕ → List (ℕ × T)} {c0 : ℕ → ℕ} {target : ℕ → ℕ → Option ℕ}
    {target' : ℕ → BitVec 32 → Option ℤ} {len : ℕ}
    (ht : ∀ q k, k < (inserted nt prog q).length → target' q (i32 (c0 q + k)) =
      (target q (c0 q + k)).map (fun x : ℕ => (x : ℤ))) (out0 : ℕ → Option T) (sched : List ℕ) :
    runPass nt prog target' (fun q => i32 (c0 q)) len out0 sched
      = wide (Crs.runPass nt prog target c0 len out0 sched) ∧
    Total nt prog c0 (Crs.runPass nt prog target c0 len out0 sched) := by
  unfold runPass Crs.runPass
  have key : ∀ (s : Crs.State T), Total nt prog c0 s → (∀ q, c0 q ≤ s.counts q) →
      sched.foldl (step nt target' len) (wide s) = wide (sched.foldl (Crs.step nt target len) s) ∧
      Total nt prog c0 (sched.foldl (Crs.step nt target len) s) := by
    induction sched with
    | nil => intro s h _; exact ⟨rfl, h⟩
    | cons t l ih =>
      intro s h hc
      rw [List.foldl_cons, List.foldl_cons, wide_step h ht hc]
      exact ih _ (total_step h t) (fun q => (hc q).trans (counts_step s t q))
  exact key ⟨c0, out0, fun t => (prog t, none), false⟩ (fun q => by
    show c0 q + todo nt prog q = _
    rw [todo_inserted]) (fun q => le_rfl)

lemma finished_wide (nt : ℕ) (s : Crs.State T) : finished nt (wide s) = Crs.finished nt s := by
  unfold finished Crs.finished wide
  congr 1
  funext t
  simp

/-- what a finished pass has counted -/
lemma counts_finished {nt : ℕ} {prog : ℕ → List (ℕ × T)} {c0 : ℕ → ℕ} {s : Crs.State T}
    (h : Total nt prog c0 s) (hf : Crs.finished nt s = true) (q : ℕ) :
    s.counts q = c0 q + (inserted nt prog q).length := by
  rw [← h q]
  have : todo nt (fun t => (s.thr t).1) q = 0 := by
    unfold todo
    apply Finset.sum_eq_zero
    intro t ht
    unfold Crs.finished at hf
    have := List.all_eq_true.mp hf t (List.mem_range.mpr (Finset.mem_range.mp ht))
    simp only [Bool.and_eq_true, List.isEmpty_iff] at this
    show ((s.thr t).1.filter _).length = 0
    rw [this.1]
    rfl
  omega

end ArborX.Crs.Int32
