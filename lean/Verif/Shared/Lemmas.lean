import Verif.Shared.Model
import Mathlib.Tactic.Ring
import Mathlib.Tactic.Push

/-! # Threads with disjoint parts of an array do not influence each other -/

namespace ArborX.Shared

variable {T R S : Type}

/-- A program on its own, confined to the entries `lo ≤ a < hi`. -/
def Prog.exec (lo hi : ℕ) : Prog T R → (ℕ → Option T) → Option (R × (ℕ → Option T))
  | .ret r, m => some (r, m)
  | .fault, _ => none
  | .read a k, m =>
    if lo ≤ a ∧ a < hi then
      match m a with
      | none => none
      | some v => (k v).exec lo hi m
    else none
  | .write a v k, m => if lo ≤ a ∧ a < hi then k.exec lo hi (Function.update m a (some v)) else none

/-- Number of steps to the end. -/
def Prog.cost : Prog T R → (ℕ → Option T) → ℕ
  | .ret _, _ => 0
  | .fault, _ => 0
  | .read a k, m =>
    match m a with
    | none => 0
    | some v => (k v).cost m + 1
  | .write a v k, m => k.cost (Function.update m a (some v)) + 1

lemma exec_bind {lo hi : ℕ} {p : Prog T R} {f : R → Prog T S} {m m1 : ℕ → Option T} {r : R} (h : p.exec lo hi m = some (r, m1)) :
    (p.bind f).exec lo hi m = (f r).exec lo hi m1 := by
  induction p generalizing m with
  | ret r' => simp only [Prog.exec, Option.some.injEq, Prod.mk.injEq] at h; obtain ⟨rfl, rfl⟩ := h; rfl
  | fault => simp [Prog.exec] at h
  | read a k ih =>
    simp only [Prog.exec, Prog.bind] at h ⊢
    split at h
    · rename_i ha
      rw [if_pos ha]
      split at h
      · simp at h
      · rename_i v hv
        exact ih v h
    · simp at h
  | write a v k ih =>
    simp only [Prog.exec, Prog.bind] at h ⊢
    split at h
    · rename_i ha
      rw [if_pos ha]
      exact ih h
    · simp at h

/-- The memory outside of the part does not matter. -/
lemma exec_congr {lo hi : ℕ} {p : Prog T R} {m m' : ℕ → Option T} (hm : ∀ a, lo ≤ a → a < hi → m a = m' a) {r : R} {m1 : ℕ → Option T}
    (h : p.exec lo hi m = some (r, m1)) : (∃ m2, p.exec lo hi m' = some (r, m2)) ∧ p.cost m' = p.cost m := by
  induction p generalizing m m' with
  | ret r' => simp only [Prog.exec, Option.some.injEq, Prod.mk.injEq] at h; obtain ⟨rfl, rfl⟩ := h; exact ⟨⟨m', rfl⟩, rfl⟩
  | fault => simp [Prog.exec] at h
  | read a k ih =>
    simp only [Prog.exec, Prog.cost] at h ⊢
    split at h
    · rename_i ha
      rw [if_pos ha, ← hm a ha.1 ha.2]
      split at h
      · simp at h
      · rename_i v hv
        obtain ⟨h1, h2⟩ := ih v hm h
        exact ⟨h1, congrArg (· + 1) h2⟩
    · simp at h
  | write a v k ih =>
    simp only [Prog.exec, Prog.cost] at h ⊢
    split at h
    · rename_i ha
      rw [if_pos ha]
      obtain ⟨h1, h2⟩ := ih (m := Function.update m a (some v)) (m' := Function.update m' a (some v)) (by
        intro b hb1 hb2
        simp only [Function.update_apply]
        split
        · rfl
        · exact hm b hb1 hb2) h
      exact ⟨h1, by rw [h2]⟩
    · simp at h

/-- Thread `t` will end with `res t`. -/
def Will (n : ℕ) (lo hi : ℕ → ℕ) (res : ℕ → R) (c : ℕ → ℕ) (s : State T R) : Prop :=
  ∀ t < n, (∃ m', (s.thr t).exec (lo t) (hi t) s.mem = some (res t, m')) ∧ (s.thr t).cost s.mem = c t

lemma will_step {n size : ℕ} {lo hi : ℕ → ℕ} {res : ℕ → R} {c : ℕ → ℕ} (hs : ∀ t < n, hi t ≤ size)
    (hd : ∀ t < n, ∀ u < n, t ≠ u → hi t ≤ lo u ∨ hi u ≤ lo t) {s : State T R} (h : Will n lo hi res c s) (t : ℕ) :
    Will n lo hi res (fun u => if u = t then c u - 1 else c u) (step n size s t) := by
  unfold step
  by_cases ht : t < n
  · rw [if_pos ht]
    obtain ⟨⟨m', h1⟩, h2⟩ := h t ht
    cases hp : s.thr t with
    | ret r =>
      rw [hp] at h2
      simp only [Prog.cost] at h2
      intro u hu
      simp only
      split
      · rename_i hut; subst hut
        rw [← h2]; have := h u hu; rw [← h2] at this; exact this
      · exact h u hu
    | fault => rw [hp] at h1; simp [Prog.exec] at h1
    | read a k =>
      rw [hp] at h1 h2
      simp only [Prog.exec, Prog.cost] at h1 h2
      split at h1
      · rename_i ha
        have hsize : a < size := lt_of_lt_of_le ha.2 (hs t ht)
        simp only [if_pos hsize]
        split at h1
        · simp at h1
        · rename_i v hv
          rw [hv] at h2
          simp only [hv]
          intro u hu
          by_cases hut : u = t
          · subst hut
            simp only [Function.update_self, if_true]
            exact ⟨⟨m', h1⟩, by simp only at h2; omega⟩
          · simp only [Function.update_of_ne hut, if_neg hut]
            exact h u hu
      · simp at h1
    | write a v k =>
      rw [hp] at h1 h2
      simp only [Prog.exec, Prog.cost] at h1 h2
      split at h1
      · rename_i ha
        have hsize : a < size := lt_of_lt_of_le ha.2 (hs t ht)
        simp only [if_pos hsize]
        intro u hu
        by_cases hut : u = t
        · subst hut
          simp only [Function.update_self, if_true]
          exact ⟨⟨m', h1⟩, by omega⟩
        · simp only [Function.update_of_ne hut, if_neg hut]
          obtain ⟨⟨mu, k1⟩, k2⟩ := h u hu
          have := exec_congr (m' := Function.update s.mem a (some v)) (fun b hb1 hb2 => by
            rw [Function.update_of_ne]
            rintro rfl
            rcases hd t ht u hu (Ne.symm hut) with h | h <;> omega) k1
          exact ⟨this.1, by rw [this.2, k2]⟩
      · simp at h1
  · rw [if_neg ht]
    intro u hu
    simp only
    rw [if_neg (by omega)]
    exact h u hu

lemma will_run {n size : ℕ} {lo hi : ℕ → ℕ} {res : ℕ → R} (hs : ∀ t < n, hi t ≤ size)
    (hd : ∀ t < n, ∀ u < n, t ≠ u → hi t ≤ lo u ∨ hi u ≤ lo t) (sched : List ℕ) : ∀ {s : State T R} {c : ℕ → ℕ}, Will n lo hi res c s →
    Will n lo hi res (fun u => c u - sched.count u) (sched.foldl (step n size) s) := by
  induction sched with
  | nil => intro s c h; simpa using h
  | cons t ts ih =>
    intro s c h
    have := ih (will_step hs hd h t)
    rw [List.foldl_cons]
    refine cast ?_ this
    congr 1
    funext u
    rw [List.count_cons]
    by_cases hut : u = t
    · subst hut; simp; omega
    · simp [hut, Ne.symm hut]

/-- Threads that keep to disjoint parts of the array: under every schedule none of them faults, a thread that has
ended has the result it has on its own, and all threads end. -/
theorem independent {n size : ℕ} {lo hi : ℕ → ℕ} {res : ℕ → R} {prog : ℕ → Prog T R} (hs : ∀ t < n, hi t ≤ size)
    (hd : ∀ t < n, ∀ u < n, t ≠ u → hi t ≤ lo u ∨ hi u ≤ lo t)
    (h : ∀ t < n, ∃ m', (prog t).exec (lo t) (hi t) (fun _ => none) = some (res t, m')) :
    (∀ sched, ∀ t < n, (run n size prog sched).thr t ≠ .fault ∧ ∀ r, (run n size prog sched).thr t = .ret r → r = res t) ∧
    ∃ B, ∀ sched, (∀ t < n, B ≤ sched.count t) → ∀ t < n, (run n size prog sched).thr t = .ret (res t) := by
  have hw : Will n lo hi res (fun t => (prog t).cost (fun _ => none)) ⟨fun _ => none, prog⟩ := fun t ht => ⟨h t ht, rfl⟩
  constructor
  · intro sched t ht
    obtain ⟨⟨m', h1⟩, -⟩ := will_run hs hd sched hw t ht
    constructor
    · intro hf
      unfold run at hf
      rw [hf] at h1
      simp [Prog.exec] at h1
    · intro r hr
      unfold run at hr
      rw [hr] at h1
      simp only [Prog.exec, Option.some.injEq, Prod.mk.injEq] at h1
      exact h1.1
  · obtain ⟨B, hB⟩ : ∃ B, ∀ t < n, (prog t).cost (fun _ => none) ≤ B := by
      clear hw h hd hs
      induction n with
      | zero => exact ⟨0, fun t ht => absurd ht (by omega)⟩
      | succ n ih =>
        obtain ⟨B, hB⟩ := ih
        refine ⟨max B ((prog n).cost fun _ => none), fun t ht => ?_⟩
        rcases Nat.lt_succ_iff_lt_or_eq.mp ht with h | rfl
        · exact le_max_of_le_left (hB t h)
        · exact le_max_right _ _
    refine ⟨B, fun sched hc t ht => ?_⟩
    obtain ⟨⟨m', h1⟩, h2⟩ := will_run hs hd sched hw t ht
    unfold run
    have h2 := h2.trans (Nat.sub_eq_zero_of_le (le_trans (hB t ht) (hc t ht)))
    cases hp : (sched.foldl (step n size) ⟨fun _ => none, prog⟩).thr t with
    | ret r =>
      rw [hp] at h1
      simp only [Prog.exec, Option.some.injEq, Prod.mk.injEq] at h1
      rw [h1.1]
    | fault => rw [hp] at h1; simp [Prog.exec] at h1
    | read a k =>
      rw [hp] at h1 h2
      simp only [Prog.exec, Prog.cost] at h1 h2
      split at h1
      · split at h1
        · simp at h1
        · rename_i v hv
          rw [hv] at h2
          simp at h2
      · simp at h1
    | write a v k => rw [hp] at h2; simp [Prog.cost] at h2

end ArborX.Shared
