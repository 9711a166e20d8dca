import Verif.DistDbscan.Model
import Verif.Perm.Theorems

/-!
# Property theorems: dropping the noise ghosts (C49)
-/

namespace ArborX.DistDbscan

variable {Y : Type}

/-- The threads share the iterations `[0, n)`, and no thread is stopped before it has finished. -/
structure Threads (n nt : ℕ) (cut : ℕ → ℕ) (sched : List ℕ) : Prop where
  first : cut 0 = 0
  last : cut nt = n
  mono : Monotone cut
  known : ∀ t ∈ sched, t < nt
  finish : ∀ t < nt, cut (t + 1) - cut t ≤ sched.count t

/-- The threads run one after the other. -/
def InOrder (sched : List ℕ) : Prop := sched.Pairwise (· ≤ ·)

/-! ## Lemmas -/

section
variable {valid : Y → Bool} {arr : ℕ → Y} {cut : ℕ → ℕ}

/-- Thread `t` has done its iterations before `(s.thr t).1`; what the iterations not yet done will read is unchanged, and what
the iterations done have written is there. -/
structure CInv (valid : Y → Bool) (arr : ℕ → Y) (cut : ℕ → ℕ) (s : CState Y) : Prop where
  lo : ∀ t, cut t ≤ (s.thr t).1
  hi : ∀ t, (s.thr t).1 ≤ cut (t + 1)
  update : ∀ t, (s.thr t).2 = Perm.prefixCount (fun i => valid (arr i)) (s.thr t).1
  todo : ∀ t i, (s.thr t).1 ≤ i → i < cut (t + 1) → s.arr i = arr i
  done : ∀ t i, cut t ≤ i → i < (s.thr t).1 → valid (arr i) = true → s.arr (Perm.prefixCount (fun i => valid (arr i)) i) = arr i

lemma prefixCount_le (p : ℕ → Bool) (i : ℕ) : Perm.prefixCount p i ≤ i := by
  induction i with
  | zero => exact le_rfl
  | succ i ih => rw [Perm.prefixCount]; split_ifs <;> omega

lemma prefixCount_ne (p : ℕ → Bool) {i j : ℕ} (hi : p i = true) (hj : p j = true) (h : i ≠ j) :
    Perm.prefixCount p i ≠ Perm.prefixCount p j := by
  rcases Nat.lt_or_gt_of_ne h with h | h
  · exact (Perm.prefixCount_lt p h hi).ne
  · exact (Perm.prefixCount_lt p h hj).ne'

lemma disjoint_cuts (hm : Monotone cut) {t u i : ℕ} (h1 : cut t ≤ i) (h2 : i < cut (t + 1)) (h3 : cut u ≤ i) (h4 : i < cut (u + 1)) : t = u := by
  by_contra h
  rcases Nat.lt_or_gt_of_ne h with h | h
  · have := hm (show t + 1 ≤ u by omega); omega
  · have := hm (show u + 1 ≤ t by omega); omega

/-- A step keeps the invariant if the place it writes to will not be read by a later iteration. -/
lemma cstep_inv (hm : Monotone cut) {s : CState Y} (h : CInv valid arr cut s) {t : ℕ}
    (safe : (s.thr t).1 < cut (t + 1) → valid (arr (s.thr t).1) = true → ∀ u i, (s.thr u).1 ≤ i → i < cut (u + 1) →
      Perm.prefixCount (fun i => valid (arr i)) (s.thr t).1 = i → i = (s.thr t).1) :
    CInv valid arr cut (cstep valid (fun t => cut (t + 1)) s t) := by
  unfold cstep
  simp only
  by_cases hlt : (s.thr t).1 < cut (t + 1)
  swap
  · rw [if_neg hlt]; exact h
  rw [if_pos hlt, h.todo t _ le_rfl hlt]
  have hother : ∀ {u : ℕ} {x : ℕ × ℕ}, u ≠ t → Function.update s.thr t x u = s.thr u := fun hu => Function.update_of_ne hu _ _
  have hu := h.update t
  by_cases hv : valid (arr (s.thr t).1) = true
  · rw [if_pos hv]
    constructor
    · intro u
      by_cases e : u = t
      · subst e; simp only [Function.update_self]; have := h.lo u; omega
      · simp only [hother e]; exact h.lo u
    · intro u
      by_cases e : u = t
      · subst e; simp only [Function.update_self]; omega
      · simp only [hother e]; exact h.hi u
    · intro u
      by_cases e : u = t
      · subst e; simp only [Function.update_self, Perm.prefixCount, hv, if_true, hu]
      · simp only [hother e]; exact h.update u
    · intro u i hi1 hi2
      have hi1' : (s.thr u).1 ≤ i := by
        by_cases e : u = t
        · subst e; simp only [Function.update_self] at hi1; omega
        · simpa only [hother e] using hi1
      by_cases e : i = (s.thr t).2
      · exfalso
        have hs := safe hlt hv u i hi1' hi2 (by rw [← hu, e])
        by_cases e' : u = t
        · subst e'; simp only [Function.update_self] at hi1; omega
        · exact e' (disjoint_cuts hm ((h.lo u).trans hi1') hi2 (by rw [hs]; exact h.lo t) (by rw [hs]; exact hlt))
      · simp only; rw [Function.update_of_ne e]; exact h.todo u i hi1' hi2
    · intro u i hi1 hi2 hvi
      by_cases e : i = (s.thr t).1
      · subst e
        rw [← hu]; simp only [Function.update_self]
      · have hi2' : i < (s.thr u).1 := by
          by_cases e' : u = t
          · subst e'; simp only [Function.update_self] at hi2; omega
          · simpa only [hother e'] using hi2
        simp only
        rw [Function.update_of_ne (by rw [hu]; exact prefixCount_ne _ hvi hv e)]
        exact h.done u i hi1 hi2' hvi
  · rw [if_neg hv]
    constructor
    · intro u
      by_cases e : u = t
      · subst e; simp only [Function.update_self]; have := h.lo u; omega
      · simp only [hother e]; exact h.lo u
    · intro u
      by_cases e : u = t
      · subst e; simp only [Function.update_self]; omega
      · simp only [hother e]; exact h.hi u
    · intro u
      by_cases e : u = t
      · subst e; simp only [Function.update_self, Perm.prefixCount, hv, hu]; simp
      · simp only [hother e]; exact h.update u
    · intro u i hi1 hi2
      refine h.todo u i ?_ hi2
      by_cases e : u = t
      · subst e; simp only [Function.update_self] at hi1; omega
      · simpa only [hother e] using hi1
    · intro u i hi1 hi2 hvi
      have hi2' : i < (s.thr u).1 := by
        by_cases e' : u = t
        · subst e'; simp only [Function.update_self] at hi2
          have : i ≠ (s.thr u).1 := fun e => hv (by rw [← e]; exact hvi)
          omega
        · simpa only [hother e'] using hi2
      exact h.done u i hi1 hi2' hvi

lemma cstep_other {stop : ℕ → ℕ} {s : CState Y} {t u : ℕ} (h : u ≠ t) : (cstep valid stop s t).thr u = s.thr u := by
  unfold cstep
  split_ifs <;> simp [Function.update_of_ne h]

lemma cstep_self {stop : ℕ → ℕ} {s : CState Y} {t : ℕ} : min (stop t) ((s.thr t).1 + 1) ≤ ((cstep valid stop s t).thr t).1 := by
  unfold cstep
  split_ifs <;> simp
  omega

/-- Every thread gets as far as the schedule lets it. -/
lemma run_progress {stop : ℕ → ℕ} (sched : List ℕ) (s : CState Y) (t : ℕ) :
    min (stop t) ((s.thr t).1 + sched.count t) ≤ ((sched.foldl (cstep valid stop) s).thr t).1 := by
  induction sched generalizing s with
  | nil => simp
  | cons a l ih =>
    rw [List.foldl_cons]
    have := ih (cstep valid stop s a)
    by_cases h : t = a
    · subst h
      have h2 := cstep_self (valid := valid) (stop := stop) (s := s) (t := t)
      rw [List.count_cons_self]
      omega
    · rw [cstep_other h] at this
      rw [List.count_cons_of_ne (Ne.symm h)]
      exact this

/-- The thread of an iteration. -/
lemma exists_thread {n nt : ℕ} (h0 : cut 0 = 0) (hn : cut nt = n) {i : ℕ} (hi : i < n) : ∃ t < nt, cut t ≤ i ∧ i < cut (t + 1) := by
  subst hn
  induction nt with
  | zero => omega
  | succ k ih =>
    by_cases h : i < cut k
    · obtain ⟨t, h1, h2⟩ := ih h
      exact ⟨t, by omega, h2⟩
    · exact ⟨k, by omega, by omega, hi⟩

/-- At the end. -/
lemma compress_of_inv {n nt : ℕ} {sched : List ℕ} (hT : Threads n nt cut sched)
    (h : CInv valid arr cut (sched.foldl (cstep valid (fun t => cut (t + 1))) ⟨arr, fun t => (cut t, Perm.prefixCount (fun i => valid (arr i)) (cut t))⟩)) :
    compress valid n nt cut sched arr = some (((List.range n).map arr).filter valid) := by
  unfold compress
  simp only
  set s := sched.foldl (cstep valid (fun t => cut (t + 1))) ⟨arr, fun t => (cut t, Perm.prefixCount (fun i => valid (arr i)) (cut t))⟩ with hs
  have hfin : ∀ t < nt, cut (t + 1) ≤ (s.thr t).1 := by
    intro t ht
    have := run_progress (valid := valid) (stop := fun t => cut (t + 1)) sched
      ⟨arr, fun t => (cut t, Perm.prefixCount (fun i => valid (arr i)) (cut t))⟩ t
    rw [← hs] at this
    have h2 := hT.finish t ht
    simp only at this
    omega
  rw [if_pos (by rw [List.all_eq_true]; intro t ht; simpa using hfin t (List.mem_range.mp ht)), List.filter_map]
  congr 1
  apply List.ext_getElem
  · simp only [List.length_map, List.length_range, Perm.prefixCount_eq]
    rfl
  · intro k h1 h2
    simp only [List.length_map, List.length_range] at h1 h2
    have hm := List.getElem_mem h2
    rw [List.mem_filter, List.mem_range] at hm
    obtain ⟨hi, hv⟩ := hm
    obtain ⟨t, ht, hc1, hc2⟩ := exists_thread hT.first hT.last hi
    have hd := h.done t _ hc1 (lt_of_lt_of_le hc2 (hfin t ht)) hv
    have hk := Perm.filter_getElem_prefix (fun i => valid (arr i)) n _ hi hv
    obtain ⟨hlen, hk⟩ := List.getElem?_eq_some_iff.mp hk
    have hkk := (List.Nodup.getElem_inj_iff (List.nodup_range.filter (fun i => valid (arr i)))).mp hk
    simp only [List.getElem_map, List.getElem_range]
    rw [hkk] at hd
    exact hd

lemma start_inv (hm : Monotone cut) : CInv valid arr cut ⟨arr, fun t => (cut t, Perm.prefixCount (fun i => valid (arr i)) (cut t))⟩ where
  lo _ := le_rfl
  hi _ := hm (by omega)
  update _ := rfl
  todo _ _ _ _ := rfl
  done _ _ h1 h2 := by simp only at h2; omega

end

/-! ## Property theorems -/

/-- **C49, partial.** If the threads run one after the other (in particular if there is one thread only), then exactly the entries that are not noise are
left, in their order. Missing: this is false for other schedules, see `compress_race`. -/
theorem compress_inOrder_partial (valid : Y → Bool) (n nt : ℕ) (cut : ℕ → ℕ) (sched : List ℕ) (arr : ℕ → Y) (hT : Threads n nt cut sched)
    (ho : InOrder sched) : compress valid n nt cut sched arr = some (((List.range n).map arr).filter valid) := by
  apply compress_of_inv hT
  have key : ∀ (l : List ℕ) (s : CState Y), InOrder l → (∀ t ∈ l, t < nt) → (∀ t < nt, cut (t + 1) ≤ (s.thr t).1 + l.count t) →
      CInv valid arr cut s → CInv valid arr cut (l.foldl (cstep valid (fun t => cut (t + 1))) s) := by
    intro l
    induction l with
    | nil => intro s _ _ _ h; exact h
    | cons t l ih =>
      intro s ho hk hf h
      rw [List.foldl_cons]
      obtain ⟨ho1, ho2⟩ := List.pairwise_cons.mp ho
      refine ih _ ho2 (fun u hu => hk u (List.mem_cons_of_mem _ hu)) (fun u hu => ?_) (cstep_inv hT.mono h (fun hlt hv u i h1 h2 h3 => ?_))
      · have := hf u hu
        by_cases e : u = t
        · subst e
          have h2 := cstep_self (valid := valid) (stop := fun t => cut (t + 1)) (s := s) (t := u)
          rw [List.count_cons_self] at this
          omega
        · rw [cstep_other e]
          rwa [List.count_cons_of_ne (Ne.symm e)] at this
      · -- the place is not behind the current iteration, and the earlier threads have finished
        have hle := prefixCount_le (fun i => valid (arr i)) (s.thr t).1
        rw [h3] at hle
        by_contra hne
        by_cases hut : u < t
        · have := hf u (by have := hk t (by simp); omega)
          have hc : (t :: l).count u = 0 := by
            rw [List.count_eq_zero]
            intro hmem
            rcases List.mem_cons.mp hmem with rfl | hmem
            · omega
            · have := ho1 u hmem; omega
          omega
        · by_cases e : u = t
          · subst e; omega
          · have := hT.mono (show t + 1 ≤ u by omega)
            have := h.lo u
            omega
  refine key sched _ ho hT.known (fun t ht => ?_) (start_inv hT.mono)
  have := hT.finish t ht
  simp only
  omega

/-- **C49, partial.** If no ghost is noise then nothing changes, in any schedule. -/
theorem compress_noNoise_partial (valid : Y → Bool) (n nt : ℕ) (cut : ℕ → ℕ) (sched : List ℕ) (arr : ℕ → Y) (hT : Threads n nt cut sched)
    (hv : ∀ i < n, valid (arr i) = true) : compress valid n nt cut sched arr = some ((List.range n).map arr) := by
  have hfil : ((List.range n).map arr).filter valid = (List.range n).map arr := by
    rw [List.filter_eq_self]
    intro y hy
    obtain ⟨i, hi, rfl⟩ := List.mem_map.mp hy
    exact hv i (List.mem_range.mp hi)
  rw [← hfil]
  apply compress_of_inv hT
  have hpc : ∀ i ≤ n, Perm.prefixCount (fun i => valid (arr i)) i = i := by
    intro i hi
    induction i with
    | zero => rfl
    | succ i ih => rw [Perm.prefixCount, ih (by omega), hv i (by omega)]; simp
  have key : ∀ (l : List ℕ) (s : CState Y), (∀ t ∈ l, t < nt) →
      CInv valid arr cut s → CInv valid arr cut (l.foldl (cstep valid (fun t => cut (t + 1))) s) := by
    intro l
    induction l with
    | nil => intro s _ h; exact h
    | cons t l ih =>
      intro s hk h
      rw [List.foldl_cons]
      refine ih _ (fun u hu => hk u (List.mem_cons_of_mem _ hu)) (cstep_inv hT.mono h (fun hlt _ u i _ _ h3 => ?_))
      have h1 := hT.mono (show t + 1 ≤ nt by have := hk t (by simp); omega)
      rw [hT.last] at h1
      rw [← h3, hpc _ (by omega)]
  exact key sched _ hT.known (start_inv hT.mono)

/-- **C49 is false.** Three ghosts, the first of them noise, and two threads, of which the second one runs first: it moves the last label
to the place where the first thread has not yet read the label 7. The label 7 is lost and the label 9 is sent twice. -/
theorem compress_race : ∃ (cut : ℕ → ℕ) (sched : List ℕ) (arr : ℕ → ℤ), Threads 3 2 cut sched ∧
    ((List.range 3).map arr).filter (fun l => decide (l ≠ -1)) = [7, 9] ∧
    compress (fun l => decide (l ≠ -1)) 3 2 cut sched arr = some [9, 9] := by
  refine ⟨fun t => if t = 0 then 0 else if t = 1 then 2 else 3, [1, 0, 0], fun i => [-1, 7, 9].getD i 0, ⟨rfl, rfl, ?_, by decide, ?_⟩, by decide, by decide⟩
  · intro a b hab
    simp only
    split_ifs <;> omega
  · intro t ht
    have : t = 0 ∨ t = 1 := by omega
    rcases this with rfl | rfl <;> decide

/-! ## Cases that meet the hypotheses -/

/-- Two threads for three iterations, one after the other. -/
example : Threads 3 2 (fun t => if t = 0 then 0 else if t = 1 then 2 else 3) [0, 0, 1] ∧ InOrder [0, 0, 1] := by
  refine ⟨⟨rfl, rfl, ?_, by decide, ?_⟩, by unfold InOrder; decide⟩
  · intro a b hab
    simp only
    split_ifs <;> omega
  · intro t ht
    have : t = 0 ∨ t = 1 := by omega
    rcases this with rfl | rfl <;> decide

/-- One thread. -/
example (n : ℕ) : Threads n 1 (fun t => t * n) (List.replicate n 0) ∧ InOrder (List.replicate n 0) := by
  refine ⟨⟨by simp, by simp, fun a b h => Nat.mul_le_mul_right n h, fun t ht => by have := (List.mem_replicate.mp ht).2; omega, ?_⟩, ?_⟩
  · intro t ht
    obtain rfl : t = 0 := by omega
    simp
  · unfold InOrder
    rw [List.pairwise_replicate]
    simp

end ArborX.DistDbscan
