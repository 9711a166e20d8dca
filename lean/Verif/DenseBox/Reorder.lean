import Verif.Perm.Theorems
import Mathlib.Algebra.BigOperators.Group.List.Basic
import Mathlib.Algebra.Order.BigOperators.Group.List
import Mathlib.Algebra.Order.Ring.Nat
import Mathlib.Algebra.Order.Group.Nat
import Mathlib.Data.List.Perm.Subperm

/-!
# Dense and sparse cells (C43)

Models `reorderDenseAndSparseCells` (`src/cluster/detail/ArborX_FDBSCANDenseBox.hpp` lines
226-282) as a transition system: one thread per cell, the atomic addition and every copied
entry are steps.
-/

namespace ArborX.DenseBox

open Function (update)

variable {T : Type}

/-- The input: `m` cells, cell `c` holds the entries `offs c .. offs (c+1) - 1` of the view
`inp` (an entry is the pair of the cell index and the permutation index); a cell with at least
`minSize` entries is dense. -/
structure Cells (T : Type) where
  m : ℕ
  offs : ℕ → ℕ
  inp : ℕ → T
  minSize : ℕ

namespace Cells

/-- `num_points_in_cell` (line 266). -/
def size (I : Cells T) (c : ℕ) : ℕ := I.offs (c + 1) - I.offs c

/-- `is_dense_cell` (line 267). -/
def dense (I : Cells T) (c : ℕ) : Bool := decide (I.size c ≥ I.minSize)

/-- `num_points_in_dense_cells`, the parallel reduction of lines 239-248. -/
def numDense (I : Cells T) : ℕ := (((List.range I.m).filter I.dense).map I.size).sum

/-- All entries. -/
def total (I : Cells T) : ℕ := ((List.range I.m).map I.size).sum

end Cells

/-- A thread: before the atomic addition, copying entry `j` to `off`, finished. -/
inductive RThr where
  | start
  | copy (j off : ℕ)
  | done
  deriving DecidableEq

/-- Shared state: the two counters, the reordered view, the threads. -/
structure RState (T : Type) where
  denseOff : ℕ
  sparseOff : ℕ
  out : ℕ → Option T
  thr : ℕ → RThr
  fault : Bool

/-- One step of the thread of cell `c` (lines 265-276). -/
def rstep (I : Cells T) (n : ℕ) (s : RState T) (c : ℕ) : RState T :=
  if I.m ≤ c then s else
  match s.thr c with
  | .start =>
    if I.dense c then
      { s with denseOff := s.denseOff + I.size c
               thr := update s.thr c (.copy (I.offs c) s.denseOff) }
    else
      { s with sparseOff := s.sparseOff + I.size c
               thr := update s.thr c (.copy (I.offs c) s.sparseOff) }
  | .copy j off =>
    if j < I.offs (c + 1) then
      { s with out := update s.out off (some (I.inp j))
               fault := s.fault || decide (n ≤ off)
               thr := update s.thr c (.copy (j + 1) (off + 1)) }
    else { s with thr := update s.thr c .done }
  | .done => s

/-- `reorderDenseAndSparseCells` under a schedule; the counters start at 0 and at
`num_points_in_dense_cells` (lines 253-256). -/
def reorder (I : Cells T) (n : ℕ) (sched : List ℕ) : RState T :=
  sched.foldl (rstep I n) ⟨0, I.numDense, fun _ => none, fun _ => .start, false⟩

/-! ## Blocks -/

/-- Start of the block of `c` when blocks are laid out in the order `l`. -/
def pre (size : ℕ → ℕ) : List ℕ → ℕ → ℕ
  | [], _ => 0
  | a :: l, c => if a = c then 0 else size a + pre size l c

lemma pre_append (size : ℕ → ℕ) (l : List ℕ) (d c : ℕ) (h : c ∈ l) :
    pre size (l ++ [d]) c = pre size l c := by
  induction l with
  | nil => simp at h
  | cons a l ih =>
    simp only [List.cons_append, pre]
    split_ifs with e
    · rfl
    · rw [ih (by rcases List.mem_cons.mp h with h | h; exact absurd h.symm e; exact h)]

lemma pre_last (size : ℕ → ℕ) (l : List ℕ) (d : ℕ) (h : d ∉ l) :
    pre size (l ++ [d]) d = (l.map size).sum := by
  induction l with
  | nil => simp [pre]
  | cons a l ih =>
    have e : a ≠ d := fun e => h (e ▸ List.mem_cons_self)
    simp only [List.cons_append, pre, if_neg e, List.map_cons, List.sum_cons]
    rw [ih (fun hm => h (List.mem_cons_of_mem _ hm))]

lemma pre_le (size : ℕ → ℕ) (l : List ℕ) (c : ℕ) (h : c ∈ l) :
    pre size l c + size c ≤ (l.map size).sum := by
  induction l with
  | nil => simp at h
  | cons a l ih =>
    simp only [pre, List.map_cons, List.sum_cons]
    split_ifs with e
    · subst e; omega
    · have := ih (by rcases List.mem_cons.mp h with h | h; exact absurd h.symm e; exact h)
      omega

lemma pre_disjoint (size : ℕ → ℕ) (l : List ℕ) (c d : ℕ) (hc : c ∈ l) (hd : d ∈ l) (hne : c ≠ d) :
    pre size l c + size c ≤ pre size l d ∨ pre size l d + size d ≤ pre size l c := by
  induction l with
  | nil => simp at hc
  | cons a l ih =>
    simp only [pre]
    by_cases e1 : a = c
    · have e2 : a ≠ d := fun e => hne (e1.symm.trans e)
      rw [if_pos e1, if_neg e2, e1]
      left; omega
    · by_cases e2 : a = d
      · rw [if_neg e1, if_pos e2, e2]
        right; omega
      · rw [if_neg e1, if_neg e2]
        have hc' : c ∈ l := by rcases List.mem_cons.mp hc with h | h; exact absurd h.symm e1; exact h
        have hd' : d ∈ l := by rcases List.mem_cons.mp hd with h | h; exact absurd h.symm e2; exact h
        rcases ih hc' hd' with h | h <;> omega

/-- An array filled block by block. -/
lemma blocks_list {β : Type} (size start : ℕ → ℕ) (f : ℕ → β) (g : ℕ → β) (l : List ℕ) (hnd : l.Nodup)
    (b : ℕ) (h : ∀ c ∈ l, ∀ k < size c, f (b + pre size l c + k) = g (start c + k)) :
    (List.range (l.map size).sum).map (fun i => f (b + i))
      = l.flatMap (fun c => (List.range (size c)).map (fun k => g (start c + k))) := by
  induction l generalizing b with
  | nil => simp
  | cons a l ih =>
    rw [List.nodup_cons] at hnd
    rw [List.map_cons, List.sum_cons, List.range_add, List.map_append, List.flatMap_cons]
    congr 1
    · apply List.map_congr_left
      intro k hk
      have := h a List.mem_cons_self k (List.mem_range.mp hk)
      simpa [pre] using this
    · rw [← ih hnd.2 (b + size a)]
      · rw [List.map_map]
        apply List.map_congr_left
        intro i _
        simp only [Function.comp]
        congr 1
        omega
      · intro c hc k hk
        have e : a ≠ c := fun e => hnd.1 (e ▸ hc)
        have := h c (List.mem_cons_of_mem _ hc) k hk
        simp only [pre, if_neg e] at this
        rw [← this]
        congr 1
        omega

/-! ## Invariant -/

/-- Where the block of cell `c` starts, given the orders of the atomic additions. -/
def base (I : Cells T) (od os : List ℕ) (c : ℕ) : ℕ :=
  if I.dense c then pre I.size od c else I.numDense + pre I.size os c

/-- The entries of cell `c` copied so far are in place. -/
def Placed (I : Cells T) (out : ℕ → Option T) (b c cnt : ℕ) : Prop :=
  ∀ k < cnt, out (b + k) = some (I.inp (I.offs c + k))

/-- State of a thread. -/
def RThrInv (I : Cells T) (s : RState T) (od os : List ℕ) (c : ℕ) : RThr → Prop
  | .start => c ∉ od ∧ c ∉ os
  | .copy j off => c ∈ (if I.dense c then od else os) ∧ I.offs c ≤ j ∧ j - I.offs c ≤ I.size c ∧
      off = base I od os c + (j - I.offs c) ∧ Placed I s.out (base I od os c) c (j - I.offs c)
  | .done => c ∈ (if I.dense c then od else os) ∧ Placed I s.out (base I od os c) c (I.size c)

structure RInv (I : Cells T) (s : RState T) (od os : List ℕ) : Prop where
  ndd : od.Nodup
  nds : os.Nodup
  dd : ∀ c ∈ od, c < I.m ∧ I.dense c = true
  ss : ∀ c ∈ os, c < I.m ∧ I.dense c = false
  dsum : s.denseOff = (od.map I.size).sum
  ssum : s.sparseOff = I.numDense + (os.map I.size).sum
  thr : ∀ c < I.m, RThrInv I s od os c (s.thr c)
  fault : s.fault = false

lemma sum_le_of_nodup (size : ℕ → ℕ) (l l' : List ℕ) (hnd : l.Nodup) (h : ∀ c ∈ l, c ∈ l') :
    (l.map size).sum ≤ (l'.map size).sum := by
  have hs : l.Subperm l' := List.subperm_of_subset hnd h
  obtain ⟨l'', hp, hsub⟩ := hs
  rw [← (hp.map size).sum_eq]
  exact List.Sublist.sum_le_sum (hsub.map size) (fun _ _ => Nat.zero_le _)

lemma total_split (I : Cells T) :
    I.total = I.numDense + (((List.range I.m).filter (fun c => !I.dense c)).map I.size).sum := by
  unfold Cells.total Cells.numDense
  generalize List.range I.m = l
  induction l with
  | nil => rfl
  | cons a l ih =>
    simp only [List.map_cons, List.sum_cons, List.filter_cons]
    cases h : I.dense a
    · simp only [Bool.false_eq_true, if_false, Bool.not_false, if_true, List.map_cons, List.sum_cons]
      omega
    · simp only [if_true, Bool.not_true, Bool.false_eq_true, if_false, List.map_cons, List.sum_cons]
      omega

lemma RInv.dense_le {I : Cells T} {s : RState T} {od os : List ℕ} (h : RInv I s od os) :
    (od.map I.size).sum ≤ I.numDense := by
  refine sum_le_of_nodup _ _ _ h.ndd ?_
  intro c hc
  have := h.dd c hc
  rw [List.mem_filter, List.mem_range]; exact this

lemma RInv.sparse_le {I : Cells T} {s : RState T} {od os : List ℕ} (h : RInv I s od os) :
    I.numDense + (os.map I.size).sum ≤ I.total := by
  rw [total_split]
  have := sum_le_of_nodup I.size os ((List.range I.m).filter (fun c => !I.dense c)) h.nds (by
    intro c hc
    have := h.ss c hc
    rw [List.mem_filter, List.mem_range]; exact ⟨this.1, by simp [this.2]⟩)
  omega

/-- Blocks of two cells that have reserved are disjoint and inside the array. -/
lemma RInv.blocks {I : Cells T} {s : RState T} {od os : List ℕ} (h : RInv I s od os) {c : ℕ}
    (hc : c ∈ (if I.dense c then od else os)) :
    base I od os c + I.size c ≤ I.total ∧
    ∀ d, d ≠ c → d ∈ (if I.dense d then od else os) →
      base I od os c + I.size c ≤ base I od os d ∨ base I od os d + I.size d ≤ base I od os c := by
  have hd := h.dense_le
  have hs := h.sparse_le
  unfold base
  cases e : I.dense c
  · rw [e] at hc
    simp only [Bool.false_eq_true, if_false] at hc ⊢
    have := pre_le I.size os c hc
    refine ⟨by omega, ?_⟩
    intro d hne hd'
    cases e' : I.dense d
    · rw [e'] at hd'
      simp only [Bool.false_eq_true, if_false] at hd' ⊢
      rcases pre_disjoint I.size os c d hc hd' hne.symm with h | h <;> omega
    · rw [e'] at hd'
      simp only [if_true] at hd' ⊢
      have := pre_le I.size od d hd'
      right; omega
  · rw [e] at hc
    simp only [if_true] at hc ⊢
    have := pre_le I.size od c hc
    refine ⟨by omega, ?_⟩
    intro d hne hd'
    cases e' : I.dense d
    · simp only [Bool.false_eq_true, if_false]
      left; omega
    · rw [e'] at hd'
      simp only [if_true] at hd' ⊢
      exact pre_disjoint I.size od c d hc hd' hne.symm

lemma rinv_step {I : Cells T} {s : RState T} {od os : List ℕ} (h : RInv I s od os) (c : ℕ) :
    ∃ od' os', RInv I (rstep I I.total s c) od' os' := by
  unfold rstep
  by_cases hc : I.m ≤ c
  · rw [if_pos hc]; exact ⟨od, os, h⟩
  rw [if_neg hc]
  have hcm : c < I.m := by omega
  have hT := h.thr c hcm
  cases e : s.thr c with
  | done => exact ⟨od, os, h⟩
  | start =>
    rw [e] at hT
    obtain ⟨h1, h2⟩ := hT
    dsimp only
    cases hd : I.dense c
    · simp only [Bool.false_eq_true, if_false]
      refine ⟨od, os ++ [c], ⟨h.ndd, ?_, h.dd, ?_, h.dsum, ?_, ?_, h.fault⟩⟩
      · rw [List.nodup_append]
        exact ⟨h.nds, List.nodup_singleton _, fun a ha b hb => by
          rw [List.mem_singleton] at hb; subst hb; intro e; exact h2 (e ▸ ha)⟩
      · intro d hd'
        rcases List.mem_append.mp hd' with hd' | hd'
        · exact h.ss d hd'
        · rw [List.mem_singleton] at hd'; subst hd'; exact ⟨hcm, hd⟩
      · simp [h.ssum]; omega
      · intro d hdm
        have hbase : ∀ d, d ∈ (if I.dense d then od else os) →
            base I od (os ++ [c]) d = base I od os d ∧ d ∈ (if I.dense d then od else os ++ [c]) := by
          intro d hd'
          unfold base
          cases e' : I.dense d
          · rw [e'] at hd'
            simp only [Bool.false_eq_true, if_false] at hd' ⊢
            exact ⟨by rw [pre_append _ _ _ _ hd'], List.mem_append_left _ hd'⟩
          · rw [e'] at hd'
            simp only [if_true] at hd' ⊢
            exact ⟨trivial, hd'⟩
        dsimp only
        by_cases ed : d = c
        · subst ed
          rw [Function.update_self]
          refine ⟨by rw [hd]; simp, le_rfl, by omega, ?_, ?_⟩
          · unfold base
            rw [hd]
            simp only [Bool.false_eq_true, if_false, Nat.sub_self, Nat.add_zero]
            rw [pre_last _ _ _ h2, h.ssum]
          · intro k hk; omega
        · rw [Function.update_of_ne ed]
          have := h.thr d hdm
          cases e' : s.thr d with
          | start =>
            rw [e'] at this
            refine ⟨this.1, ?_⟩
            simp only [List.mem_append, List.mem_singleton, not_or]
            exact ⟨this.2, ed⟩
          | copy j off =>
            rw [e'] at this
            obtain ⟨a, b, c', d', f⟩ := this
            have hb := hbase d a
            refine ⟨hb.2, b, c', ?_, ?_⟩
            · rw [hb.1]; exact d'
            · rw [hb.1]; exact f
          | done =>
            rw [e'] at this
            obtain ⟨a, f⟩ := this
            have hb := hbase d a
            exact ⟨hb.2, by rw [hb.1]; exact f⟩
    · simp only [if_true]
      refine ⟨od ++ [c], os, ⟨?_, h.nds, ?_, h.ss, ?_, h.ssum, ?_, h.fault⟩⟩
      · rw [List.nodup_append]
        exact ⟨h.ndd, List.nodup_singleton _, fun a ha b hb => by
          rw [List.mem_singleton] at hb; subst hb; intro e; exact h1 (e ▸ ha)⟩
      · intro d hd'
        rcases List.mem_append.mp hd' with hd' | hd'
        · exact h.dd d hd'
        · rw [List.mem_singleton] at hd'; subst hd'; exact ⟨hcm, hd⟩
      · simp [h.dsum]
      · intro d hdm
        have hbase : ∀ d, d ∈ (if I.dense d then od else os) →
            base I (od ++ [c]) os d = base I od os d ∧ d ∈ (if I.dense d then od ++ [c] else os) := by
          intro d hd'
          unfold base
          cases e' : I.dense d
          · rw [e'] at hd'
            simp only [Bool.false_eq_true, if_false] at hd' ⊢
            exact ⟨trivial, hd'⟩
          · rw [e'] at hd'
            simp only [if_true] at hd' ⊢
            exact ⟨by rw [pre_append _ _ _ _ hd'], List.mem_append_left _ hd'⟩
        dsimp only
        by_cases ed : d = c
        · subst ed
          rw [Function.update_self]
          refine ⟨by rw [hd]; simp, le_rfl, by omega, ?_, ?_⟩
          · unfold base
            rw [hd]
            simp only [if_true, Nat.sub_self, Nat.add_zero]
            rw [pre_last _ _ _ h1, h.dsum]
          · intro k hk; omega
        · rw [Function.update_of_ne ed]
          have := h.thr d hdm
          cases e' : s.thr d with
          | start =>
            rw [e'] at this
            refine ⟨?_, this.2⟩
            simp only [List.mem_append, List.mem_singleton, not_or]
            exact ⟨this.1, ed⟩
          | copy j off =>
            rw [e'] at this
            obtain ⟨a, b, c', d', f⟩ := this
            have hb := hbase d a
            refine ⟨hb.2, b, c', ?_, ?_⟩
            · rw [hb.1]; exact d'
            · rw [hb.1]; exact f
          | done =>
            rw [e'] at this
            obtain ⟨a, f⟩ := this
            have hb := hbase d a
            exact ⟨hb.2, by rw [hb.1]; exact f⟩
  | copy j off =>
    rw [e] at hT
    obtain ⟨h1, h2, h3, h4, h5⟩ := hT
    dsimp only
    have hblk := h.blocks h1
    by_cases hj : j < I.offs (c + 1)
    · rw [if_pos hj]
      have hsz : j - I.offs c < I.size c := by unfold Cells.size; omega
      refine ⟨od, os, ⟨h.ndd, h.nds, h.dd, h.ss, h.dsum, h.ssum, ?_, ?_⟩⟩
      · intro d hdm
        dsimp only
        by_cases ed : d = c
        · subst ed
          rw [Function.update_self]
          refine ⟨h1, by omega, by omega, by omega, ?_⟩
          intro k hk
          dsimp only
          by_cases ek : base I od os d + k = off
          · rw [ek, Function.update_self]
            congr 2; omega
          · rw [Function.update_of_ne ek]
            exact h5 k (by omega)
        · rw [Function.update_of_ne ed]
          have hplace : ∀ cnt, cnt ≤ I.size d → d ∈ (if I.dense d then od else os) →
              Placed I s.out (base I od os d) d cnt →
              Placed I (update s.out off (some (I.inp j))) (base I od os d) d cnt := by
            intro cnt hcnt hd' hp k hk
            rw [Function.update_of_ne]
            · exact hp k hk
            · rcases hblk.2 d ed hd' with h' | h' <;> omega
          have := h.thr d hdm
          cases e' : s.thr d with
          | start => rw [e'] at this; exact this
          | copy j' off' =>
            rw [e'] at this
            obtain ⟨a, b, c', d', f⟩ := this
            exact ⟨a, b, c', d', hplace _ c' a f⟩
          | done =>
            rw [e'] at this
            obtain ⟨a, f⟩ := this
            exact ⟨a, hplace _ le_rfl a f⟩
      · have : ¬ I.total ≤ off := by omega
        simp [h.fault, this]
    · rw [if_neg hj]
      refine ⟨od, os, ⟨h.ndd, h.nds, h.dd, h.ss, h.dsum, h.ssum, ?_, h.fault⟩⟩
      intro d hdm
      dsimp only
      by_cases ed : d = c
      · subst ed
        rw [Function.update_self]
        refine ⟨h1, ?_⟩
        have : j - I.offs d = I.size d := by unfold Cells.size at *; omega
        rw [this] at h5
        exact h5
      · rw [Function.update_of_ne ed]
        have := h.thr d hdm
        cases e' : s.thr d with
        | start => rw [e'] at this; exact this
        | copy j' off' => rw [e'] at this; exact this
        | done => rw [e'] at this; exact this

lemma rinv_run (I : Cells T) (sched : List ℕ) : ∃ od os, RInv I (reorder I I.total sched) od os := by
  unfold reorder
  have h0 : ∃ od os, RInv I ⟨0, I.numDense, fun _ => none, fun _ => .start, false⟩ od os :=
    ⟨[], [], by simp, by simp, by simp, by simp, rfl, rfl, fun c _ => ⟨by simp, by simp⟩, rfl⟩
  generalize (⟨0, I.numDense, fun _ => none, fun _ => .start, false⟩ : RState T) = s at h0
  induction sched generalizing s with
  | nil => exact h0
  | cons t ts ih =>
    obtain ⟨od, os, h⟩ := h0
    exact ih _ (rinv_step h t)

/-! ## Property theorems -/

/-- The entries of cell `c`. -/
def row (I : Cells T) (c : ℕ) : List T := (List.range (I.size c)).map (fun k => I.inp (I.offs c + k))

/-- **C43.** Whatever the interleaving of the threads, when all have finished the reordered
view lists all dense cells one after the other, in some order, then all sparse cells, every
cell with its entries together and in their order; no access was out of bounds. -/
theorem reorder_correct (I : Cells T) (sched : List ℕ)
    (hdone : ∀ c < I.m, (reorder I I.total sched).thr c = .done) :
    (reorder I I.total sched).fault = false ∧
    ∃ od os : List ℕ, od.Perm ((List.range I.m).filter I.dense) ∧
      os.Perm ((List.range I.m).filter (fun c => !I.dense c)) ∧
      (List.range I.total).map (reorder I I.total sched).out
        = ((od ++ os).flatMap (row I)).map some ∧
      (od.flatMap (row I)).length = I.numDense := by
  obtain ⟨od, os, h⟩ := rinv_run I sched
  generalize reorder I I.total sched = s at *
  have hmem : ∀ c < I.m, c ∈ (if I.dense c then od else os) ∧
      Placed I s.out (base I od os c) c (I.size c) := by
    intro c hc
    have := h.thr c hc
    rw [hdone c hc] at this
    exact this
  have hod : od.Perm ((List.range I.m).filter I.dense) := by
    rw [List.perm_ext_iff_of_nodup h.ndd (List.nodup_range.filter _)]
    intro c
    rw [List.mem_filter, List.mem_range]
    constructor
    · exact h.dd c
    · rintro ⟨h1, h2⟩
      have := (hmem c h1).1
      rwa [if_pos h2] at this
  have hos : os.Perm ((List.range I.m).filter (fun c => !I.dense c)) := by
    rw [List.perm_ext_iff_of_nodup h.nds (List.nodup_range.filter _)]
    intro c
    rw [List.mem_filter, List.mem_range]
    constructor
    · intro hc
      have := h.ss c hc
      exact ⟨this.1, by simp [this.2]⟩
    · rintro ⟨h1, h2⟩
      have := (hmem c h1).1
      have h2' : I.dense c = false := by simpa using h2
      rw [h2'] at this
      simpa using this
  have hD : (od.map I.size).sum = I.numDense := (hod.map I.size).sum_eq
  have hS : I.total = I.numDense + (os.map I.size).sum := by
    rw [total_split, (hos.map I.size).sum_eq]
  refine ⟨h.fault, od, os, hod, hos, ?_, ?_⟩
  · have b1 := blocks_list I.size I.offs s.out (fun i => some (I.inp i)) od h.ndd 0 (by
      intro c hc k hk
      have hcd := h.dd c hc
      have := (hmem c hcd.1).2 k hk
      unfold base at this
      rw [if_pos hcd.2] at this
      rw [Nat.zero_add]; exact this)
    have b2 := blocks_list I.size I.offs s.out (fun i => some (I.inp i)) os h.nds I.numDense (by
      intro c hc k hk
      have hcd := h.ss c hc
      have := (hmem c hcd.1).2 k hk
      unfold base at this
      rw [hcd.2] at this
      simpa using this)
    rw [hS, List.range_add, List.map_append, List.flatMap_append, List.map_append]
    congr 1
    · rw [hD] at b1
      simp only [Nat.zero_add] at b1
      rw [b1, List.map_flatMap]
      congr 1
      funext c
      simp [row]
    · rw [List.map_map]
      have : (s.out ∘ fun x => I.numDense + x) = fun i => s.out (I.numDense + i) := rfl
      rw [this, b2, List.map_flatMap]
      congr 1
      funext c
      simp [row]
  · rw [List.length_flatMap, ← hD]
    congr 1
    apply List.map_congr_left
    intro c _
    simp [row]

/-- Cells that tile the view. -/
structure Cells.Tiles (I : Cells T) (n : ℕ) : Prop where
  zero : I.offs 0 = 0
  last : I.offs I.m = n
  mono : ∀ c < I.m, I.offs c ≤ I.offs (c + 1)

lemma Cells.Tiles.total {I : Cells T} {n : ℕ} (h : I.Tiles n) : I.total = n ∧
    (List.range I.m).flatMap (row I) = (List.range n).map I.inp := by
  have key : ∀ m ≤ I.m, ((List.range m).map I.size).sum = I.offs m ∧
      (List.range m).flatMap (row I) = (List.range (I.offs m)).map I.inp := by
    intro m
    induction m with
    | zero => intro _; simp [h.zero]
    | succ m ih =>
      intro hm
      obtain ⟨h1, h2⟩ := ih (by omega)
      have hmono := h.mono m (by omega)
      have e : I.offs (m + 1) = I.offs m + I.size m := by unfold Cells.size; omega
      constructor
      · rw [List.range_succ, List.map_append, List.sum_append, h1]
        simp only [List.map_cons, List.map_nil, List.sum_singleton]
        omega
      · rw [List.range_succ, List.flatMap_append, h2, e, List.range_add, List.map_append]
        simp [row]
  have := key I.m le_rfl
  rw [h.last] at this
  exact this

/-- **C43.** The reordered view is a permutation of the original one: nothing is lost. -/
theorem reorder_perm (I : Cells T) (n : ℕ) (h : I.Tiles n) (sched : List ℕ)
    (hdone : ∀ c < I.m, (reorder I n sched).thr c = .done) :
    ((List.range n).map (reorder I n sched).out).Perm ((List.range n).map (fun i => some (I.inp i))) := by
  obtain ⟨ht, hrows⟩ := h.total
  subst ht
  obtain ⟨-, od, os, h1, h2, h3, -⟩ := reorder_correct I sched hdone
  rw [h3]
  have hp : (od ++ os).Perm (List.range I.m) :=
    (h1.append h2).trans (List.filter_append_perm I.dense (List.range I.m))
  have := (hp.flatMap_right (row I)).map some
  rw [hrows, List.map_map] at this
  exact this

/-- **C43.** Every thread finishes after `size + 2` of its own steps. -/
theorem reorder_wait_free (I : Cells T) (n : ℕ) (sched : List ℕ) (c : ℕ) (hc : c < I.m)
    (hcount : I.size c + 2 ≤ sched.count c) : (reorder I n sched).thr c = .done := by
  -- steps left to a thread
  let rank : RThr → ℕ := fun x => match x with
    | .start => I.size c + 2
    | .copy j _ => I.offs (c + 1) - j + 1
    | .done => 0
  have hstep : ∀ (s : RState T) (t : ℕ), rank ((rstep I n s t).thr c) + (if t = c then 1 else 0) ≤ rank (s.thr c) ∨
      (s.thr c = .done ∧ (rstep I n s t).thr c = .done) := by
    intro s t
    by_cases htm : I.m ≤ t
    · left
      have : rstep I n s t = s := by unfold rstep; rw [if_pos htm]
      rw [this, if_neg (by omega)]
      omega
    by_cases e : t = c
    · subst e
      unfold rstep
      rw [if_neg htm]
      cases hs : s.thr t with
      | start =>
        left
        cases I.dense t
        · simp [rank, Cells.size]
        · simp [rank, Cells.size]
      | copy j off =>
        left
        dsimp only
        by_cases hj : j < I.offs (t + 1)
        · rw [if_pos hj]
          simp [rank]
          omega
        · rw [if_neg hj]
          simp [rank]
      | done => right; exact ⟨rfl, by simpa using hs⟩
    · left
      have : (rstep I n s t).thr c = s.thr c := by
        unfold rstep
        rw [if_neg htm]
        cases hs : s.thr t with
        | start =>
          cases hd : I.dense t
          · simp [Function.update_of_ne (Ne.symm e)]
          · simp [Function.update_of_ne (Ne.symm e)]
        | copy j off =>
          dsimp only
          split_ifs
          · simp [Function.update_of_ne (Ne.symm e)]
          · simp [Function.update_of_ne (Ne.symm e)]
        | done => rfl
      rw [this, if_neg e]
      omega
  have key : ∀ (sched : List ℕ) (s : RState T), rank (s.thr c) ≤ sched.count c →
      (sched.foldl (rstep I n) s).thr c = .done := by
    have hzero : ∀ x, rank x = 0 → x = .done := by
      intro x hx
      cases x with
      | start => simp [rank] at hx
      | copy j o => simp [rank] at hx
      | done => rfl
    have hstay : ∀ (sched : List ℕ) (s : RState T), s.thr c = .done →
        (sched.foldl (rstep I n) s).thr c = .done := by
      intro sched
      induction sched with
      | nil => intro s h; exact h
      | cons t ts ih =>
        intro s h
        refine ih _ ?_
        rcases hstep s t with h' | h'
        · rw [h] at h'
          have : rank .done = 0 := rfl
          exact hzero _ (by omega)
        · exact h'.2
    intro sched
    induction sched with
    | nil => intro s h; exact hzero _ (by simpa using h)
    | cons t ts ih =>
      intro s h
      rw [List.count_cons] at h
      rcases hstep s t with h' | h'
      · refine ih _ ?_
        by_cases e : t = c
        · simp only [e, beq_self_eq_true, if_true] at h h' ⊢
          omega
        · have : (t == c) = false := by simpa using e
          rw [this] at h
          rw [if_neg e] at h'
          simp at h
          omega
      · exact hstay ts _ h'.2
  exact key sched _ hcount

/-- Cells of sizes 1, 3, 2 with threshold 2. -/
example : (⟨3, fun c => [0, 1, 4, 6].getD c 6, fun i => i, 2⟩ : Cells ℕ).Tiles 6 ∧
    (List.range 6).map (reorder (⟨3, fun c => [0, 1, 4, 6].getD c 6, fun i => i, 2⟩ : Cells ℕ) 6
      [2, 0, 1, 1, 2, 1, 2, 0, 1, 1, 2, 0, 0]).out = [some 4, some 5, some 1, some 2, some 3, some 0] := by
  constructor
  · constructor <;> decide
  · decide +kernel

end ArborX.DenseBox
