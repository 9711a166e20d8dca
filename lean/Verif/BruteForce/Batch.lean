import Verif.Shared.Heap
import Verif.Shared.Buffer
import Verif.BruteForce.Nearest

/-!
# A batch of nearest queries of the brute-force index

The queries of one call of `query` run concurrently and keep their candidates in parts of one buffer
(`src/spatial/detail/ArborX_BruteForceImpl.hpp` 153-228, `src/spatial/detail/ArborX_NearestBufferProvider.hpp`). Each query is a program of
single reads and writes of the buffer.
-/

namespace ArborX.BruteForce

open Shared (Prog Does offset offset_eq sum_mono sum_succ)

variable {D : Type} [LinearOrder D]

/-- First loop (lines 209-213). The queue is in the entries from `o` on, `size` of them are in use. -/
def Batch.fill (d : ℕ → D) (o : ℕ) : List ℕ → ℕ → Prog (ℕ × D) ℕ
  | [], size => .ret size
  | j :: js, size => (Shared.push cmp o size (j, d j)).bind fun size' => Batch.fill d o js size'

/-- Second loop (lines 214-222). -/
def Batch.improve (d : ℕ → D) (o : ℕ) : List ℕ → ℕ → D → Prog (ℕ × D) ℕ
  | [], size, _ => .ret size
  | j :: js, size, radius =>
    if d j < radius then
      (Shared.popPush cmp o size (j, d j)).bind fun size' => .read o fun t => Batch.improve d o js size' t.2
    else Batch.improve d o js size radius

/-- Output (lines 225-227): `cnt` candidates from the `i`-th on. -/
def Batch.output (o : ℕ) : ℕ → ℕ → Prog (ℕ × D) (List ℕ)
  | _, 0 => .ret []
  | i, cnt + 1 => .read (o + i) fun x => (Batch.output o (i + 1) cnt).bind fun out => .ret (x.1 :: out)

/-- One query (lines 173-227): indices of the values the callback is called on. -/
def Batch.query (d : ℕ → D) (inf : D) (n k o : ℕ) : Prog (ℕ × D) (List ℕ) :=
  if k < 1 then .ret []
  else (Batch.fill d o (List.range (min n k)) 0).bind fun size =>
    (Batch.improve d o (List.range' k (n - k)) size inf).bind fun size' =>
      (Shared.sortHeap cmp o size').bind fun _ => Batch.output o 0 size'

/-- The queries `0, ..., nq - 1` under a schedule of their steps (lines 166-228): query `i` has the distances `d i` to the `n` values and
asks for `k i` neighbours. -/
def Batch.run (d : ℕ → ℕ → D) (inf : D) (n : ℕ) (k : ℕ → ℕ) (nq : ℕ) (sched : List ℕ) : Shared.State (ℕ × D) (List ℕ) :=
  Shared.run nq (offset k nq).toNat (fun i => Batch.query (d i) inf n (k i) (offset k i).toNat) sched

lemma does_ret {T R : Type} {cap o : ℕ} (r : R) (a : List T) : Does cap o (Prog.ret r) r a a := fun m hm => ⟨m, rfl, hm⟩

lemma does_fill {d : ℕ → D} {k o : ℕ} (js : List ℕ) : ∀ {heap heap' : List (ℕ × D)}, fill d k js heap = some heap' → heap.length ≤ k →
    Does k o (Batch.fill d o js heap.length) heap'.length heap heap' ∧ heap'.length ≤ k := by
  induction js with
  | nil => intro heap heap' h hc; obtain rfl := Option.some.inj h; exact ⟨does_ret _ _, hc⟩
  | cons j js ih =>
    intro heap heap' h hc
    rw [fill] at h
    split at h
    · simp at h
    · rename_i b hb
      have hlt : heap.length < k := by
        unfold Heap.push at hb
        split at hb
        · assumption
        · simp at hb
      obtain ⟨k1, k2⟩ := Shared.does_push (o := o) hb
      obtain ⟨k3, k4⟩ := ih h (by omega)
      exact ⟨Shared.Does.bind k1 k3, k4⟩

lemma does_improve {d : ℕ → D} {k o : ℕ} (js : List ℕ) : ∀ {heap heap' : List (ℕ × D)} {radius : D}, improve d js heap radius = some heap' →
    heap.length ≤ k → Does k o (Batch.improve d o js heap.length radius) heap'.length heap heap' ∧ heap'.length ≤ k := by
  induction js with
  | nil => intro heap heap' radius h hc; obtain rfl := Option.some.inj h; exact ⟨does_ret _ _, hc⟩
  | cons j js ih =>
    intro heap heap' radius h hc
    rw [improve] at h
    rw [Batch.improve]
    split at h
    · rename_i hd
      rw [if_pos hd]
      split at h
      · simp at h
      · rename_i b hb
        split at h
        · simp at h
        · rename_i t ht
          obtain ⟨k1, k2⟩ := Shared.does_popPush (o := o) hb hc
          obtain ⟨k3, k4⟩ := ih h (by omega)
          exact ⟨Shared.Does.bind k1 (Shared.Does.read (j := 0) ht (by omega) k3), k4⟩
    · rename_i hd
      rw [if_neg hd]
      exact ih h hc

lemma does_output {cap o : ℕ} {a : List (ℕ × D)} (hc : a.length ≤ cap) (cnt : ℕ) : ∀ {i : ℕ}, a.length = i + cnt →
    Does cap o (Batch.output o i cnt) ((a.drop i).map (·.1)) a a := by
  induction cnt with
  | zero =>
    intro i hl
    rw [List.drop_of_length_le (by omega)]
    exact does_ret _ _
  | succ cnt ih =>
    intro i hl
    have hi : i < a.length := by omega
    rw [List.drop_eq_getElem_cons hi]
    rw [Batch.output]
    exact Shared.Does.read (List.getElem?_eq_getElem hi) hc (Shared.Does.bind (ih (i := i + 1) (by omega)) (does_ret _ _))

lemma exec_query {d : ℕ → D} {inf : D} {n k o : ℕ} {calls : List ℕ} (h : nearest d inf n k = some calls) :
    ∃ m', (Batch.query d inf n k o).exec o (o + k) (fun _ => none) = some (calls, m') := by
  unfold nearest at h
  unfold Batch.query
  split at h
  · rename_i hk
    rw [if_pos hk]
    obtain rfl := Option.some.inj h
    exact ⟨_, rfl⟩
  · rename_i hk
    rw [if_neg hk]
    split at h
    · simp at h
    · rename_i heap h1
      split at h
      · simp at h
      · rename_i heap' h2
        split at h
        · simp at h
        · rename_i sorted h3
          obtain rfl := Option.some.inj h
          obtain ⟨a1, a2⟩ := does_fill (o := o) _ h1 (by simp)
          obtain ⟨b1, b2⟩ := does_improve (o := o) _ h2 a2
          obtain ⟨c1, c2⟩ := Shared.does_sortHeap (o := o) _ h3 b2
          have e := does_output (o := o) (cap := k) (a := sorted) (by omega) heap'.length (i := 0) (by omega)
          obtain ⟨m', h4, -⟩ := Shared.Does.bind (f := fun size =>
              (Batch.improve d o (List.range' k (n - k)) size inf).bind fun size' =>
                (Shared.sortHeap cmp o size').bind fun _ => Batch.output o 0 size') a1
            (Shared.Does.bind (f := fun size' => (Shared.sortHeap cmp o size').bind fun _ => Batch.output o 0 size') b1
              (Shared.Does.bind (f := fun _ => Batch.output o 0 heap'.length) c1 e)) (fun _ => none) (fun j hj => absurd hj (by simp))
          exact ⟨m', h4⟩

/-- **C74.** A batch of nearest queries of the brute-force index, whose numbers of neighbours add up to less than `2^31`: however the reads and writes of
the concurrent queries are interleaved, no query accesses memory outside of the buffer or an entry that was not written, and every
query ends and has the result it has on its own (`nearest`, see C12). -/
theorem brute_force_batch_partial (d : ℕ → ℕ → D) (inf : D) (hinf : ∀ i j, d i j ≤ inf) (n : ℕ) (k : ℕ → ℕ) (nq : ℕ)
    (hk : ((List.range nq).map k).sum < 2 ^ 31) :
    ∃ res : ℕ → List ℕ, (∀ i, nearest (d i) inf n (k i) = some (res i)) ∧
      (∀ sched, ∀ i < nq, (Batch.run d inf n k nq sched).thr i ≠ .fault ∧ ∀ r, (Batch.run d inf n k nq sched).thr i = .ret r → r = res i) ∧
      ∃ B, ∀ sched, (∀ i < nq, B ≤ sched.count i) → ∀ i < nq, (Batch.run d inf n k nq sched).thr i = .ret (res i) := by
  have : ∀ i, ∃ calls, nearest (d i) inf n (k i) = some calls := fun i => by
    obtain ⟨calls, _, _, h, _⟩ := brute_force_nearest_partial (d i) inf (hinf i) n (k i)
    exact ⟨calls, h⟩
  choose res hres using this
  refine ⟨res, hres, ?_⟩
  refine Shared.independent (lo := fun i => ((List.range i).map k).sum) (hi := fun i => ((List.range (i + 1)).map k).sum) ?_ ?_ ?_
  · intro i hi
    rw [offset_eq hk le_rfl]
    exact sum_mono _ hi
  · intro i hi j hj hij
    rcases Nat.lt_or_gt_of_ne hij with h | h
    · exact Or.inl (sum_mono _ h)
    · exact Or.inr (sum_mono _ h)
  · intro i hi
    rw [offset_eq hk hi.le, sum_succ]
    exact exec_query (hres i)

/-- Three queries for one, two and three neighbours. -/
example : ((List.range 3).map (fun i => i + 1)).sum < 2 ^ 31 := by decide

end ArborX.BruteForce
