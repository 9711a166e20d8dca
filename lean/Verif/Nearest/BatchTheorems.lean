import Verif.Nearest.Batch
import Verif.Nearest.Theorems

/-! # The queries of a batch do not influence each other -/

namespace ArborX.Nearest

open Shared (Prog Does offset offset_eq sum_mono sum_succ)
open ArborX.BVH

variable {α V D : Type} {w : ℕ} [LinearOrder D]

lemma Does.ret {T R : Type} {cap o : ℕ} (r : R) (a : List T) : Does cap o (Prog.ret r) r a a := fun m hm => ⟨m, rfl, hm⟩

lemma does_offer {mem : Mem α V} {q : Query α V D} {o child : ℕ} {d : D} {heap heap' : List (ℕ × D)} {radius radius' : D} {tr : Bool}
    (h : offer mem q child d heap radius = some (heap', radius', tr)) (hc : heap.length ≤ q.k) :
    Does q.k o (Batch.offer mem q o child d heap.length radius) (heap'.length, radius', tr) heap heap' ∧ heap'.length ≤ q.k := by
  unfold offer at h
  unfold Batch.offer
  split at h
  · rename_i hd
    rw [if_pos hd]
    split at h
    · rename_i hch
      rw [if_pos hch]
      split at h
      · simp at h
      · rename_i b hb
        have key : Does q.k o (if heap.length < q.k then Shared.push cmp o heap.length (child, d) else Shared.popPush cmp o heap.length (child, d))
            b.length heap b ∧ b.length ≤ q.k := by
          split at hb
          · rename_i hlt
            rw [if_pos hlt]
            obtain ⟨k1, k2⟩ := Shared.does_push (o := o) hb
            exact ⟨k1, by omega⟩
          · rename_i hlt
            rw [if_neg hlt]
            obtain ⟨k1, k2⟩ := Shared.does_popPush (o := o) hb hc
            exact ⟨k1, by omega⟩
        split at h
        · rename_i hk
          split at h
          · simp at h
          · rename_i t ht
            simp only [Option.some.injEq, Prod.mk.injEq] at h
            obtain ⟨rfl, rfl, rfl⟩ := h
            refine ⟨Shared.Does.bind key.1 ?_, key.2⟩
            rw [if_pos hk]
            exact Shared.Does.read (j := 0) ht key.2 (Does.ret _ _)
        · rename_i hk
          simp only [Option.some.injEq, Prod.mk.injEq] at h
          obtain ⟨rfl, rfl, rfl⟩ := h
          refine ⟨Shared.Does.bind key.1 ?_, key.2⟩
          rw [if_neg hk]
          exact Does.ret _ _
    · rename_i hch
      rw [if_neg hch]
      simp only [Option.some.injEq, Prod.mk.injEq] at h
      obtain ⟨rfl, rfl, rfl⟩ := h
      exact ⟨Does.ret _ _, hc⟩
  · rename_i hd
    rw [if_neg hd]
    simp only [Option.some.injEq, Prod.mk.injEq] at h
    obtain ⟨rfl, rfl, rfl⟩ := h
    exact ⟨Does.ret _ _, hc⟩

lemma does_loop {mem : Mem α V} {q : Query α V D} {o : ℕ} (fuel : ℕ) : ∀ {node : ℕ} {dnode : D} {stack heap : List (ℕ × D)} {radius : D}
    {heap' : List (ℕ × D)}, loop mem q fuel node dnode stack heap radius = .done heap' → heap.length ≤ q.k →
    Does q.k o (Batch.loop mem q o fuel node dnode stack heap.length radius) heap'.length heap heap' ∧ heap'.length ≤ q.k := by
  induction fuel with
  | zero => intro _ _ _ _ _ _ h; simp [loop] at h
  | succ fuel ih =>
    intro node dnode stack heap radius heap' h hc
    rw [loop.eq_def] at h
    rw [Batch.loop.eq_def]
    dsimp only at h ⊢
    split at h
    · rename_i hd
      rw [if_pos hd]
      cases hch : children mem node with
      | none => rw [hch] at h; simp at h
      | some lr =>
        obtain ⟨l, r⟩ := lr
        rw [hch] at h
        simp only at h ⊢
        cases hl : distance mem q l with
        | none => rw [hl] at h; simp at h
        | some dl =>
          cases hr : distance mem q r with
          | none => rw [hl, hr] at h; simp at h
          | some dr =>
            rw [hl, hr] at h
            simp only at h ⊢
            cases ho1 : offer mem q l dl heap radius with
            | none => rw [ho1] at h; simp at h
            | some x =>
              obtain ⟨heap1, radius1, tl⟩ := x
              rw [ho1] at h
              simp only at h
              obtain ⟨a1, a2⟩ := does_offer (o := o) ho1 hc
              cases ho2 : offer mem q r dr heap1 radius1 with
              | none => rw [ho2] at h; simp at h
              | some y =>
                obtain ⟨heap2, radius2, tr⟩ := y
                rw [ho2] at h
                simp only at h
                obtain ⟨b1, b2⟩ := does_offer (o := o) ho2 a2
                suffices hs : Does q.k o (if !tl && !tr then
                    match stack with
                    | [] => Prog.ret heap2.length
                    | (n, d) :: st => Batch.loop mem q o fuel n d st heap2.length radius2
                  else if tl && (decide (dl ≤ dr) || !tr) then
                    if tr then
                      if stack.length + 1 < q.cap then Batch.loop mem q o fuel l dl ((r, dr) :: stack) heap2.length radius2 else .fault
                    else Batch.loop mem q o fuel l dl stack heap2.length radius2
                  else
                    if tl then
                      if stack.length + 1 < q.cap then Batch.loop mem q o fuel r dr ((l, dl) :: stack) heap2.length radius2 else .fault
                    else Batch.loop mem q o fuel r dr stack heap2.length radius2) heap'.length heap2 heap' ∧ heap'.length ≤ q.k from
                  ⟨Shared.Does.bind a1 (Shared.Does.bind b1 hs.1), hs.2⟩
                split at h
                · rename_i h1
                  rw [if_pos h1]
                  cases stack with
                  | nil =>
                    simp only [Res.done.injEq] at h
                    subst h
                    exact ⟨Does.ret _ _, b2⟩
                  | cons e st => exact ih h b2
                · rename_i h1
                  rw [if_neg h1]
                  split at h
                  · rename_i h2
                    rw [if_pos h2]
                    split at h
                    · rename_i h3
                      rw [if_pos h3]
                      split at h
                      · rename_i h4
                        rw [if_pos h4]
                        exact ih h b2
                      · simp at h
                    · rename_i h3
                      rw [if_neg h3]
                      exact ih h b2
                  · rename_i h2
                    rw [if_neg h2]
                    split at h
                    · rename_i h3
                      rw [if_pos h3]
                      split at h
                      · rename_i h4
                        rw [if_pos h4]
                        exact ih h b2
                      · simp at h
                    · rename_i h3
                      rw [if_neg h3]
                      exact ih h b2
    · rename_i hd
      rw [if_neg hd]
      cases stack with
      | nil =>
        simp only [Res.done.injEq] at h
        subst h
        exact ⟨Does.ret _ _, hc⟩
      | cons e st => exact ih h hc

lemma does_output {mem : Mem α V} {cap o : ℕ} {a : List (ℕ × D)} (hc : a.length ≤ cap) (cnt : ℕ) : ∀ {i : ℕ} {out : List α},
    a.length = i + cnt → output mem (a.drop i) = some out → Does cap o (Batch.output mem o i cnt) out a a := by
  induction cnt with
  | zero =>
    intro i out hl h
    rw [List.drop_of_length_le (by omega)] at h
    obtain rfl := Option.some.inj h
    exact Does.ret _ _
  | succ cnt ih =>
    intro i out hl h
    have hi : i < a.length := by omega
    rw [List.drop_eq_getElem_cons hi] at h
    cases hx : a[i] with
    | mk x d =>
      rw [hx, output] at h
      cases hlf : mem.leaf x with
      | none => rw [hlf] at h; simp at h
      | some lf =>
        cases ho : output mem (a.drop (i + 1)) with
        | none => rw [hlf, ho] at h; simp at h
        | some rest =>
          rw [hlf, ho] at h
          obtain rfl := Option.some.inj h
          have k1 := ih (i := i + 1) (by omega) ho
          rw [Batch.output]
          refine Shared.Does.read (v := (x, d)) (by rw [List.getElem?_eq_getElem hi, hx]) hc ?_
          simp only [hlf]
          exact Shared.Does.bind k1 (Does.ret _ _)

/-- A query of the batch keeps to its part of the buffer and ends with the result of the query on its own. -/
lemma exec_query {mem : Mem α V} {q : Query α V D} {fuel o : ℕ} {out : List α} (h : fullTree mem q fuel = .done out) :
    ∃ m', (Batch.query mem q o fuel).exec o (o + q.k) (fun _ => none) = some (out, m') := by
  unfold fullTree at h
  unfold Batch.query
  split at h
  · rename_i hk
    rw [if_pos hk]
    simp only [Res.done.injEq] at h
    subst h
    exact ⟨_, rfl⟩
  · rename_i hk
    rw [if_neg hk]
    split at h
    · simp at h
    · simp at h
    · rename_i heap hloop
      split at h
      · simp at h
      · rename_i sorted hsort
        split at h
        · simp at h
        · rename_i out' hout
          simp only [Res.done.injEq] at h
          subst h
          obtain ⟨a1, a2⟩ := does_loop (o := o) fuel hloop (by simp)
          obtain ⟨b1, b2⟩ := Shared.does_sortHeap (o := o) _ hsort a2
          have c := does_output (mem := mem) (o := o) (cap := q.k) (by omega) heap.length (i := 0) (by omega) hout
          obtain ⟨m', h1, -⟩ := Shared.Does.bind
            (f := fun size => (Shared.sortHeap cmp o size).bind fun _ => Batch.output mem o 0 size) a1 (Shared.Does.bind (f := fun _ => Batch.output mem o 0 heap.length) b1 c) (fun _ => none)
            (fun j hj => absurd hj (by simp))
          exact ⟨m', h1⟩

/-- **C74.** A batch of nearest queries whose numbers of neighbours add up to less than `2^31`. If each of them has on its own the result `res i`, then however
the reads and writes of the concurrent queries are interleaved, no query accesses memory outside of the buffer or an entry
that was not written, a query that has ended has called the callback on `res i`, and all queries end. -/
theorem nearest_batch_independent_partial (mem : Mem α V) (n : ℕ) (q : ℕ → Query α V D) (hk : ((List.range n).map (fun i => (q i).k)).sum < 2 ^ 31)
    (fuel : ℕ) (res : ℕ → List α) (hres : ∀ i < n, nearestQuery mem (q i) fuel = .done (res i)) :
    (∀ sched, ∀ i < n, (Batch.run mem n q fuel sched).thr i ≠ .fault ∧ ∀ r, (Batch.run mem n q fuel sched).thr i = .ret r → r = res i) ∧
    ∃ B, ∀ sched, (∀ i < n, B ≤ sched.count i) → ∀ i < n, (Batch.run mem n q fuel sched).thr i = .ret (res i) := by
  refine Shared.independent (lo := fun i => ((List.range i).map (fun i => (q i).k)).sum)
    (hi := fun i => ((List.range (i + 1)).map (fun i => (q i).k)).sum) ?_ ?_ ?_
  · intro i hi
    rw [offset_eq hk le_rfl]
    exact sum_mono _ hi
  · intro i hi j hj hij
    rcases Nat.lt_or_gt_of_ne hij with h | h
    · exact Or.inl (sum_mono _ h)
    · exact Or.inr (sum_mono _ h)
  · intro i hi
    have h := hres i hi
    unfold nearestQuery at h
    unfold Batch.prog
    split at h
    · rename_i h0
      rw [if_pos h0]
      simp only [Res.done.injEq] at h
      rw [← h]
      exact ⟨_, rfl⟩
    · rename_i h0
      rw [if_neg h0]
      split at h
      · rename_i h1
        rw [if_pos h1]
        unfold oneLeaf at h
        unfold Batch.oneLeaf
        split at h
        · rename_i h2
          rw [if_pos h2]
          simp only [Res.done.injEq] at h
          rw [← h]
          exact ⟨_, rfl⟩
        · rename_i h2
          rw [if_neg h2]
          cases hl : mem.leaf 0 with
          | none => rw [hl] at h; simp at h
          | some lf =>
            rw [hl] at h
            simp only [Res.done.injEq] at h
            rw [← h]
            exact ⟨_, rfl⟩
      · rename_i h1
        rw [if_neg h1]
        obtain ⟨m', h2⟩ := exec_query (o := ((List.range i).map (fun i => (q i).k)).sum) h
        rw [offset_eq hk hi.le, sum_succ]
        exact ⟨m', h2⟩

variable [SemilatticeSup V] [OrderBot V]

/-- **C74.** A batch of nearest queries on a tree: under every schedule of the construction and every interleaving of the queries, each query calls the
callback on its `k` nearest values, in order. -/
theorem nearest_batch_partial (I : Input α V w) (h : I.Valid) (hn : I.n ≠ 1) (n : ℕ) (q : ℕ → Query α V D)
    (had : ∀ i < n, Admissible (q i) I.vol) (hz : ∀ i < n, ∀ a, (q i).zero ≤ (q i).dl a) (hcap : ∀ i < n, StackFits I (q i).cap)
    (hk : ((List.range n).map (fun i => (q i).k)).sum < 2 ^ 31)
    (bsched : List ℕ) (hf : I.Finished bsched) (fuel : ℕ) (hfuel : 2 * I.n ≤ fuel) :
    ∃ res : ℕ → List α, (∀ i < n, IsKNearest (q i).dl (q i).inf (q i).k I.stored (res i)) ∧
      (∀ sched, ∀ i < n, (Batch.run (I.build bsched) n q fuel sched).thr i ≠ .fault ∧
        ∀ r, (Batch.run (I.build bsched) n q fuel sched).thr i = .ret r → r = res i) ∧
      ∃ B, ∀ sched, (∀ i < n, B ≤ sched.count i) → ∀ i < n, (Batch.run (I.build bsched) n q fuel sched).thr i = .ret (res i) := by
  have : ∀ i, ∃ calls, i < n → nearestQuery (I.build bsched) (q i) fuel = .done calls ∧ IsKNearest (q i).dl (q i).inf (q i).k I.stored calls := by
    intro i
    by_cases hi : i < n
    · obtain ⟨calls, hc⟩ := nearest_query I h hn (q i) (had i hi) (hz i hi) (hcap i hi) bsched hf fuel hfuel
      exact ⟨calls, fun _ => hc⟩
    · exact ⟨[], fun h => absurd h hi⟩
  choose res hres using this
  exact ⟨res, fun i hi => (hres i hi).2, nearest_batch_independent_partial _ n q hk fuel res (fun i hi => (hres i hi).1)⟩

/-! ## Non-vacuity -/

open Traversal (exampleInput exampleInput_valid)

/-- Three queries with different numbers of neighbours on the example input. -/
def exampleBatch (i : ℕ) : Query ℕ (Finset ℕ) (WithTop ℕ) := { exampleQuery with k := i + 1 }

example : (∀ i < 3, Admissible (exampleBatch i) exampleInput.vol) ∧ (∀ i < 3, StackFits exampleInput (exampleBatch i).cap) ∧
    ((List.range 3).map (fun i => (exampleBatch i).k)).sum < 2 ^ 31 := by
  refine ⟨fun i _ a v h => Finset.inf_le (h (by simp [exampleInput])), fun i _ => stack_suffices_small exampleInput (cap := 64) (by decide) (by decide), by decide⟩

/-! ## Overflow of the offsets -/

/-- Three queries on a tree of two values, each with a number of neighbours that an `int` can hold. -/
def wideBatch (i : ℕ) : Query ℕ (Finset ℕ) (WithTop ℕ) :=
  { exampleQuery with k := if i = 2 then 3 else 2 ^ 31 - 1 }

/-- A tree of two leaves. -/
def twoLeaves : Mem ℕ (Finset ℕ) where
  size := 2
  leaf := fun i => if i = 0 then some ⟨some 1, 3⟩ else if i = 1 then some ⟨none, 4⟩ else none
  internal := fun i => if i = 0 then some ⟨0, none, {3, 4}⟩ else none

example : WellFormed twoLeaves (fun i => i + 3) (fun a => {a}) (.node (.leaf 0) (.leaf 1)) :=
  ⟨rfl, 0, 1, by decide, rfl, ⟨rfl, by decide, rfl⟩, rfl, by decide, rfl⟩

/-- **C74, defect.** Each query of the batch has on its own the right result, but together their numbers of neighbours do not fit into an `int`:
the buffer is allocated with one entry and the second query writes outside of it in its first step. -/
theorem nearest_batch_overflow : (∀ i < 3, (wideBatch i).k < 2 ^ 31) ∧ (∀ i < 3, nearestQuery twoLeaves (wideBatch i) 4 = .done [3, 4]) ∧
    (offset (fun j => (wideBatch j).k) 3).toNat = 1 ∧
    (Batch.run twoLeaves 3 wideBatch 4 [1]).thr 1 = .fault := by
  refine ⟨?_, ?_, ?_, ?_⟩
  · intro i hi
    interval_cases i <;> decide
  · decide +kernel
  · decide +kernel
  · rfl

end ArborX.Nearest
