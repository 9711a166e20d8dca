import Verif.Async.Lemmas
import Verif.Distributed.Spatial

/-!
# C96: the results do not depend on when the operations of the execution space and the messages are executed

`Deterministic p` (see `Model.lean`): all executions of `p` end without getting stuck, and with the same memory as the execution in which every operation is executed when it is launched. The functions are in `Functions.lean`; `before` are arbitrary kernels the caller has
put in the queue before.
-/

namespace ArborX.Async

variable {V : Type}

/-- The memory after the kernels `before`. -/
def after {L : Type} [DecidableEq L] (before : List (Op L V)) (m : L → V) : L → V := before.foldl (fun m o => o.run m) m

private lemma zero_map {L : Type} (before : List (Op L V)) : ∀ e ∈ before.map (fun o => ((0 : ℕ), o)), e.1 = 0 := by
  intro e he
  obtain ⟨o, _, rfl⟩ := List.mem_map.mp he
  rfl

private lemma zero_snoc {L : Type} {q : List (ℕ × Op L V)} (hq : ∀ e ∈ q, e.1 = 0) (o : Op L V) : ∀ e ∈ q ++ [(0, o)], e.1 = 0 := by
  intro e he
  rcases List.mem_append.mp he with he | he
  · exact hq e he
  · rw [List.mem_singleton] at he; rw [he]

/-- Queries with results in the CSR format: the buffers are sized, and the second pass and the compression chosen, from numbers the device has finished computing. -/
theorem crs_query_async (before : List (Op CrsLoc V)) (E : ℕ → List V → CrsLoc → V) (pre : Bool) (isOver isUnder isZero : List V → Bool) :
    Deterministic (launchAll before (crsQuery E pre isOver isUnder isZero)) := by
  apply safe_deterministic
  refine safe_launchAll (by simp) ?_
  have hpost : ∀ (over under : Bool) (q : List (ℕ × Op CrsLoc V)), (∀ e ∈ q, e.1 = 0) → Safe q (crsQuery.post E isZero over under) := by
    intro over under q hq
    refine safe_launch hq (safe_launch (zero_snoc hq _) (safe_reduce (zero_snoc (zero_snoc hq _) _) ?_))
    intro v
    split
    · trivial
    · split
      · exact safe_launch (by simp) (safe_launch (by simp) trivial)
      · split
        · exact safe_launch (by simp) trivial
        · trivial
  have hq := zero_map before
  simp only [List.nil_append]
  refine safe_launch hq ?_
  split
  · refine safe_launch (zero_snoc hq _) (safe_reduce (zero_snoc (zero_snoc hq _) _) ?_)
    intro v
    split
    · exact hpost _ _ _ (by simp)
    · refine safe_reduce (by simp) fun v => ?_
      split
      · exact safe_launch (by simp) (hpost _ _ _ (by simp))
      · exact hpost _ _ _ (by simp)
  · exact safe_launch (zero_snoc hq _) (hpost _ _ _ (zero_snoc (zero_snoc hq _) _))

/-- The layout of the buffers of the distributor, from batches. -/
theorem buffer_layout_async (before : List (Op LayoutLoc V)) (E : ℕ → List V → LayoutLoc → V) (isZero : List V → Bool) :
    Deterministic (launchAll before (determineBufferLayout E isZero)) := by
  apply safe_deterministic
  refine safe_launchAll (by simp) (safe_reduce (by simpa using zero_map before) fun v => ?_)
  split
  · trivial
  · refine safe_reduce (by simp) fun v => safe_launch (by simp) (safe_launch (by simp) (safe_fence (by simp) ?_))
    exact ⟨by simp, trivial⟩

/-- The layout of the buffers of the distributor, from ranks. -/
theorem sort_layout_async (before : List (Op SortLoc V)) (E : ℕ → List V → SortLoc → V) (isLast : List V → Bool) (n : ℕ) :
    Deterministic (launchAll before (sortAndDetermineBufferLayout E isLast n)) := by
  apply safe_deterministic
  have hloop : ∀ n (q : List (ℕ × Op SortLoc V)), (∀ e ∈ q, e.1 = 0) → Safe q (sortLoop E isLast n) := by
    intro n
    induction n with
    | zero => intros; trivial
    | succ n ih =>
      intro q hq
      refine safe_reduce hq fun v => ?_
      split
      · trivial
      · exact safe_reduce (by simp) fun v => ⟨by simp, ih [] (by simp)⟩
  refine safe_launchAll (by simp) (safe_launch (by simpa using zero_map before) (hloop n _ ?_))
  exact zero_snoc (by simpa using zero_map before) _

/-- The exchange of messages, with and without GPU-aware MPI: if no kernel launched before accesses the receive buffers, then what is sent is what the kernels launched before have computed, what is received is what the other processes have sent, and the part of the process itself is copied. -/
theorem exchange_async [Inhabited V] (C : Messages V) (mirror permutation : Bool) (src dst : List ℕ) (self : Option ℕ) (hself : ∀ i ∈ self, i ∉ src)
    (before : List (Op MsgLoc V))
    (hb : ∀ o ∈ before, ∀ i, MsgLoc.imports i ∉ o.reads ∧ MsgLoc.imports i ∉ o.writes ∧ MsgLoc.importsComm i ∉ o.reads ∧ MsgLoc.importsComm i ∉ o.writes) :
    Deterministic (launchAll before (doPostsAndWaits C mirror permutation src dst self)) ∧
    ∀ m m', Ends (launchAll before (doPostsAndWaits C mirror permutation src dst self)) m m' →
      let data := if permutation then C.apply (after before m .permute) (after before m .exports) else after before m .exports
      (∀ i ∈ dst, m' (.wire i) = C.sent i data) ∧ (∀ i ∈ src, m' (.imports i) = C.received i) ∧ ∀ i ∈ self, m' (.imports i) = C.kept data := by
  have hsafe : Safe [] (launchAll before (doPostsAndWaits C mirror permutation src dst self)) := by
    refine safe_launchAll (by simp) ?_
    simp only [List.nil_append]
    unfold doPostsAndWaits
    have hq := zero_map before
    refine safe_launchAll hq (safe_launchAll ?_ ?_)
    · intro e he
      rcases List.mem_append.mp he with he | he
      · exact hq e he
      · exact zero_map _ e he
    have hinj : Function.Injective (if mirror = true then MsgLoc.importsComm else MsgLoc.imports) := by
      cases mirror <;> intro a b hab <;> simpa using hab
    refine safe_receives C hinj ?_ ?_
    · intro e he i hi
      right
      simp only [List.append_assoc, List.mem_append, List.mem_map] at he
      rcases he with ⟨o, ho, rfl⟩ | ⟨o, ho, rfl⟩ | ⟨o, ho, rfl⟩
      · have := hb o ho i
        cases mirror
        · refine ⟨fun l hl => ⟨by simp [recvOp], ?_⟩, ?_⟩
          · simp only [recvOp, List.mem_singleton]
            rintro rfl
            exact this.2.1 hl
          · simpa [recvOp] using this.1
        · refine ⟨fun l hl => ⟨by simp [recvOp], ?_⟩, ?_⟩
          · simp only [recvOp, List.mem_singleton]
            rintro rfl
            exact this.2.2.2 hl
          · simpa [recvOp] using this.2.2.1
      · cases permutation
        · simp at ho
        · simp only [if_true, List.mem_singleton] at ho
          subst ho
          cases mirror <;> refine ⟨?_, ?_⟩ <;> simp [recvOp]
      · cases mirror
        · simp at ho
        · simp only [if_true, List.mem_singleton] at ho
          subst ho
          cases permutation <;> refine ⟨?_, ?_⟩ <;> simp [recvOp, copy, unary]
    · show Safe (List.filter _ _) _
      have hf : (before.map (fun o => ((0 : ℕ), o)) ++
          (if permutation = true then [(⟨[.permute, .exports], [.permuted], fun v _ => C.apply (v.getD 0 default) (v.getD 1 default)⟩ : Op MsgLoc V)] else []).map (fun o => ((0 : ℕ), o)) ++
          (if mirror = true then [copy (if permutation = true then MsgLoc.permuted else MsgLoc.exports) MsgLoc.exportsComm] else []).map (fun o => ((0 : ℕ), o)) ++
          src.map (recvOp C (if mirror = true then MsgLoc.importsComm else MsgLoc.imports))).filter (fun e => !(e.1 == 0)) =
          src.map (recvOp C (if mirror = true then MsgLoc.importsComm else MsgLoc.imports)) := by
        rw [List.filter_append, List.filter_append, List.filter_append, filter_zero (zero_map _), filter_zero (zero_map _), filter_zero (zero_map _)]
        simp only [List.nil_append]
        rw [List.filter_eq_self]
        intro e he
        obtain ⟨i, _, rfl⟩ := List.mem_map.mp he
        simp [recvOp]
      rw [hf]
      refine safe_sends C (by intro i; cases mirror <;> cases permutation <;> simp) ?_ ?_
      · intro e he i hi
        right
        obtain ⟨j, _, rfl⟩ := List.mem_map.mp he
        cases mirror <;> cases permutation <;> refine ⟨?_, ?_⟩ <;> simp [recvOp, sendOp, unary]
      · show Safe (List.filter _ _) _
        have hf2 : ((src.map (recvOp C (if mirror = true then MsgLoc.importsComm else MsgLoc.imports))) ++
            dst.map (sendOp C (if mirror = true then MsgLoc.exportsComm else if permutation = true then MsgLoc.permuted else MsgLoc.exports))).filter (fun e => !(e.1 != 0)) = [] := by
          rw [List.filter_eq_nil_iff]
          intro e he
          rcases List.mem_append.mp he with he | he
          · obtain ⟨i, _, rfl⟩ := List.mem_map.mp he
            simp [recvOp]
          · obtain ⟨i, _, rfl⟩ := List.mem_map.mp he
            simp [sendOp]
        rw [hf2]
        refine safe_launchAll (by simp) ?_
        cases mirror
        · trivial
        · exact safe_copyImports (by simpa using zero_map _) (fun _ _ => trivial)
  refine ⟨safe_deterministic hsafe, ?_⟩
  intro m m' he data
  have hm := (safe_deterministic hsafe m).2.2 m' he
  subst hm
  rw [seq_launchAll]
  have hA : before.foldl (fun m o => o.run m) m = after before m := rfl
  rw [hA]
  have hdata0 : data = if permutation then C.apply (after before m .permute) (after before m .exports) else after before m .exports := rfl
  clear_value data
  generalize after before m = m₁ at hdata0 ⊢
  unfold doPostsAndWaits
  simp only
  rw [seq_launchAll, seq_launchAll]
  generalize hm₂ : List.foldl (fun (m : MsgLoc → V) (o : Op MsgLoc V) => o.run m) _ (if mirror = true then _ else _) = m₂
  have hdata : m₂ (if permutation then MsgLoc.permuted else MsgLoc.exports) = data := by
    rw [← hm₂]
    cases permutation <;> cases mirror <;> simp [Op.run, copy, unary, hdata0]
  have hbuf : m₂ (if mirror then MsgLoc.exportsComm else if permutation then MsgLoc.permuted else MsgLoc.exports) = data := by
    cases mirror
    · simpa using hdata
    · rw [← hm₂]
      cases permutation <;> simp [Op.run, copy, unary, hdata0]
  have hinj : Function.Injective (if mirror = true then MsgLoc.importsComm else MsgLoc.imports) := by
    cases mirror <;> intro a b hab <;> simpa using hab
  obtain ⟨m₃, e3, r3, o3⟩ := seq_receives C hinj src (fence (sends C (if mirror = true then MsgLoc.exportsComm else if permutation = true then MsgLoc.permuted else MsgLoc.exports) dst
    (finishExchange C mirror (if permutation = true then MsgLoc.permuted else MsgLoc.exports) src self))) m₂
  obtain ⟨m₄, e4, r4, o4⟩ := seq_sends C (data := if mirror = true then MsgLoc.exportsComm else if permutation = true then MsgLoc.permuted else MsgLoc.exports)
    (by intro i; cases mirror <;> cases permutation <;> simp) dst (finishExchange C mirror (if permutation = true then MsgLoc.permuted else MsgLoc.exports) src self) m₃
  have e5 : seq (finishExchange C mirror (if permutation = true then MsgLoc.permuted else MsgLoc.exports) src self) m₄ =
      seq (if mirror then copyImports src .done else .done) ((keep C (if permutation = true then MsgLoc.permuted else MsgLoc.exports) self).foldl (fun m o => o.run m) m₄) := seq_launchAll _ _ _
  rw [e3, show seq (fence _) m₃ = _ from e4, e5]
  have hs4 : ∀ i ∈ dst, m₄ (.wire i) = C.sent i data := by
    intro i hi
    rw [r4 i hi, o3, hbuf]
    intro j _
    cases mirror <;> cases permutation <;> simp
  have hd4 : m₄ (if permutation then MsgLoc.permuted else MsgLoc.exports) = data := by
    rw [o4, o3, hdata]
    · intro j _; cases mirror <;> cases permutation <;> simp
    · intro j _; cases permutation <;> simp
  set m₅ := List.foldl (fun m o => o.run m) m₄ (keep C (if permutation = true then MsgLoc.permuted else MsgLoc.exports) self) with hm₅
  have o5 : ∀ x, (∀ i ∈ self, x ≠ .imports i) → m₅ x = m₄ x := by
    intro x hx
    rw [hm₅]
    cases self with
    | none => rfl
    | some i => simp [keep, Op.run, unary, hx i (by simp)]
  have s5 : ∀ i ∈ self, m₅ (.imports i) = C.kept data := by
    intro i hi
    rw [hm₅]
    cases self with
    | none => simp at hi
    | some j =>
      have : j = i := by simpa using hi
      subst this
      have : ([(if permutation = true then MsgLoc.permuted else MsgLoc.exports)].map m₄).getD 0 default = data := by simpa using hd4
      simp [keep, Op.run, unary]
      simpa using congrArg C.kept this
  have hr5 : ∀ i ∈ src, m₅ ((if mirror = true then MsgLoc.importsComm else MsgLoc.imports) i) = C.received i := by
    intro i hi
    rw [o5, o4, r3 i hi]
    · intro j _; cases mirror <;> simp
    · intro j hj
      cases mirror
      · simp only [Bool.false_eq_true, if_false, ne_eq, MsgLoc.imports.injEq]
        rintro rfl
        exact hself _ hj hi
      · simp
  have hw5 : ∀ i ∈ dst, m₅ (.wire i) = C.sent i data := by
    intro i hi
    rw [o5 _ (by simp), hs4 i hi]
  cases mirror with
  | false => exact ⟨hw5, fun i hi => by have := hr5 i hi; simpa [seq] using this, s5⟩
  | true =>
    obtain ⟨m₆, e6, r6, o6⟩ := seq_copyImports (V := V) src .done m₅
    simp only [if_true] at hr5 ⊢
    rw [e6]
    refine ⟨fun i hi => ?_, fun i hi => ?_, fun i hi => ?_⟩
    · show m₆ _ = _
      rw [o6 _ (by simp), hw5 i hi]
    · show m₆ _ = _
      rw [r6 i hi, hr5 i hi]
    · show m₆ _ = _
      rw [o6 _ ?_, s5 i hi]
      intro j hj hc
      injection hc with hc
      exact hself i hi (hc ▸ hj)

/-- The boxes of the processes in the distributed DBSCAN. -/
theorem gather_boxes_async (before : List (Op GatherLoc V)) (E : ℕ → List V → GatherLoc → V) (aware : Bool) :
    Deterministic (launchAll before (gatherGlobalBoxes E aware)) := by
  apply safe_deterministic
  refine safe_launchAll (by simp) (safe_launch (zero_map before) (safe_fence (zero_snoc (zero_map before) _) ?_))
  split
  · exact safe_launch (by simp) (safe_fence (by simp) ⟨by simp, trivial⟩)
  · exact ⟨by simp, by simp, safe_launch (by simp) trivial⟩

/-- The merge pairs of the distributed DBSCAN. -/
theorem merge_pairs_async (before : List (Op GatherLoc V)) (E : ℕ → List V → GatherLoc → V) (aware : Bool) :
    Deterministic (launchAll before (communicateMergePairs E aware)) := by
  apply safe_deterministic
  refine safe_launchAll (by simp) ?_
  unfold communicateMergePairs
  split
  · exact safe_launch (zero_map before) (safe_fence (zero_snoc (zero_map before) _) ⟨by simp, trivial⟩)
  · exact safe_launch (zero_map before) (safe_fence (zero_snoc (zero_map before) _) ⟨by simp, safe_launch (by simp) trivial⟩)

/-- Kernels of queue 0 that do not access two variables of the host. -/
private def Away (q : List (ℕ × Op MstLoc V)) : Prop :=
  ∀ e ∈ q, e.1 = 0 ∧ MstLoc.numEdgesHost ∉ e.2.reads ∧ MstLoc.numEdgesHost ∉ e.2.writes

private lemma Away.snoc {q : List (ℕ × Op MstLoc V)} (h : Away q) {o : Op MstLoc V} (h1 : MstLoc.numEdgesHost ∉ o.reads) (h2 : MstLoc.numEdgesHost ∉ o.writes) :
    Away (q ++ [(0, o)]) := by
  intro e he
  rcases List.mem_append.mp he with he | he
  · exact h e he
  · rw [List.mem_singleton] at he; subst he; exact ⟨rfl, h1, h2⟩

private lemma Away.zero {q : List (ℕ × Op MstLoc V)} (h : Away q) : ∀ e ∈ q, e.1 = 0 := fun e he => (h e he).1

/-- The minimum spanning tree, with and without the dendrogram: the number of edges the loop is controlled by is that of the round, and the vector of offsets of the rounds lives until it has been copied. -/
theorem boruvka_async (before : List (Op MstLoc V)) (hb : ∀ o ∈ before, MstLoc.numEdgesHost ∉ o.reads ∧ MstLoc.numEdgesHost ∉ o.writes) (E : ℕ → List V → MstLoc → V)
    (hdbscan : Bool) (more : List V → Bool) (n : ℕ) : Deterministic (launchAll before (boruvka E hdbscan more n)) := by
  apply safe_deterministic
  refine safe_launchAll (by simp) ?_
  have hfin : ∀ q : List (ℕ × Op MstLoc V), Away q → Safe q (if hdbscan then boruvkaDendrogram E else .done) := by
    intro q hq
    split
    · refine safe_launch hq.zero (safe_launch (hq.snoc (by simp) (by simp)).zero (safe_reduce ((hq.snoc (by simp) (by simp)).snoc (by simp) (by simp)).zero fun v => ?_))
      refine safe_reduce (by simp) fun v => safe_launch (by simp) ⟨?_, trivial⟩
      intro e he
      simp only [List.nil_append, List.mem_singleton] at he
      subst he
      refine ⟨?_, ?_⟩ <;> simp
    · trivial
  have hloop : ∀ n (q : List (ℕ × Op MstLoc V)), Away q → Safe q (boruvkaLoop E hdbscan more (if hdbscan then boruvkaDendrogram E else .done) n) := by
    intro n
    induction n with
    | zero => exact hfin
    | succ n ih =>
      intro q hq
      have h0 := hq.zero
      refine safe_launch h0 (safe_launch (zero_snoc h0 _) (safe_launch (zero_snoc (zero_snoc h0 _) _) (safe_launch (zero_snoc (zero_snoc (zero_snoc h0 _) _) _)
        (safe_launch (zero_snoc (zero_snoc (zero_snoc (zero_snoc h0 _) _) _) _) (safe_launch (zero_snoc (zero_snoc (zero_snoc (zero_snoc (zero_snoc h0 _) _) _) _) _)
        (safe_fence (zero_snoc (zero_snoc (zero_snoc (zero_snoc (zero_snoc (zero_snoc h0 _) _) _) _) _) _) ⟨by simp, safe_launchAll (by simp) ?_⟩))))))
      have ha : Away (([] : List (ℕ × Op MstLoc V)) ++ (if hdbscan then [(⟨[.labels, .outEdges, .mapping], [.mapping], E 7⟩ : Op MstLoc V), ⟨[.labels, .edges, .mapping, .outEdges], [.sided, .parents], E 8⟩] else []).map
          (fun o => ((0 : ℕ), o))) := by
        intro e he
        cases hdbscan
        · simp at he
        · simp only [List.nil_append, if_true, List.map_cons, List.map_nil, List.mem_cons, List.not_mem_nil, or_false] at he
          rcases he with rfl | rfl <;> simp
      refine safe_launch ha.zero ⟨?_, ?_⟩
      · intro e he l hl
        have := (ha.snoc (o := ⟨[.labels, .outEdges], [.labels], E 9⟩) (by simp) (by simp)) e he
        simp only [List.mem_singleton]
        rintro rfl
        exact this.2.2 hl
      · intro v
        have ha' := ha.snoc (o := ⟨[.labels, .outEdges], [.labels], E 9⟩) (by simp) (by simp)
        beta_reduce
        by_cases hm : more v = true
        · rw [if_pos hm]; exact ih _ ha'
        · rw [if_neg hm]; exact hfin _ ha'
  refine hloop n _ ?_
  intro e he
  simp only [List.nil_append] at he
  obtain ⟨o, ho, rfl⟩ := List.mem_map.mp he
  exact ⟨rfl, hb o ho⟩

/-- The dendrogram by union-find on the host. -/
theorem dendrogram_async (before : List (Op DendLoc V)) (hb : ∀ o ∈ before, ∀ l ∈ [DendLoc.labelsHost, .setEdgesHost], l ∉ o.reads ∧ l ∉ o.writes) (E : ℕ → List V → DendLoc → V) (mirror : Bool) :
    Deterministic (launchAll before (dendrogramUnionFind E mirror)) := by
  apply safe_deterministic
  refine safe_launchAll (by simp) ?_
  simp only [List.nil_append]
  have htail : ∀ q : List (ℕ × Op DendLoc V), (∀ e ∈ q, ∀ l ∈ [DendLoc.labelsHost, .setEdgesHost], l ∉ e.2.reads ∧ l ∉ e.2.writes) → Safe q
      (.launch 1 ⟨[], [.labelsHost], E 1⟩ <| .launch 1 ⟨[], [.setEdgesHost], E 2⟩ <| .wait (fun _ => true) <|
        .host ⟨[(if mirror then .edgesHost else .edges), .labelsHost, .setEdgesHost], [.labelsHost, .setEdgesHost, (if mirror then .parentsHost else .parents)], E 3⟩ <|
        if mirror then .launch 0 ⟨[.parentsHost], [.parents], E 4⟩ .done else .done) := by
    intro q hq
    refine ⟨?_, ?_, ?_⟩
    · intro e he _
      have h1 := hq e he .labelsHost (by simp)
      refine ⟨fun l hl => ⟨by simp, ?_⟩, ?_⟩
      · simp only [List.mem_singleton]; rintro rfl; exact h1.2 hl
      · simpa using h1.1
    · intro e he hne
      rcases List.mem_append.mp he with he | he
      · have h1 := hq e he .setEdgesHost (by simp)
        refine ⟨fun l hl => ⟨by simp, ?_⟩, ?_⟩
        · simp only [List.mem_singleton]; rintro rfl; exact h1.2 hl
        · simpa using h1.1
      · rw [List.mem_singleton] at he; subst he; exact absurd rfl hne
    · show Safe (List.filter _ _) _
      simp only [Bool.not_true, List.filter_false]
      refine ⟨by simp, ?_⟩
      split
      · exact safe_launch (by simp) trivial
      · trivial
  have hq : ∀ e ∈ before.map (fun o => ((0 : ℕ), o)), ∀ l ∈ [DendLoc.labelsHost, .setEdgesHost], l ∉ e.2.reads ∧ l ∉ e.2.writes := by
    intro e he
    obtain ⟨o, ho, rfl⟩ := List.mem_map.mp he
    exact hb o ho
  cases mirror with
  | false => exact htail _ hq
  | true =>
    show Safe (List.filter _ _) _
    simp only [Bool.not_true, List.filter_false]
    exact ⟨by simp, htail [] (by simp)⟩

/-! ## The volume of a tree -/

section
variable [Inhabited V]

/-- The volume of the root of the tree of the values `v`. -/
def Building.rootOf (B : Building V) (v : V) : V := B.root (B.nodes (B.codes (B.scene v) v) v)

/-- If the user fences the execution space after the construction of a tree, then `bounds()` returns the volume of the root. -/
theorem bounds_fenced_partial (B : Building V) :
    Deterministic (constructThenBounds B true) ∧ ∀ m m', Ends (constructThenBounds B true) m m' → m' .answer = B.rootOf (m .values) := by
  have hs : Safe [] (constructThenBounds B true) :=
    safe_launch (by simp) (safe_fence (by simp) (safe_launch (by simp) (safe_launch (by simp) (safe_launch (by simp) (safe_fence (by simp) ⟨by simp, trivial⟩)))))
  refine ⟨safe_deterministic hs, fun m m' h => ?_⟩
  rw [(safe_deterministic hs m).2.2 m' h]
  simp [constructThenBounds, construct, fence, readBounds, seq, Op.run, unary, copy, Building.rootOf]

/-- Without the fence, `bounds()` may return what the object contained before: the empty volume of a new object. The library does not fence. -/
theorem bounds_unfenced (B : Building V) (m : TreeLoc → V) : ∃ m', Ends (constructThenBounds B false) m m' ∧ m' .answer = m .bounds := by
  refine ⟨_, exec_sound (c := [false, true, false, false, false, false, false, true, true, true]) rfl, ?_⟩
  simp [Op.run, unary, copy]

/-- Hence the result is not determined if the volume of the root is not the empty one. -/
theorem bounds_unfenced_race (B : Building V) (m : TreeLoc → V) (h : B.rootOf (m .values) ≠ m .bounds) : ¬ Deterministic (constructThenBounds B false) := by
  intro hd
  obtain ⟨m', h1, h2⟩ := bounds_unfenced B m
  have h3 := (hd m).2.2 m' h1
  apply h
  rw [← h2, h3]
  simp [constructThenBounds, construct, readBounds, fence, seq, Op.run, unary, copy, Building.rootOf]

/-- The constructor of the distributed tree: the volumes the top tree is built from may be those gathered with the volume the temporary tree had before the construction (the empty volume) in place of that of the process, and a fence after the move does not help: the member is not
where the volume is copied to. -/
theorem distributed_tree_stale (B : Building V) (m : TreeLoc → V) :
    (∃ m', Ends (distributedTree B id id) m m' ∧ m' .volumes = B.gather (m .temporary) ∧ m' .topTree = B.top (B.gather (m .temporary))) ∧
    (∃ m', Ends (distributedTree B id fence) m m' ∧ m' .volumes = B.gather (m .temporary) ∧ m' .topTree = B.top (B.gather (m .temporary))) ∧
    (∃ m', Ends (distributedTreeAware B id id) m m' ∧ m' .volumes = B.gather (m .temporary) ∧ m' .topTree = B.top (B.gather (m .temporary))) ∧
    ∃ m', Ends (distributedTreeAware B id fence) m m' ∧ m' .volumes = B.gather (m .temporary) ∧ m' .topTree = B.top (B.gather (m .temporary)) := by
  refine ⟨⟨_, exec_sound (c := [false, true, false, false, false, false, false, false, false, false, false, true, true, true, true, true]) rfl, ?_⟩, ⟨_, exec_sound (c := [false, true, false, false, false, false, false, true, true, true, false, false, false, false, false, true, true]) rfl, ?_⟩, ⟨_, exec_sound (c := [false, true, false, false, false, false, false, false, true, true, true, true, false, false, false, true]) rfl, ?_⟩, ⟨_, exec_sound (c := [false, true, false, false, false, false, false, true, true, true, false, false, true, false, false, false, true]) rfl, ?_⟩⟩
  all_goals constructor <;> simp [Op.run, unary, copy]

/-- A fence before the move repairs the constructor. -/
theorem distributed_tree_fenced (B : Building V) :
    (Deterministic (distributedTree B fence id) ∧ ∀ m m', Ends (distributedTree B fence id) m m' → m' .volumes = B.gather (B.rootOf (m .values))) ∧
    Deterministic (distributedTreeAware B fence id) ∧ ∀ m m', Ends (distributedTreeAware B fence id) m m' → m' .volumes = B.gather (B.rootOf (m .values)) := by
  have h1 : Safe [] (distributedTree B fence id) :=
    safe_launch (by simp) (safe_fence (by simp) (safe_launch (by simp) (safe_launch (by simp) (safe_launch (by simp) (safe_fence (by simp)
      ⟨by simp, by simp, by simp, safe_launch (by simp) (safe_launch (by simp) trivial)⟩)))))
  have h2 : Safe [] (distributedTreeAware B fence id) :=
    safe_launch (by simp) (safe_fence (by simp) (safe_launch (by simp) (safe_launch (by simp) (safe_launch (by simp) (safe_fence (by simp)
      ⟨by simp, safe_launch (by simp) (safe_fence (by simp) ⟨by simp, safe_launch (by simp) trivial⟩)⟩)))))
  refine ⟨⟨safe_deterministic h1, fun m m' h => ?_⟩, safe_deterministic h2, fun m m' h => ?_⟩
  · rw [(safe_deterministic h1 m).2.2 m' h]
    simp [distributedTree, construct, fence, seq, Op.run, unary, copy, Building.rootOf]
  · rw [(safe_deterministic h2 m).2.2 m' h]
    simp [distributedTreeAware, construct, fence, seq, Op.run, unary, copy, Building.rootOf]

/-- The labels of the distributed DBSCAN may be computed from the memory of the vector of offsets after its destruction. -/
theorem labels_dangling (offs : V → V) (convert : V → V → V) (garbage : V) (m : LabelLoc → V) :
    ∃ m', Ends (convertLocalToGlobal offs convert garbage id) m m' ∧ m' .labels = convert garbage (m .localLabels) := by
  refine ⟨_, exec_sound (c := [false, false, false, false, true, true]) rfl, ?_⟩
  simp [Op.run, unary, copy]

/-- A fence before the end of the function repairs it. -/
theorem labels_fenced (offs : V → V) (convert : V → V → V) (garbage : V) :
    Deterministic (convertLocalToGlobal offs convert garbage fence) ∧
    ∀ m m', Ends (convertLocalToGlobal offs convert garbage fence) m m' → m' .labels = convert (offs (m .counts)) (m .localLabels) := by
  have hs : Safe [] (convertLocalToGlobal offs convert garbage fence) :=
    ⟨by simp, safe_launch (by simp) (safe_launch (by simp) (safe_fence (by simp) ⟨by simp, trivial⟩))⟩
  refine ⟨safe_deterministic hs, fun m m' h => ?_⟩
  rw [(safe_deterministic hs m).2.2 m' h]
  simp [convertLocalToGlobal, fence, seq, Op.run, unary, copy]

/-- The hypothesis of `exchange_async` is necessary: the receives are posted before the fence, so a kernel that initialises the receive buffer may overwrite a message. All callers in the library allocate the buffer without initialisation. -/
theorem exchange_initialised (C : Messages V) (x : V) (m : MsgLoc → V) :
    ∃ m', Ends (launchAll [⟨[], [.imports 0], fun _ _ => x⟩] (doPostsAndWaits C false false [0] [] none)) m m' ∧ m' (.imports 0) = x := by
  have h1 : Relation.ReflTransGen Step ⟨m, [], launchAll [⟨[], [MsgLoc.imports 0], fun _ _ => x⟩] (doPostsAndWaits C false false [0] [] none)⟩
      ⟨m, [(0, ⟨[], [MsgLoc.imports 0], fun _ _ => x⟩), (1, ⟨[], [MsgLoc.imports 0], fun _ _ => C.received 0⟩)],
        fence (finishExchange C false .exports [0] none)⟩ := exec_sound (c := [false, false]) rfl
  have h2 := h1.tail (.retire m [(0, ⟨[], [MsgLoc.imports 0], fun _ _ => x⟩)] [] 1 _ _ (by simp))
  refine ⟨_, h2.trans (exec_sound (c := [true, false, false]) rfl), ?_⟩
  simp [Op.run]

end

/-! ## Consequences for queries of a distributed tree -/

open BVH Traversal Construction in
/-- A process whose volume in the top tree is the empty one is not asked by any query that does not accept the empty volume: what it stores is missing from the results. -/
theorem stale_rank_missed {U : Type} {w : ℕ} [SemilatticeSup U] [OrderBot U] (I : Input ℕ U w) (h : I.Valid) (sched : List ℕ) (hf : I.Finished sched)
    (pv : U → Bool) (hpv : ∀ a b, a ≤ b → pv a = true → pv b = true) (r : ℕ) (hr : I.vol r = ⊥) (hbot : pv ⊥ = false) :
    ∃ calls, spatialQuery (I.build sched) (fun i => pv (I.vol i)) pv (fun _ => false) (2 * I.n) = .done calls ∧ r ∉ calls := by
  obtain ⟨calls, h1, h2⟩ := spatial_query_exact I h (fun i => pv (I.vol i)) pv (fun a v hv ha => hpv _ _ hv ha) sched hf (2 * I.n) le_rfl
  refine ⟨calls, h1, fun hc => ?_⟩
  have := (List.mem_filter.mp (h2.mem_iff.mp hc)).2
  simp [hr, hbot] at this

open BVH Traversal Construction in
/-- Three processes, the volume of the second one lost: a query that wants any point is sent to the first and the third process only. -/
example : ∃ (I : Input ℕ (Finset ℕ) 64) (sched : List ℕ), I.n = 3 ∧ I.vol 1 = ⊥ ∧ ∃ calls,
    spatialQuery (I.build sched) (fun i => decide ((I.vol i).Nonempty)) (fun v => decide (v.Nonempty)) (fun _ => false) (2 * I.n) = .done calls ∧ 1 ∉ calls := by
  let I : Input ℕ (Finset ℕ) 64 := ⟨3, fun i => i, fun i => if i = 1 then ∅ else {i}, fun _ => 0, fun i => i⟩
  have hv : I.Valid := Distributed.equalCodes_valid I rfl rfl (by simp [I])
  obtain ⟨s, hs⟩ := Distributed.exists_finished I hv
  refine ⟨I, s, rfl, rfl, ?_⟩
  exact stale_rank_missed I hv s hs (fun v => decide (v.Nonempty)) (fun a b hab ha => by simpa using Finset.Nonempty.mono hab (by simpa using ha)) 1 rfl (by simp)

/-! ## Examples -/

/-- A tree whose values, nodes and volumes are numbers, the empty volume being 0. -/
def someBuilding : Building ℕ := ⟨fun v => v + 1, fun s v => s + v, fun c v => c * v, fun n => n, fun b => b, fun v => v⟩

example : someBuilding.rootOf 3 = 21 := rfl

example : ¬ Deterministic (constructThenBounds someBuilding false) :=
  bounds_unfenced_race someBuilding (fun l => if l = .values then 3 else 0) (by decide)

/-- Messages: two sources, two destinations, and the process itself in between; a kernel fills the exports before. -/
example : Deterministic (launchAll [⟨[], [MsgLoc.exports], fun _ _ => [1, 2, 3]⟩, ⟨[], [MsgLoc.permute], fun _ _ => [2, 0, 1]⟩]
    (doPostsAndWaits (V := List ℕ) ⟨fun p x => p.map (fun i => x.getD i 0), fun i x => [x.getD i 0], fun x => [x.getD 1 0], fun i => [10 * i]⟩ true true [0, 2] [0, 2] (some 1))) :=
  (exchange_async _ true true [0, 2] [0, 2] (some 1) (by simp) _ (by intro o ho i; simp at ho; rcases ho with rfl | rfl <;> simp)).1

/-- Spanning tree: the loop runs until the number of edges read by the host is 0. -/
example : Deterministic (launchAll [⟨[], [MstLoc.labels], fun _ _ => 5⟩] (boruvka (V := ℕ) (fun n v _ => n + v.sum) true (fun v => v != [0]) 10)) :=
  boruvka_async _ (by simp) _ _ _ _

/-- Without the fence of line 232 the loop would be controlled by an old number. -/
example : ¬ Deterministic (V := ℕ) (.launch 0 ⟨[MstLoc.numEdges], [MstLoc.numEdgesHost], fun v _ => v.sum⟩ (.test [MstLoc.numEdgesHost]
    (fun v => if v = [0] then .host ⟨[], [MstLoc.chains], fun _ _ => 1⟩ .done else .done))) := by
  intro hd
  have h := (hd (fun l => if l = .numEdges then 7 else 0)).2.2 _ (exec_sound (c := [false, false, false, true]) rfl)
  have := congrFun h .chains
  simp [Op.run, seq] at this

end ArborX.Async
