import Verif.Construction.IntModel
import Verif.Traversal.Theorems

/-!
# Property theorems: node numbers of type `int` (C91)
-/

namespace ArborX

namespace Construction

variable {α V : Type} [SemilatticeSup V] [OrderBot V] {P : Params α V}

/-! ## Lemmas -/

lemma areInts_of {l : List ℤ} {b : ℤ} (hb : b < 2 ^ 31) (h : ∀ x ∈ l, -1 ≤ x ∧ x ≤ b) : AreInts l := by
  intro x hx
  obtain ⟨h1, h2⟩ := h x hx
  exact ⟨by omega, by omega⟩

omit [SemilatticeSup V] [OrderBot V] in
lemma internalIndexInts_le {i : ℕ} (hi : i ≤ P.m) : ∀ x ∈ internalIndexInts P i, -1 ≤ x ∧ x ≤ 2 * P.m + 1 := by
  intro x hx
  simp only [internalIndexInts, List.mem_cons, List.not_mem_nil, or_false] at hx
  omega

omit [SemilatticeSup V] [OrderBot V] in
lemma deltaInts_le {i : ℤ} (h1 : -1 ≤ i) (h2 : i ≤ 2 * P.m + 1) : ∀ x ∈ deltaInts P i, -1 ≤ x ∧ x ≤ 2 * P.m + 1 := by
  intro x hx
  unfold deltaInts at hx
  split_ifs at hx <;> simp only [List.mem_cons, List.not_mem_nil, or_false] at hx <;> omega

omit [SemilatticeSup V] [OrderBot V] in
lemma setRopeInts_le {r : ℕ} (hr : r ≤ P.m) (dr : ℤ) : ∀ x ∈ setRopeInts P r dr, -1 ≤ x ∧ x ≤ 2 * P.m + 1 := by
  intro x hx
  unfold setRopeInts at hx
  split_ifs at hx with h1 h2
  · rw [List.append_nil, List.mem_cons] at hx
    rcases hx with rfl | hx
    · omega
    · exact deltaInts_le (by omega) (by omega) x hx
  · rw [List.cons_append, List.mem_cons, List.mem_append] at hx
    rcases hx with rfl | hx | hx
    · omega
    · exact deltaInts_le (by omega) (by omega) x hx
    · exact internalIndexInts_le (by omega) x hx
  · simp only [List.mem_cons, List.not_mem_nil, or_false] at hx
    omega

lemma idOf_le {l r : ℕ} (h : l ≤ r) (hr : r ≤ P.m) : idOf P l r ≤ 2 * P.m + 1 := by
  have := (karras_mem (P := P) h).2
  unfold idOf internalIndex
  split_ifs <;> omega

/-- In a reachable state with at most `2^30` values all `int`s of the next step are in range. -/
lemma ints_le {s : State α V} {blk} (h : Inv P s blk) {t : ℕ} (ht : t ≤ P.m) : ∀ x ∈ ints P s t, -1 ≤ x ∧ x ≤ 2 * P.m + 1 := by
  intro x hx
  have hI := h.thr t ht
  unfold ints at hx
  unfold ThrInv at hI
  rw [List.mem_cons, List.mem_cons] at hx
  rcases hx with rfl | rfl | hx
  · omega
  · omega
  cases hs : s.thr t with
  | init =>
    rw [hs] at hx
    simp only [List.cons_append, List.mem_cons, List.mem_append] at hx
    rcases hx with rfl | ((hx | hx) | hx) | hx
    · omega
    · exact deltaInts_le (by omega) (by omega) x hx
    · exact deltaInts_le (by omega) (by omega) x hx
    · exact setRopeInts_le ht _ x hx
    · exact internalIndexInts_le (by omega) x hx
  | loop i l r dl dr bv =>
    rw [hs] at hx hI
    obtain ⟨hb, -⟩ := hI
    have o := h.out _ _ _ hb
    dsimp only at hx
    split_ifs at hx
    · simp at hx
    · simp only [List.mem_cons, List.not_mem_nil, or_false] at hx
      omega
  | readR i l r dl bv p =>
    rw [hs] at hx hI
    obtain ⟨hb, -, -, -, -, x', y', -, h6, -⟩ := hI
    have o := h.out _ _ _ hb
    have := h6.le
    rw [List.mem_cons] at hx
    rcases hx with rfl | hx
    · omega
    · exact deltaInts_le (by omega) (by omega) x hx
  | readL l r dr bv p =>
    rw [hs] at hx hI
    obtain ⟨hb, -, -, -, x', y', -, h6, -⟩ := hI
    have o := h.out _ _ _ hb
    have := h6.le
    dsimp only at hx
    rw [List.cons_append, List.mem_cons, List.mem_append] at hx
    rcases hx with rfl | hx | hx
    · omega
    · exact deltaInts_le (by omega) (by omega) x hx
    · split_ifs at hx
      · simp at hx
      · exact internalIndexInts_le (by omega) x hx
  | write l r dl dr bv left =>
    rw [hs] at hx hI
    obtain ⟨hb, -, -, p, hl, -, -, x', y', h5, h6, -⟩ := hI
    have o := h.out _ _ _ hb
    have := h6.le
    dsimp only at hx
    rw [List.cons_append, List.mem_cons, List.mem_append] at hx
    rcases hx with rfl | hx | hx
    · have := idOf_le (P := P) h5.le (by omega)
      rw [hl]; omega
    · exact setRopeInts_le o.2.2 _ x hx
    · exact internalIndexInts_le (by split_ifs <;> omega) x hx
  | done => rw [hs] at hx; simp at hx
  | fault => rw [hs] at hx; simp at hx

/-- With at most `2^30` values the construction with `int`s is the one with natural numbers. -/
lemma runI_eq (g : Good P) (hm : P.m < 2 ^ 30) (sched : List ℕ) : runI P sched = run P sched := by
  have : ∀ (l : List ℕ) (s : State α V) blk, Inv P s blk → l.foldl (stepI P) s = l.foldl (step P) s := by
    intro l
    induction l with
    | nil => intro s blk _; rw [List.foldl_nil, List.foldl_nil]
    | cons t l ih =>
      intro s blk h
      have e : stepI P s t = step P s t := by
        unfold stepI
        split_ifs with h1 h2
        · unfold step; rw [if_pos h1]
        · rfl
        · exact absurd (areInts_of (b := 2 * (P.m : ℤ) + 1) (by omega) (ints_le h (by omega))) h2
      obtain ⟨blk', h'⟩ := inv_step g h t
      rw [List.foldl_cons, List.foldl_cons, e]
      exact ih _ _ h'
  exact this sched _ _ inv_init

/-- Inside of a finished subtree all internal nodes are written. -/
lemma Built.written {L I} {l r : ℕ} {T : BTree} (h : Built P L I l r T) :
    (l < r → (I (karras P l r)).isSome) ∧ ∀ k, l < k → k < r → (I k).isSome := by
  induction h with
  | leaf i _ => exact ⟨fun h => absurd h (lt_irrefl _), fun k h1 h2 => absurd h1 (by omega)⟩
  | node l p r a b ha hb h1 h2 hk iha ihb =>
    refine ⟨fun _ => by rw [hk]; rfl, fun k hl hr => ?_⟩
    have := ha.le
    have := hb.le
    rcases lt_trichotomy k p with h | rfl | h
    · exact iha.2 k hl h
    · have e : karras P l k = k := by unfold karras; rw [if_pos h1]
      have := iha.1 hl
      rwa [e] at this
    · rcases (show p + 1 ≤ k from h).eq_or_lt with rfl | h'
      · have e : karras P (p + 1) r = p + 1 := by unfold karras; rw [if_neg h2]
        have := ihb.1 hr
        rwa [e] at this
      · exact ihb.2 k h' hr

/-- Beyond, the construction either goes on as before, without the last internal node, or a thread has failed. -/
lemma runI_large (hm : 2 ^ 30 ≤ P.m) (sched : List ℕ) :
    (runI P sched = run P sched ∧ (run P sched).internal (P.m - 1) = none) ∨ ∃ t ≤ P.m, (runI P sched).thr t = .fault := by
  have : ∀ (l : List ℕ) (s : State α V), s.internal (P.m - 1) = none →
      (l.foldl (stepI P) s = l.foldl (step P) s ∧ (l.foldl (step P) s).internal (P.m - 1) = none) ∨ ∃ t ≤ P.m, (l.foldl (stepI P) s).thr t = .fault := by
    intro l
    induction l with
    | nil => intro s h; rw [List.foldl_nil, List.foldl_nil]; exact .inl ⟨rfl, h⟩
    | cons t l ih =>
      intro s h
      rw [List.foldl_cons, List.foldl_cons]
      by_cases ht : t > P.m
      · have e1 : stepI P s t = s := by unfold stepI; rw [if_pos ht]
        have e2 : step P s t = s := by unfold step; rw [if_pos ht]
        rw [e1, e2]
        exact ih s h
      by_cases hi : AreInts (ints P s t)
      · have e1 : stepI P s t = step P s t := by unfold stepI; rw [if_neg ht, if_pos hi]
        rw [e1]
        refine ih _ ?_
        unfold step
        rw [if_neg ht]
        cases hs : s.thr t with
        | init => exact h
        | loop i l r dl dr bv =>
          dsimp only
          split_ifs
          · split <;> exact h
          · exact h
          · split <;> exact h
          · exact h
        | readR i l r dl bv p => dsimp only; split <;> exact h
        | readL l r dr bv p => dsimp only; split <;> exact h
        | write l r dl dr bv left =>
          have hk : (if dr < dl then r else l) ≠ P.m - 1 := by
            intro hk
            have := hi ((P.m - 1 : ℕ) + P.m + 1) (by
              unfold ints
              rw [hs]
              dsimp only
              rw [hk]
              simp [internalIndexInts])
            have := this.2
            omega
          dsimp only
          generalize (if dr < dl then r else l) = k at hk
          split
          · dsimp only
            rw [Function.update_of_ne hk.symm]
            exact h
          · exact h
        | done => exact h
        | fault => exact h
      · have e1 : stepI P s t = setThr s t .fault := by unfold stepI; rw [if_neg ht, if_neg hi]
        rw [e1]
        refine .inr ⟨t, by omega, ?_⟩
        have : ∀ (l : List ℕ) (s : State α V), s.thr t = .fault → (l.foldl (stepI P) s).thr t = .fault := by
          intro l
          induction l with
          | nil => intro s h; exact h
          | cons u l ih =>
            intro s h
            refine ih _ ?_
            unfold stepI
            split_ifs with h1 h2
            · exact h
            · by_cases hu : t = u
              · subst hu
                unfold step
                rw [if_neg h1, h]
                exact h
              · rw [step_thr_other s hu]; exact h
            · by_cases hu : t = u
              · subst hu; simp [setThr]
              · simp [setThr, hu, h]
        exact this l _ (by simp [setThr])
  exact this sched _ rfl

end Construction

namespace Traversal

variable {α V : Type}

/-- The node numbers in the memory are below `b`. -/
def Below (mem : Mem α V) (b : ℕ) : Prop :=
  (∀ i lf, mem.leaf i = some lf → ∀ j, lf.rope = some j → j < b) ∧
  ∀ i nd, mem.internal i = some nd → nd.left < b ∧ ∀ j, nd.rope = some j → j < b

lemma nodeInts_ok {debug : Bool} {size node : ℕ} (hs : 1 ≤ size) (h1 : size ≤ 2 ^ 30) (h2 : debug = true → size < 2 ^ 30) (hn : node < 2 ^ 31) :
    AreInts (nodeInts debug size node) := by
  intro x hx
  unfold nodeInts at hx
  unfold IsInt
  cases debug with
  | false =>
    simp only [Bool.false_eq_true, if_false, List.cons_append, List.nil_append, List.mem_cons] at hx
    rcases hx with rfl | rfl | hx
    · omega
    · omega
    · split_ifs at hx
      · simp at hx
      · simp only [List.mem_cons, List.not_mem_nil, or_false] at hx
        omega
  | true =>
    have := h2 rfl
    simp only [if_true, List.cons_append, List.nil_append, List.mem_cons] at hx
    rcases hx with rfl | rfl | rfl | rfl | hx
    · omega
    · omega
    · omega
    · omega
    · split_ifs at hx
      · simp at hx
      · simp only [List.mem_cons, List.not_mem_nil, or_false] at hx
        omega

lemma spatialLoopI_eq {debug : Bool} {mem : Mem α V} (hs : 1 ≤ mem.size) (h1 : mem.size ≤ 2 ^ 30) (h2 : debug = true → mem.size < 2 ^ 30)
    (hb : Below mem (2 ^ 31)) (pl : α → Bool) (pv : V → Bool) (stop : List α → Bool) :
    ∀ (fuel : ℕ) (o : Option ℕ) (acc : List α), (∀ j, o = some j → j < 2 ^ 31) →
      spatialLoopI debug mem pl pv stop fuel o acc = spatialLoop mem pl pv stop fuel o acc := by
  intro fuel
  induction fuel with
  | zero => intro o acc _; cases o <;> rfl
  | succ fuel ih =>
    intro o acc ho
    cases o with
    | none => rfl
    | some node =>
      rw [spatialLoopI, spatialLoop, if_pos (nodeInts_ok hs h1 h2 (ho node rfl))]
      by_cases hn : node < mem.size
      · rw [if_pos hn, if_pos hn]
        cases hl : mem.leaf node with
        | none => rfl
        | some lf =>
          have h : ∀ acc, spatialLoopI debug mem pl pv stop fuel lf.rope acc = spatialLoop mem pl pv stop fuel lf.rope acc :=
            fun acc => ih lf.rope acc (hb.1 node lf hl)
          dsimp only
          rw [h, h]
      · rw [if_neg hn, if_neg hn]
        cases hl : mem.internal (node - mem.size) with
        | none => rfl
        | some nd =>
          obtain ⟨h3, h4⟩ := hb.2 _ nd hl
          have e1 : spatialLoopI debug mem pl pv stop fuel (some nd.left) acc = spatialLoop mem pl pv stop fuel (some nd.left) acc :=
            ih _ acc (fun j hj => by cases hj; exact h3)
          have e2 : spatialLoopI debug mem pl pv stop fuel nd.rope acc = spatialLoop mem pl pv stop fuel nd.rope acc := ih _ acc h4
          dsimp only
          rw [e1, e2]

end Traversal

namespace BVH

open Construction Traversal

variable {α V : Type} {w : ℕ} [SemilatticeSup V] [OrderBot V]

lemma Input.run_below (I : Input α V w) (h : I.Valid) (hn : 2 ≤ I.n) (hbig : I.n ≤ 2 ^ 30) (sched : List ℕ) :
    Below ⟨I.n, (run I.params sched).leaf, (run I.params sched).internal⟩ (2 ^ 31) := by
  have g := (h.keys hn).good
  have hm : I.params.m = I.n - 1 := rfl
  have hrope : ∀ (r : ℕ) (dr : ℤ) (j : ℕ), r ≤ I.params.m → setRope I.params r dr = some j → j < 2 ^ 31 := by
    intro r dr j hr hj
    unfold setRope internalIndex at hj
    split_ifs at hj <;> simp only [Option.some.injEq] at hj <;> omega
  have : ∀ (l : List ℕ) (s : State α V) blk, Inv I.params s blk → Below ⟨I.n, s.leaf, s.internal⟩ (2 ^ 31) →
      Below ⟨I.n, (l.foldl (step I.params) s).leaf, (l.foldl (step I.params) s).internal⟩ (2 ^ 31) := by
    intro l
    induction l with
    | nil => intro s _ _ hb; exact hb
    | cons t l ih =>
      intro s blk hI hb
      obtain ⟨blk', hI'⟩ := inv_step g hI t
      refine ih _ _ hI' ?_
      unfold step
      split
      · exact hb
      rename_i ht
      have hT := hI.thr t (by omega)
      unfold ThrInv at hT
      cases hs : s.thr t with
      | init =>
        refine ⟨fun i lf hl j hj => ?_, hb.2⟩
        dsimp only at hl
        by_cases hi : i = t
        · subst hi
          rw [Function.update_self, Option.some.injEq] at hl
          subst hl
          exact hrope _ _ _ (by omega) hj
        · rw [Function.update_of_ne hi] at hl
          exact hb.1 i lf hl j hj
      | loop i l r dl dr bv =>
        dsimp only
        split_ifs
        · split <;> exact hb
        · exact hb
        · split <;> exact hb
        · exact hb
      | readR i l r dl bv p => dsimp only; split <;> exact hb
      | readL l r dr bv p => dsimp only; split <;> exact hb
      | write l r dl dr bv left =>
        rw [hs] at hT
        obtain ⟨hbk, -, -, p, hl, -, -, x', y', h5, h6, -⟩ := hT
        have o := hI.out _ _ _ hbk
        have := h6.le
        have hid := idOf_le (P := I.params) h5.le (by omega)
        dsimp only
        generalize (if dr < dl then r else l) = k
        split
        · refine ⟨hb.1, fun i nd hi => ?_⟩
          dsimp only at hi
          by_cases hik : i = k
          · subst hik
            rw [Function.update_self, Option.some.injEq] at hi
            subst hi
            exact ⟨by dsimp only; omega, fun j hj => hrope _ _ _ o.2.2 hj⟩
          · rw [Function.update_of_ne hik] at hi
            exact hb.2 i nd hi
        · exact hb
      | done => exact hb
      | fault => exact hb
  exact this sched _ _ inv_init ⟨fun i lf h => by simp [initState] at h, fun i nd h => by simp [initState] at h⟩

/-! ## Property theorems -/

/-- **C91.** Up to `2^30` values the construction of the tree does not overflow the `int`s of its node numbers, whatever the schedule: with `int`s it does the
same as with natural numbers, so all theorems about `Input.build` are theorems about the code with `int`s. -/
theorem int_construction (I : Input α V w) (h : I.Valid) (hbig : I.n ≤ 2 ^ 30) (sched : List ℕ) :
    I.buildI sched = I.build sched ∧ (I.FinishedI sched ↔ I.Finished sched) := by
  by_cases hn : 2 ≤ I.n
  · have e := runI_eq (h.keys hn).good (P := I.params) (by show I.n - 1 < 2 ^ 30; omega) sched
    unfold Input.buildI Input.build Input.FinishedI Input.Finished
    rw [e]
    exact ⟨rfl, Iff.rfl⟩
  · unfold Input.buildI Input.build Input.FinishedI Input.Finished
    refine ⟨?_, ⟨fun _ h => absurd h hn, fun _ h => absurd h hn⟩⟩
    by_cases h0 : I.n = 0
    · rw [if_pos h0, if_pos h0]
    · rw [if_neg h0, if_neg h0, if_pos (by omega), if_pos (by omega)]

/-- **C91 (defect).** With more than `2^30` values the construction never finishes without an overflow: whatever the schedule, there is a thread that has not
returned, and once the kernel ends one has computed a node number that is not an `int`. -/
theorem int_construction_overflow (I : Input α V w) (h : I.Valid) (hbig : 2 ^ 30 < I.n) (sched : List ℕ) :
    ¬ I.FinishedI sched ∧ (I.Finished sched → ∃ t < I.n, (runI I.params sched).thr t = .fault) := by
  have hn : 2 ≤ I.n := by omega
  have hm : 2 ^ 30 ≤ I.params.m := by show 2 ^ 30 ≤ I.n - 1; omega
  have g := (h.keys hn).good
  have key : ∀ s, s = run I.params sched → (run I.params sched).internal (I.params.m - 1) = none → ¬ Complete I.params s := by
    intro s e hnone hc
    rw [e] at hc
    obtain ⟨blk, hI⟩ := inv_run g sched
    obtain ⟨T, hT⟩ := hI.complete g hc
    have := hT.written.2 (I.params.m - 1) (by omega) (by omega)
    rw [hnone] at this
    exact absurd this (by simp)
  rcases runI_large hm sched with ⟨e, hnone⟩ | ⟨t, ht, hf⟩
  · exact ⟨fun hF => key _ e hnone (hF hn), fun hF => absurd (hF hn) (key _ rfl hnone)⟩
  · refine ⟨fun hF => ?_, fun _ => ⟨t, ?_, hf⟩⟩
    · have := hF hn t ht
      rw [hf] at this
      cases this
    · have : t ≤ I.n - 1 := ht
      omega

/-- **C91.** A spatial query on up to `2^30` values (less than `2^30` in builds with assertions) does not overflow either: on the tree built with `int`s, with
`int`s as node numbers, it calls the callback on exactly the values the predicate accepts. -/
theorem int_query (debug : Bool) (I : Input α V w) (h : I.Valid) (hbig : I.n ≤ 2 ^ 30) (hdebug : debug = true → I.n < 2 ^ 30) (pl : α → Bool) (pv : V → Bool)
    (hmono : Traversal.Monotone I.vol pl pv) (sched : List ℕ) (hf : I.FinishedI sched) (fuel : ℕ) (hfuel : 2 * I.n ≤ fuel) :
    ∃ out, spatialQueryI debug (I.buildI sched) pl pv (fun _ => false) fuel = .done out ∧ out.Perm (I.stored.filter pl) := by
  obtain ⟨e, e'⟩ := int_construction I h hbig sched
  obtain ⟨order, ho, hq⟩ := spatial_query I h pl pv hmono
  obtain ⟨out, h1, -, -, h2⟩ := hq sched (e'.mp hf) (fun _ => false) fuel hfuel
  refine ⟨out, ?_, by rw [h2.resolve_right (by simp)]; exact ho⟩
  rw [← h1, e]
  unfold spatialQueryI spatialQuery
  by_cases h0 : (I.build sched).size = 0
  · rw [if_pos h0, if_pos h0]
  · by_cases h3 : (I.build sched).size = 1
    · rw [if_neg h0, if_neg h0, if_pos h3, if_pos h3]
    · rw [if_neg h0, if_neg h0, if_neg h3, if_neg h3]
      rw [build_size] at h0 h3
      have hb : Below (I.build sched) (2 ^ 31) := by
        unfold Input.build
        rw [if_neg h0, if_neg h3]
        exact I.run_below h (by omega) hbig sched
      exact spatialLoopI_eq (by rw [build_size]; omega) (by rw [build_size]; exact hbig) (by rw [build_size]; exact hdebug) hb _ _ _ _ _ _
        (fun j hj => by cases hj; rw [build_size]; omega)

/-- **C91 (defect).** In builds with assertions a query on a tree of exactly `2^30` values overflows in an assertion. -/
theorem int_query_debug_overflow (I : Input α V w) (hn : I.n = 2 ^ 30) (pl : α → Bool) (pv : V → Bool) (stop : List α → Bool) (sched : List ℕ) (fuel : ℕ) :
    spatialQueryI true (I.buildI sched) pl pv stop (fuel + 1) = .fault := by
  have hs : (I.buildI sched).size = 2 ^ 30 := by
    unfold Input.buildI
    rw [if_neg (by omega), if_neg (by omega)]
    exact hn
  unfold spatialQueryI
  rw [if_neg (by rw [hs]; norm_num), if_neg (by rw [hs]; norm_num), spatialLoopI, if_neg]
  intro hi
  have := (hi (2 * ((I.buildI sched).size : ℤ)) (by simp [nodeInts])).2
  rw [hs] at this
  norm_num at this

/-! ## Non-vacuity -/

/-- Any number of values at the same place, with codes zero. -/
def equalValues (n : ℕ) : Input ℕ (Finset ℕ) 64 := ⟨n, fun i => i, fun a => {a}, fun _ => 0, fun i => i⟩

lemma equalValues_valid {n : ℕ} (hn : n ≤ 2 ^ 63) : (equalValues n).Valid where
  width := by norm_num
  fits := hn
  sorted := ⟨by show ((List.range n).map (fun i => i)).Perm (List.range n); rw [List.map_id'], fun _ _ => le_rfl⟩
  top := fun _ _ => by show (0 : BitVec 64).toNat < _; simp

/-- `int_query` applies to a billion values. -/
example : ∃ sched out, spatialQueryI true ((equalValues 1000000000).buildI sched) (fun a => a == 7) (fun v => 7 ∈ v) (fun _ => false) 2000000000 = .done out ∧
    out.Perm ((equalValues 1000000000).stored.filter (fun a => a == 7)) := by
  have hv := equalValues_valid (show 1000000000 ≤ 2 ^ 63 by norm_num)
  obtain ⟨sched, hs⟩ := Construction.exists_complete (equalValues 1000000000).params (hv.keys (by show 2 ≤ 1000000000; norm_num))
  have hbig : (equalValues 1000000000).n < 2 ^ 30 := by show 1000000000 < 2 ^ 30; norm_num
  have hf := (int_construction (equalValues 1000000000) hv hbig.le sched).2.mpr (fun _ => hs)
  obtain ⟨out, h1, h2⟩ := int_query true (equalValues 1000000000) hv hbig.le (fun _ => hbig) (fun a => a == 7) (fun v => 7 ∈ v)
    (by
      intro a v ha h7
      have : a = 7 := by simpa using h7
      subst this
      exact decide_eq_true (ha (Finset.mem_singleton_self _)))
    sched hf 2000000000 (by show 2 * 1000000000 ≤ 2000000000; norm_num)
  exact ⟨sched, out, h1, h2⟩

/-- `int_construction_overflow` applies, and the kernel with natural numbers would finish. -/
example : ∃ sched, ∃ t < 2 ^ 30 + 1, (runI (equalValues (2 ^ 30 + 1)).params sched).thr t = .fault := by
  have hv := equalValues_valid (show 2 ^ 30 + 1 ≤ 2 ^ 63 by norm_num)
  obtain ⟨sched, hs⟩ := Construction.exists_complete (equalValues (2 ^ 30 + 1)).params (hv.keys (by show 2 ≤ 2 ^ 30 + 1; norm_num))
  exact ⟨sched, (int_construction_overflow _ hv (by show 2 ^ 30 < 2 ^ 30 + 1; norm_num) sched).2 (fun _ => hs)⟩

end BVH

end ArborX
