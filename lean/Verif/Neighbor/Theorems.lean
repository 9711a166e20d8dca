import Verif.Neighbor.Lemmas

/-!
# Property theorems: neighbour lists (C10)
-/

set_option linter.unusedSectionVars false

namespace ArborX.Neighbor

open Crs BVH Traversal

/-! ## Specification -/

/-- Rows of a half neighbour list of `n` points: rows hold point numbers, no row holds its own
number, and a pair of distinct points is stored once, in one of the two rows, if the points are
near, and not at all otherwise. -/
def IsHalf (n : ℕ) (near : ℕ → ℕ → Bool) (rows : ℕ → List ℕ) : Prop :=
  (∀ i < n, ∀ j ∈ rows i, j < n ∧ j ≠ i) ∧
  ∀ i < n, ∀ j < n, i ≠ j → (rows i).count j + (rows j).count i = if near i j then 1 else 0

/-- Rows of a full neighbour list: row `i` holds exactly the other points near point `i`, each
once. -/
def IsFull (n : ℕ) (near : ℕ → ℕ → Bool) (rows : ℕ → List ℕ) : Prop :=
  ∀ i < n, (rows i).Perm ((List.range n).filter (fun j => decide (j ≠ i) && near i j))

/-! ## Pairs -/

lemma mem_pairs {β : Type} {l : List β} (h : l.Nodup) (a b : β) :
    s(a, b) ∈ (pairs l).map (fun p => s(p.1, p.2)) ↔ a ∈ l ∧ b ∈ l ∧ a ≠ b := by
  induction l with
  | nil => simp [pairs]
  | cons x l ih =>
    have hx := (List.nodup_cons.mp h).1
    simp only [pairs, List.map_append, List.map_map, List.mem_append, ih (List.nodup_cons.mp h).2,
      List.mem_map, Function.comp, List.mem_cons]
    constructor
    · rintro (⟨y, hy, he⟩ | ⟨h1, h2, h3⟩)
      · rcases Sym2.eq_iff.mp he with ⟨rfl, rfl⟩ | ⟨rfl, rfl⟩
        · exact ⟨.inl rfl, .inr hy, fun e => hx (e ▸ hy)⟩
        · exact ⟨.inr hy, .inl rfl, fun e => hx (e ▸ hy)⟩
      · exact ⟨.inr h1, .inr h2, h3⟩
    · rintro ⟨rfl | h1, rfl | h2, h3⟩
      · exact absurd rfl h3
      · exact .inl ⟨b, h2, rfl⟩
      · exact .inl ⟨a, h1, Sym2.eq_swap⟩
      · exact .inr ⟨h1, h2, h3⟩

lemma nodup_pairs {β : Type} {l : List β} (h : l.Nodup) :
    ((pairs l).map (fun p => s(p.1, p.2))).Nodup := by
  induction l with
  | nil => simp [pairs]
  | cons x l ih =>
    have hx := (List.nodup_cons.mp h).1
    have hl := (List.nodup_cons.mp h).2
    simp only [pairs, List.map_append, List.map_map]
    rw [List.nodup_append]
    refine ⟨?_, ih hl, ?_⟩
    · refine hl.map_on ?_
      intro a ha b hb he
      simp only [Function.comp] at he
      rcases Sym2.eq_iff.mp he with ⟨-, h⟩ | ⟨h1, h2⟩
      · exact h
      · rw [h2, h1]
    · intro e he e' he' hee
      subst hee
      obtain ⟨y, hy, rfl⟩ := List.mem_map.mp he
      have := (mem_pairs hl x y).mp he'
      exact hx this.1

/-- the two rows of a pair together hold it as often as the list of pairs -/
lemma count_rows (P : List (ℕ × ℕ)) {i j : ℕ} (hij : i ≠ j) :
    (inRow P i).count j + (inRow P j).count i = (P.map (fun p => s(p.1, p.2))).count s(i, j) := by
  induction P with
  | nil => simp [inRow]
  | cons p P ih =>
    rcases p with ⟨a, b⟩
    simp only [inRow, List.filter_cons, List.map_cons, List.count_cons] at ih ⊢
    by_cases h1 : b = i <;> by_cases h2 : b = j
    · exact absurd (h1.symm.trans h2) hij
    · subst h1
      by_cases ha : a = j
      · subst ha
        simp [h2, List.count_cons, Sym2.eq_swap] at ih ⊢
        omega
      · have hs : ¬ s(a, b) = s(b, j) := by
          intro he
          rcases Sym2.eq_iff.mp he with ⟨_, h⟩ | ⟨h, _⟩
          · exact h2 h
          · exact ha h
        simp [h2, List.count_cons, ha, hs] at ih ⊢
        omega
    · subst h2
      by_cases ha : a = i
      · subst ha
        simp [h1, List.count_cons] at ih ⊢
        omega
      · have hs : ¬ s(a, b) = s(i, b) := by
          intro he
          rcases Sym2.eq_iff.mp he with ⟨h, _⟩ | ⟨_, h⟩
          · exact ha h
          · exact h1 h
        simp [h1, List.count_cons, ha, hs] at ih ⊢
        omega
    · have hs : ¬ s(a, b) = s(i, j) := by
        intro he
        rcases Sym2.eq_iff.mp he with ⟨_, h⟩ | ⟨_, h⟩
        · exact h2 h
        · exact h1 h
      simp [h1, h2, hs] at ih ⊢
      omega

lemma count_out (P : List (ℕ × ℕ)) (i j : ℕ) : (outRow P i).count j = (inRow P j).count i := by
  induction P with
  | nil => simp [inRow, outRow]
  | cons p P ih =>
    rcases p with ⟨a, b⟩
    simp only [inRow, outRow, List.filter_cons] at ih ⊢
    by_cases h1 : a = i <;> by_cases h2 : b = j <;> simp [h1, h2, List.count_cons] at ih ⊢ <;> omega

/-- a list of pairs whose unordered pairs are the near pairs of `0, ..., n-1` -/
def NearPairs (n : ℕ) (near : ℕ → ℕ → Bool) (P : List (ℕ × ℕ)) : Prop :=
  (P.map (fun p => s(p.1, p.2))).Perm
    (((pairs (List.range n)).filter (fun p => near p.1 p.2)).map (fun p => s(p.1, p.2)))

lemma NearPairs.count {n : ℕ} {near : ℕ → ℕ → Bool} {P : List (ℕ × ℕ)} (h : NearPairs n near P)
    (symm : ∀ i j, near i j = near j i) (i j : ℕ) :
    (P.map (fun p => s(p.1, p.2))).count s(i, j) = if i < n ∧ j < n ∧ i ≠ j ∧ near i j then 1 else 0 := by
  rw [h.count_eq]
  let q : Sym2 ℕ → Bool := Sym2.lift ⟨near, symm⟩
  have conv : ((pairs (List.range n)).filter (fun p => near p.1 p.2)).map (fun p => s(p.1, p.2))
      = ((pairs (List.range n)).map (fun p => s(p.1, p.2))).filter q := by
    rw [List.filter_map]; rfl
  rw [conv]
  have hnd := (nodup_pairs (List.nodup_range (n := n))).filter q
  rw [List.Nodup.count hnd]
  have : s(i, j) ∈ ((pairs (List.range n)).map (fun p => s(p.1, p.2))).filter q ↔
      i < n ∧ j < n ∧ i ≠ j ∧ near i j = true := by
    rw [List.mem_filter, mem_pairs List.nodup_range]
    simp only [List.mem_range, q, Sym2.lift_mk]
    tauto
  simp only [this]

lemma NearPairs.lt {n : ℕ} {near : ℕ → ℕ → Bool} {P : List (ℕ × ℕ)} (h : NearPairs n near P)
    (symm : ∀ i j, near i j = near j i) {p : ℕ × ℕ} (hp : p ∈ P) : p.1 < n ∧ p.2 < n ∧ p.1 ≠ p.2 := by
  have hm : s(p.1, p.2) ∈ P.map (fun p => s(p.1, p.2)) := List.mem_map_of_mem hp
  have := List.count_pos_iff.mpr hm
  rw [h.count symm] at this
  split_ifs at this with hc
  · exact ⟨hc.1, hc.2.1, hc.2.2.1⟩
  · omega

lemma NearPairs.isHalf {n : ℕ} {near : ℕ → ℕ → Bool} {P : List (ℕ × ℕ)} (h : NearPairs n near P)
    (symm : ∀ i j, near i j = near j i) {rows : ℕ → List ℕ} (hr : ∀ q < n, (rows q).Perm (inRow P q)) :
    IsHalf n near rows := by
  constructor
  · intro i hi j hj
    have := (hr i hi).mem_iff.mp hj
    obtain ⟨p, hp, rfl⟩ := List.mem_map.mp this
    obtain ⟨hp, he⟩ := List.mem_filter.mp hp
    have he : p.2 = i := by simpa using he
    have := h.lt symm hp
    exact ⟨this.1, by rw [← he]; exact this.2.2⟩
  · intro i hi j hj hij
    rw [(hr i hi).count_eq, (hr j hj).count_eq, count_rows P hij, h.count symm]
    simp [hi, hj, hij]

/-- Rows holding each near pair in both of its rows. -/
lemma isFull_of_count {n : ℕ} {near : ℕ → ℕ → Bool} {rows : ℕ → List ℕ}
    (h : ∀ i < n, ∀ j, (rows i).count j = if j < n ∧ j ≠ i ∧ near i j then 1 else 0) :
    IsFull n near rows := by
  intro i hi
  rw [List.perm_iff_count]
  intro j
  rw [h i hi j, List.Nodup.count (List.nodup_range.filter _)]
  simp only [List.mem_filter, List.mem_range, Bool.and_eq_true, decide_eq_true_eq]

lemma NearPairs.isFull {n : ℕ} {near : ℕ → ℕ → Bool} {P : List (ℕ × ℕ)} (h : NearPairs n near P)
    (symm : ∀ i j, near i j = near j i) {rows : ℕ → List ℕ}
    (hr : ∀ q < n, (rows q).Perm (inRow P q ++ outRow P q)) : IsFull n near rows := by
  apply isFull_of_count
  intro i hi j
  rw [(hr i hi).count_eq, List.count_append, count_out]
  by_cases hij : i = j
  · subst hij
    have : (inRow P i).count i = 0 := by
      rw [List.count_eq_zero]
      intro hm
      obtain ⟨p, hp, he'⟩ := List.mem_map.mp hm
      obtain ⟨hp, he⟩ := List.mem_filter.mp hp
      have he : p.2 = i := by simpa using he
      exact (h.lt symm hp).2.2 (by rw [he]; exact he')
    simp [this]
  · rw [count_rows P hij, h.count symm]
    simp [hi, hij, Ne.symm hij]

/-! ## The half traversal on points with their indices -/

section
variable {X V : Type} {w : ℕ} [SemilatticeSup V] [OrderBot V]

/-- The calls `(value1.index, value2.index)` made by thread `t` of the half traversal
(`src/spatial/detail/ArborX_HalfTraversal.hpp`; the values are pairs of a point and its
index). -/
def halfCalls (mem : Mem (X × ℕ) V) (pl : X × ℕ → X × ℕ → Bool) (pv : X × ℕ → V → Bool) (fuel t : ℕ) :
    List (ℕ × ℕ) :=
  match mem.leaf t, halfQuery mem pl pv fuel t with
  | some lf, .done calls => calls.map (fun b => (lf.value.2, b.2))
  | _, _ => []

lemma halfPairs_calls {mem : Mem (X × ℕ) V} {pl : X × ℕ → X × ℕ → Bool} {pv : X × ℕ → V → Bool} {fuel : ℕ}
    (l : List ℕ) : ∀ {R}, halfPairs mem pl pv fuel l = some R →
      R.map (fun p => (p.1.2, p.2.2)) = l.flatMap (halfCalls mem pl pv fuel) := by
  induction l with
  | nil => intro R h; simp [halfPairs] at h; subst h; rfl
  | cons i l ih =>
    intro R h
    rw [halfPairs] at h
    rcases hlf : mem.leaf i with _ | lf
    · rw [hlf] at h; simp at h
    rcases hq : halfQuery mem pl pv fuel i with calls | _ | _
    · rcases hr : halfPairs mem pl pv fuel l with _ | rest
      · rw [hlf, hq, hr] at h; simp at h
      · rw [hlf, hq, hr] at h
        simp only [Option.some.injEq] at h
        subst h
        rw [List.map_append, List.flatMap_cons, ih hr]
        simp [halfCalls, hlf, hq, Function.comp_def]
    all_goals (rw [hlf, hq] at h; simp at h)

lemma pairs_map {β γ : Type} (f : β → γ) (l : List β) :
    pairs (l.map f) = (pairs l).map (fun p => (f p.1, f p.2)) := by
  induction l with
  | nil => rfl
  | cons x l ih => simp [pairs, ih, Function.comp_def]

lemma nearPairs_half (I : Input (X × ℕ) V w) (h : I.Valid) (x : ℕ → X) (hval : ∀ i, I.values i = (x i, i))
    (near : X → X → Bool) (symm : ∀ a b, near a b = near b a) (pv : X × ℕ → V → Bool)
    (mono : ∀ a, Traversal.Monotone I.vol (fun b => near a.1 b.1) (pv a)) (sched : List ℕ)
    (hf : I.Finished sched) (fuel : ℕ) (hfuel : 2 * I.n ≤ fuel) :
    NearPairs I.n (fun i j => near (x i) (x j)) ((List.range I.n).flatMap
      (halfCalls (I.build sched) (fun a b => near a.1 b.1) pv fuel)) := by
  obtain ⟨R, hR, hp⟩ := half_traversal_exact I h (fun a b => near a.1 b.1) pv
    (fun a b => symm a.1 b.1) mono sched hf fuel hfuel
  rw [← halfPairs_calls _ hR]
  unfold NearPairs
  have := hp.map (Sym2.map Prod.snd)
  rw [List.map_map, List.map_map] at this
  have e : I.stored = (List.range I.n).map (fun i => (x i, i)) := by
    unfold Input.stored
    exact List.map_congr_left (fun i _ => hval i)
  rw [e, pairs_map, List.filter_map, List.map_map] at this
  rw [List.map_map]
  exact this

/-- **C10, half list.** For any points, any symmetric "within the radius" relation that the
bounding volumes respect, any schedules of the construction and of the two passes:
`findHalfNeighborList` returns the compressed row storage of a half neighbour list. -/
theorem half_neighbor_list (I : Input (X × ℕ) V w) (h : I.Valid) (x : ℕ → X)
    (hval : ∀ i, I.values i = (x i, i))
    (near : X → X → Bool) (symm : ∀ a b, near a b = near b a) (pv : X × ℕ → V → Bool)
    (mono : ∀ a, Traversal.Monotone I.vol (fun b => near a.1 b.1) (pv a)) (sched : List ℕ)
    (hf : I.Finished sched) (fuel : ℕ) (hfuel : 2 * I.n ≤ fuel) (sched1 sched2 : List ℕ)
    (hrun : findHalf I.n I.n (halfCalls (I.build sched) (fun a b => near a.1 b.1) pv fuel) sched1 sched2
      ≠ .running) :
    ∃ rows offsets out,
      findHalf I.n I.n (halfCalls (I.build sched) (fun a b => near a.1 b.1) pv fuel) sched1 sched2
        = .done offsets out ∧
      IsCrs I.n rows offsets out ∧ IsHalf I.n (fun i j => near (x i) (x j)) rows := by
  have hP := nearPairs_half I h x hval near symm pv mono sched hf fuel hfuel
  have hs : ∀ i j, near (x i) (x j) = near (x j) (x i) := fun i j => symm _ _
  rcases findHalf_spec (n := I.n) (nt := I.n) (fun p hp => (hP.lt hs hp).2.1) sched1 sched2 with hr | hr
  · exact absurd hr hrun
  · obtain ⟨rows, offsets, out, h1, h2, h3⟩ := hr
    exact ⟨rows, offsets, out, h1, h2, hP.isHalf hs (fun q _ => h3 q)⟩

/-- **C10, full list.** The same for `findFullNeighborList` and a full neighbour list; its
three kernels run under any schedules, and none reads an entry not yet written. -/
theorem full_neighbor_list (I : Input (X × ℕ) V w) (h : I.Valid) (x : ℕ → X)
    (hval : ∀ i, I.values i = (x i, i))
    (near : X → X → Bool) (symm : ∀ a b, near a b = near b a) (pv : X × ℕ → V → Bool)
    (mono : ∀ a, Traversal.Monotone I.vol (fun b => near a.1 b.1) (pv a)) (sched : List ℕ)
    (hf : I.Finished sched) (fuel : ℕ) (hfuel : 2 * I.n ≤ fuel) (sched1 sched2 sched3 : List ℕ)
    (hrun : findFull I.n I.n (halfCalls (I.build sched) (fun a b => near a.1 b.1) pv fuel) sched1 sched2
      sched3 ≠ .running) :
    ∃ rows offsets out,
      findFull I.n I.n (halfCalls (I.build sched) (fun a b => near a.1 b.1) pv fuel) sched1 sched2 sched3
        = .done offsets out ∧
      IsCrs I.n rows offsets out ∧ IsFull I.n (fun i j => near (x i) (x j)) rows := by
  have hP := nearPairs_half I h x hval near symm pv mono sched hf fuel hfuel
  have hs : ∀ i j, near (x i) (x j) = near (x j) (x i) := fun i j => symm _ _
  rcases findFull_spec (n := I.n) (nt := I.n) (fun p hp => ⟨(hP.lt hs hp).1, (hP.lt hs hp).2.1⟩)
    sched1 sched2 sched3 with hr | hr
  · exact absurd hr hrun
  · obtain ⟨rows, offsets, out, h1, h2, h3⟩ := hr
    exact ⟨rows, offsets, out, h1, h2, hP.isFull hs h3⟩

end

/-- **C10, expansion.** `expandHalfToFull` turns the compressed row storage of any half
neighbour list into that of the full one, under any schedules of its two kernels. -/
theorem expand_half_to_full {n : ℕ} {near : ℕ → ℕ → Bool} (symm : ∀ i j, near i j = near j i)
    {half : ℕ → List ℕ} (hhalf : IsHalf n near half) {offsets indices : ℕ → ℕ}
    (hoff : ∀ i ≤ n, offsets i = ((List.range i).flatMap half).length)
    (hind : ∀ (p k : ℕ), ((List.range n).flatMap half)[p]? = some k → indices p = k)
    (sched1 sched2 : List ℕ) (hrun : expand n offsets indices sched1 sched2 ≠ .running) :
    ∃ rows offs out, expand n offsets indices sched1 sched2 = .done offs out ∧
      IsCrs n rows offs out ∧ IsFull n near rows := by
  have hrow : ∀ i < n, half i = (List.range (offsets (i + 1) - offsets i)).map
      (fun j => indices (offsets i + j)) := by
    intro i hi
    have e1 : offsets (i + 1) - offsets i = (half i).length := by
      rw [hoff (i + 1) (by omega), hoff i (by omega), List.range_succ]
      simp
    rw [e1]
    apply List.ext_getElem?
    intro j
    rw [List.getElem?_map]
    rcases Nat.lt_or_ge j (half i).length with hj | hj
    · rw [List.getElem?_range hj, List.getElem?_eq_getElem hj, Option.map_some]
      congr 1
      symm
      apply hind
      have hsplit : List.range n = List.range i ++ ([i] ++ (List.range (n - (i + 1))).map (· + (i + 1))) := by
        have h1 : n = i + 1 + (n - (i + 1)) := by omega
        conv_lhs => rw [h1, List.range_add, List.range_succ]
        rw [List.append_assoc]
        congr 2
        apply List.map_congr_left
        intro a _
        omega
      rw [hsplit, List.flatMap_append, hoff i (by omega), List.getElem?_append_right (by omega),
        Nat.add_sub_cancel_left, List.flatMap_append, List.getElem?_append_left (by simpa using hj)]
      simp [List.getElem?_eq_getElem hj]
    · rw [List.getElem?_eq_none (by simpa using hj), List.getElem?_eq_none (by simpa using hj)]
      rfl
  rcases expand_spec hrow (fun i hi k hk => (hhalf.1 i hi k hk).1) sched1 sched2 with hr | hr
  · exact absurd hr hrun
  · obtain ⟨rows, offs, out, h1, h2, h3⟩ := hr
    refine ⟨rows, offs, out, h1, h2, isFull_of_count ?_⟩
    intro i hi j
    rw [(h3 i hi).count_eq]
    unfold expandRow
    rw [List.count_append]
    have hcnt : ∀ m ≤ n, ((List.range m).flatMap (fun j => ((half j).filter (fun k => decide (k = i))).map
        (fun _ => j))).count j = if j < m then (half j).count i else 0 := by
      intro m hm
      induction m with
      | zero => simp
      | succ m ih =>
        rw [List.range_succ, List.flatMap_append, List.count_append, ih (by omega)]
        simp only [List.flatMap_cons, List.flatMap_nil, List.append_nil, List.map_const']
        rw [List.count_replicate]
        have hfl : ((half m).filter (fun k => decide (k = i))).length = (half m).count i := by
          rw [List.count, List.countP_eq_length_filter]
          congr 1
        rw [hfl]
        rcases lt_trichotomy j m with h | h | h
        · simp [h, show j < m + 1 by omega, show ¬ m = j by omega]
        · subst h; simp
        · simp [show ¬ j < m by omega, show ¬ j < m + 1 by omega, show ¬ m = j by omega]
    rw [hcnt n le_rfl]
    by_cases hj : j < n
    · by_cases hij : j = i
      · subst hij
        have : (half j).count j = 0 := by
          rw [List.count_eq_zero]
          intro hm
          exact (hhalf.1 j hj j hm).2 rfl
        simp [this]
      · rw [if_pos hj, hhalf.2 i hi j hj (Ne.symm hij)]
        simp [hj, hij]
    · have : (half i).count j = 0 := by
        rw [List.count_eq_zero]
        intro hm
        exact hj (hhalf.1 i hi j hm).1
      simp [hj, this]

/-! ## Termination: schedules that let every thread finish -/

theorem half_terminates {n nt : ℕ} {calls : ℕ → List (ℕ × ℕ)} {sched1 sched2 : List ℕ}
    (h1 : ∀ t < nt, 2 * (calls t).length ≤ sched1.count t)
    (h2 : ∀ t < nt, 2 * (calls t).length ≤ sched2.count t) :
    findHalf n nt calls sched1 sched2 ≠ .running := by
  have f1 : Fair nt (fun t => (calls t).map (fun p => (p.2, p.1))) sched1 := by
    intro t ht; simpa using h1 t ht
  have f2 : Fair nt (fun t => (calls t).map (fun p => (p.2, p.1))) sched2 := by
    intro t ht; simpa using h2 t ht
  unfold findHalf
  simp only [pass_terminates f1, pass_terminates f2]
  repeat' split
  all_goals simp_all

theorem expand_terminates {n : ℕ} {offsets indices : ℕ → ℕ} {sched1 : List ℕ}
    (h1 : ∀ i < n, 4 * (offsets (i + 1) - offsets i) ≤ sched1.count i) :
    ∃ N, ∀ sched2 : List ℕ, (∀ t < N, 4 ≤ sched2.count t) →
      expand n offsets indices sched1 sched2 ≠ .running := by
  have f1 : Fair n (fun i => ((List.range (offsets (i + 1) - offsets i)).map
      (fun j => indices (offsets i + j))).flatMap (fun k => [(i, k), (k, i)])) sched1 := by
    intro i hi
    have := h1 i hi
    simp only [List.flatMap_map, List.length_flatMap, List.length_cons, List.length_nil, List.map_const',
      List.length_range, List.sum_replicate, smul_eq_mul]
    omega
  obtain ⟨items, hitems⟩ : ∃ items, items = (List.range n).flatMap (fun i =>
    ((List.range (offsets (i + 1) - offsets i)).map
      (fun j => indices (offsets i + j))).map (fun k => (i, k))) := ⟨_, rfl⟩
  refine ⟨items.length, fun sched2 h2 => ?_⟩
  have f2 : Fair items.length (fun t => (items[t]?).elim [] (fun x => [(x.1, x.2), (x.2, x.1)])) sched2 := by
    intro t ht
    have := h2 t ht
    simp only [List.getElem?_eq_getElem ht, Option.elim_some, List.length_cons, List.length_nil]
    omega
  unfold expand
  dsimp only
  rw [pass_terminates f1, ← hitems, pass_terminates f2]
  simp only [Bool.not_true, Bool.false_eq_true, if_false]
  split <;> simp

/-- steps a thread of the copy kernel still has to make -/
def copyRemaining : Copy → ℕ
  | .start _ _ => 3
  | .got _ _ => 2
  | .pend _ _ => 1
  | .done => 0

lemma copy_run (nt len t : ℕ) (ht : t < nt) (sched : List ℕ) : ∀ s : CopyState,
    copyRemaining (s.thr t) ≤ sched.count t → (sched.foldl (copyStep nt len) s).thr t = .done := by
  induction sched with
  | nil =>
    intro s hs
    simp only [List.count_nil, Nat.le_zero] at hs
    rw [List.foldl_nil]
    revert hs
    cases s.thr t <;> simp [copyRemaining]
  | cons u sched ih =>
    intro s hs
    simp only [List.foldl_cons]
    apply ih
    unfold copyStep
    by_cases hut : u = t
    · subst hut
      rw [List.count_cons_self] at hs
      rw [if_neg (by omega)]
      rcases hc : s.thr u with ⟨i, loc⟩ | ⟨i, k⟩ | ⟨slot, i⟩ | _
      · rw [hc] at hs
        dsimp only
        cases s.out loc <;> simp [copyRemaining] at hs ⊢ <;> omega
      all_goals
        rw [hc] at hs
        simp [copyRemaining, hc] at hs ⊢ <;> omega
    · rw [List.count_cons_of_ne hut] at hs
      have hne : t ≠ u := fun h => hut h.symm
      split_ifs
      · exact hs
      · rcases hc : s.thr u with ⟨i, loc⟩ | ⟨i, k⟩ | ⟨slot, i⟩ | _
        · dsimp only
          cases s.out loc <;> simpa [Function.update_of_ne hne] using hs
        all_goals simpa [Function.update_of_ne hne] using hs

theorem full_terminates {n nt : ℕ} {calls : ℕ → List (ℕ × ℕ)} {sched1 sched2 : List ℕ}
    (h1 : ∀ t < nt, 4 * (calls t).length ≤ sched1.count t)
    (h2 : ∀ t < nt, 2 * (calls t).length ≤ sched2.count t) :
    ∃ N, ∀ sched3 : List ℕ, (∀ t < N, 3 ≤ sched3.count t) →
      findFull n nt calls sched1 sched2 sched3 ≠ .running := by
  have f1 : Fair nt (fun t => (calls t).flatMap (fun p => [(p.1, p.2), (p.2, p.1)])) sched1 := by
    intro t ht
    have := h1 t ht
    simp only [List.length_flatMap, List.length_cons, List.length_nil, List.map_const',
      List.sum_replicate, smul_eq_mul]
    omega
  have f2 : Fair nt (fun t => (calls t).map (fun p => (p.2, p.1))) sched2 := by
    intro t ht; simpa using h2 t ht
  set counts1 := (runPass nt (fun t => (calls t).flatMap (fun p => [(p.1, p.2), (p.2, p.1)])) noTarget
    (fun _ => 0) 0 (fun _ => none) sched1).counts with hc1
  set counts2 := (runPass nt (fun t => (calls t).map (fun p => (p.2, p.1))) target2 (Crs.scan counts1)
    (Crs.scan counts1 n) (fun _ => none) sched2).counts with hc2
  refine ⟨(copyItems n (Crs.scan counts1) counts2).length, fun sched3 h3 => ?_⟩
  have hall : ∀ (items : List (ℕ × ℕ)) (s : CopyState) (len : ℕ), (∀ t < items.length, 3 ≤ sched3.count t) →
      (List.range items.length).all (fun t =>
        decide ((sched3.foldl (copyStep items.length len) s).thr t = .done)) = true := by
    intro items s len h
    rw [List.all_eq_true]
    intro t ht
    have ht := List.mem_range.mp ht
    rw [decide_eq_true_eq]
    apply copy_run _ _ _ ht
    have := h t ht
    have : copyRemaining (s.thr t) ≤ 3 := by cases s.thr t <;> simp [copyRemaining]
    omega
  unfold findFull
  dsimp only
  rw [pass_terminates f1, pass_terminates f2, ← hc1, ← hc2, hall _ _ _ h3]
  simp only [Bool.not_true, Bool.false_eq_true, if_false]
  split
  · simp
  · split <;> simp

/-! ## Non-vacuity: three points on a line, radius 1 -/

/-- half list of the example -/
def exampleHalf : ℕ → List ℕ := fun i => [[], [0], [1]].getD i []

/-- points `0, 1, 2` and radius 1 -/
def exampleNear (i j : ℕ) : Bool := decide (i ≤ j + 1 ∧ j ≤ i + 1)

example : IsHalf 3 exampleNear exampleHalf := by
  unfold IsHalf; decide

example : expand 3 (fun i => [0, 0, 1, 2].getD i 0) (fun i => [0, 1].getD i 0)
    ((List.range 8).flatMap (fun _ => [2, 0, 1])) ((List.range 8).flatMap (fun _ => [1, 0])) =
    .done [0, 1, 3, 4] [some 1, some 0, some 2, some 1] := by decide

example : findFull 3 2 (fun t => [[(0, 1)], [(1, 2)]].getD t []) [1, 0, 0, 1, 1, 1, 0, 0]
    [0, 1, 0, 1] [1, 0, 0, 1, 1, 0] = .done [0, 1, 3, 4] [some 1, some 0, some 2, some 1] := by decide

example : findHalf 3 2 (fun t => [[(0, 1)], [(1, 2)]].getD t []) [1, 0, 0, 1, 1, 1, 0, 0]
    [0, 1, 0, 1] = .done [0, 0, 1, 2] [some 0, some 1] := by decide

end ArborX.Neighbor
