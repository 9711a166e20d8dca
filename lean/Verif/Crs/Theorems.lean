import Verif.Crs.Pass
import Verif.Nearest.Theorems
import Verif.Traversal.Theorems

/-!
# Property theorems: queries returning compressed row storage (C09)
-/

set_option linter.unusedSectionVars false

namespace ArborX.Crs

open Function (update)

variable {T : Type}

/-! ## Specification -/

/-- `offset` and `out` are the compressed row storage of the rows `rows 0, ..., rows (n-1)`:
`offset` has `n + 1` entries, entry `i` is the number of values in the rows before row `i`,
and `out` is the concatenation of the rows, with nothing uninitialised. -/
def IsCrs (n : ℕ) (rows : ℕ → List T) (offset : List ℕ) (out : List (Option T)) : Prop :=
  offset.length = n + 1 ∧ (∀ i ≤ n, offset[i]? = some ((List.range i).flatMap rows).length) ∧
    out = ((List.range n).flatMap rows).map some

/-- The threads of a traversal insert, for the predicate at position `i` of the permuted list,
the results `res (permute i)` of that query, in some order, and nothing else. -/
structure Implements (nt : ℕ) (prog : ℕ → List (ℕ × T)) (n : ℕ) (permute : ℕ → ℕ) (res : ℕ → List T) :
    Prop where
  rows : ∀ i < n, (inserted nt prog i).Perm (res (permute i))
  idx : ∀ t < nt, ∀ e ∈ prog t, e.1 < n

/-- `permute` is a permutation of the `n` queries. -/
def IsPerm (n : ℕ) (permute : ℕ → ℕ) : Prop := ((List.range n).map permute).Perm (List.range n)

/-! ## Lemmas -/

lemma IsPerm.lt {n : ℕ} {permute : ℕ → ℕ} (h : IsPerm n permute) {i : ℕ} (hi : i < n) : permute i < n :=
  List.mem_range.mp (h.mem_iff.mp (List.mem_map_of_mem (List.mem_range.mpr hi)))

lemma IsPerm.inj {n : ℕ} {permute : ℕ → ℕ} (h : IsPerm n permute) {i j : ℕ} (hi : i < n) (hj : j < n)
    (he : permute i = permute j) : i = j := by
  have hn : ((List.range n).map permute).Nodup := h.nodup_iff.mpr List.nodup_range
  exact List.inj_on_of_nodup_map hn (List.mem_range.mpr hi) (List.mem_range.mpr hj) he

lemma IsPerm.surj {n : ℕ} {permute : ℕ → ℕ} (h : IsPerm n permute) {j : ℕ} (hj : j < n) :
    ∃ i < n, permute i = j := by
  have := h.mem_iff.mpr (List.mem_range.mpr hj)
  obtain ⟨i, hi, he⟩ := List.mem_map.mp this
  exact ⟨i, List.mem_range.mp hi, he⟩

lemma scan_mono (f : ℕ → ℕ) {i j : ℕ} (h : i ≤ j) : scan f i ≤ scan f j := by
  induction h with
  | refl => exact le_rfl
  | step h ih => simp only [scan]; omega

lemma scan_congr {f g : ℕ → ℕ} {n : ℕ} (h : ∀ i < n, f i = g i) : ∀ i ≤ n, scan f i = scan g i := by
  intro i hi
  induction i with
  | zero => rfl
  | succ i ih => simp only [scan]; rw [ih (by omega), h i (by omega)]

lemma scan_disjoint (f : ℕ → ℕ) {i j k l : ℕ} (hk : k < f i) (hl : l < f j)
    (h : scan f i + k = scan f j + l) : i = j ∧ k = l := by
  rcases lt_trichotomy i j with hij | hij | hij
  · have := scan_mono f (show i + 1 ≤ j by omega)
    simp only [scan] at this
    omega
  · subst hij; exact ⟨rfl, by omega⟩
  · have := scan_mono f (show j + 1 ≤ i by omega)
    simp only [scan] at this
    omega

lemma scan_le {f g : ℕ → ℕ} {n : ℕ} (h : ∀ i < n, f i ≤ g i) : scan f n ≤ scan g n := by
  induction n with
  | zero => exact le_rfl
  | succ n ih =>
    simp only [scan]
    have := ih (fun i hi => h i (by omega))
    have := h n (by omega)
    omega

lemma scan_eq_of_le {f g : ℕ → ℕ} {n : ℕ} (h : ∀ i < n, f i ≤ g i) (hs : scan g n ≤ scan f n) :
    ∀ i < n, f i = g i := by
  induction n with
  | zero => intro i hi; omega
  | succ n ih =>
    have h1 := scan_le (fun i (hi : i < n) => h i (by omega))
    have h2 := h n (by omega)
    simp only [scan] at hs
    intro i hi
    rcases Nat.lt_or_ge i n with hin | hin
    · exact ih (fun i hi => h i (by omega)) (by omega) i hin
    · have : i = n := by omega
      subst this; omega

lemma scan_length (rows : ℕ → List T) (n : ℕ) :
    ((List.range n).flatMap rows).length = scan (fun j => (rows j).length) n := by
  induction n with
  | zero => rfl
  | succ n ih => rw [List.range_succ, List.flatMap_append]; simp [scan, ih]

lemma copyCounts_apply {n : ℕ} {permute : ℕ → ℕ} (h : IsPerm n permute) (counts off : ℕ → ℕ) :
    ∀ m ≤ n, ∀ i < m, copyCounts permute counts off m (permute i) = counts i := by
  intro m hm
  induction m with
  | zero => intro i hi; omega
  | succ m ih =>
    intro i hi
    simp only [copyCounts]
    rcases Nat.lt_or_ge i m with him | him
    · rw [Function.update_of_ne, ih (by omega) i him]
      intro he
      have := h.inj (by omega) (by omega) he
      omega
    · have : i = m := by omega
      subst this; simp

/-- assembling the rows -/
lemma toList_rows {rows : ℕ → List T} {n : ℕ} {out : ℕ → Option T}
    (h : ∀ (j k : ℕ) (v : T), j < n → (rows j)[k]? = some v →
      out (scan (fun j => (rows j).length) j + k) = some v) :
    toList out (scan (fun j => (rows j).length) n) = ((List.range n).flatMap rows).map some := by
  induction n with
  | zero => rfl
  | succ n ih =>
    rw [List.range_succ, List.flatMap_append, List.map_append,
      ← ih (fun j k v hj hk => h j k v (by omega) hk)]
    simp only [scan, toList, List.range_add, List.map_append, List.map_map, List.flatMap_cons,
      List.flatMap_nil, List.append_nil]
    congr 1
    apply List.ext_getElem?
    intro k
    simp only [List.getElem?_map]
    rcases Nat.lt_or_ge k (rows n).length with hk | hk
    · rw [List.getElem?_range hk, List.getElem?_eq_getElem hk]
      have := h n k _ (by omega) (List.getElem?_eq_getElem hk)
      simpa using this
    · rw [List.getElem?_eq_none (by simpa using hk), List.getElem?_eq_none (by simpa using hk)]
      rfl

lemma copyRow_at {src : ℕ → Option T} {a b : ℕ} {dst : ℕ → Option T} (m : ℕ) :
    (∀ k < m, copyRow src a b dst m (a + k) = src (b + k)) ∧
    (∀ x, (x < a ∨ a + m ≤ x) → copyRow src a b dst m x = dst x) := by
  induction m with
  | zero => exact ⟨fun k hk => by omega, fun x _ => rfl⟩
  | succ m ih =>
    constructor
    · intro k hk
      simp only [copyRow]
      rcases Nat.lt_or_ge k m with h | h
      · rw [Function.update_of_ne (by omega)]; exact ih.1 k h
      · have : k = m := by omega
        subst this; simp
    · intro x hx
      simp only [copyRow]
      rw [Function.update_of_ne (by omega)]
      exact ih.2 x (by omega)

lemma compress_at {offset pre : ℕ → ℕ} {src : ℕ → Option T} (len : ℕ → ℕ) {n : ℕ}
    (hoff : ∀ j ≤ n, offset j = scan len j) :
    ∀ m ≤ n, ∀ j < m, ∀ k < len j, compress offset pre src m (offset j + k) = src (pre j + k) := by
  intro m
  induction m with
  | zero => intro _ j hj; omega
  | succ m ih =>
    intro hm j hj k hk
    simp only [compress]
    have e : offset (m + 1) - offset m = len m := by
      rw [hoff (m + 1) hm, hoff m (by omega)]; simp [scan]
    rw [e]
    rcases Nat.lt_or_ge j m with h | h
    · rw [(copyRow_at (len m)).2, ih (by omega) j h k hk]
      left
      have := scan_mono len (show j + 1 ≤ m by omega)
      simp only [scan] at this
      rw [hoff j (by omega), hoff m (by omega)]
      omega
    · have : j = m := by omega
      subst this
      exact (copyRow_at (len j)).1 k hk

/-! ## The implementation -/

/-- Core theorem about `queryImpl`. -/
theorem queryImpl_correct {nt : ℕ} {prog : ℕ → List (ℕ × T)} {n : ℕ} {permute : ℕ → ℕ}
    {res : ℕ → List T} (himp : Implements nt prog n permute res) (hp : IsPerm n permute)
    (status : Status) (offset0 buf : ℕ → ℕ) (len0 : ℕ) (out0 : ℕ → Option T)
    (hoff : ∀ j ≤ n, offset0 j = scan buf j) (hlen : scan buf n ≤ len0) (sched1 sched2 : List ℕ) :
    queryImpl nt prog n permute status offset0 len0 out0 sched1 sched2 = .running ∨
    (status = .hard ∧ (∃ j < n, buf j < (res j).length) ∧
      queryImpl nt prog n permute status offset0 len0 out0 sched1 sched2 = .throw) ∨
    (¬ (status = .hard ∧ ∃ j < n, buf j < (res j).length) ∧
      ∃ rows offset out, queryImpl nt prog n permute status offset0 len0 out0 sched1 sched2
        = .done offset out ∧
      (∀ j < n, (rows j).Perm (res j)) ∧ IsCrs n rows offset out ∧
      ((∀ t < nt, ∀ e ∈ prog t, e.1 = t) → nt = n →
        ∀ i < n, rows (permute i) = (prog i).map (·.2))) := by
  have hins0 : ∀ q, n ≤ q → (inserted nt prog q).length = 0 := by
    intro q hq
    unfold inserted
    rw [List.length_map, List.length_eq_zero_iff, List.filter_eq_nil_iff]
    intro e he
    obtain ⟨t, ht, hm⟩ := List.mem_flatMap.mp he
    have := himp.idx t (List.mem_range.mp ht) e hm
    simp; omega
  have hinsn : ∀ q k, k < (inserted nt prog q).length → q < n := by
    intro q k hk
    by_contra hc
    rw [hins0 q (by omega)] at hk
    omega
  have hfit1 : Fits nt prog (target1 status permute offset0) (fun _ => 0) len0 := by
    constructor
    · intro q k q' k' x hk hk' hx hx'
      have hq := hinsn q k hk
      have hq' := hinsn q' k' hk'
      unfold target1 at hx hx'
      rcases status with _ | _ | _ <;> simp only [Nat.zero_add] at hx hx'
      · cases hx
      all_goals
        split_ifs at hx with h1
        split_ifs at hx' with h2
        have p1 := hp.lt hq
        have p2 := hp.lt hq'
        rw [hoff _ (by omega), hoff _ (by omega)] at h1 h2
        simp only [scan] at h1 h2
        simp only [Option.some.injEq] at hx hx'
        rw [hoff _ (by omega)] at hx hx'
        obtain ⟨e1, e2⟩ := scan_disjoint buf (i := permute q) (j := permute q') (k := k) (l := k')
          (by omega) (by omega) (by omega)
        exact ⟨hp.inj hq hq' e1, e2⟩
    · intro q k x hk hx
      have hq := hinsn q k hk
      unfold target1 at hx
      rcases status with _ | _ | _ <;> simp only [Nat.zero_add] at hx
      · cases hx
      all_goals
        split_ifs at hx with h1
        have p1 := hp.lt hq
        rw [hoff _ (by omega), hoff _ (by omega)] at h1
        simp only [scan] at h1
        simp only [Option.some.injEq] at hx
        rw [hoff _ (by omega)] at hx
        have := scan_mono buf (show permute q + 1 ≤ n by omega)
        simp only [scan] at this
        omega
  -- first pass
  set p1 := runPass nt prog (target1 status permute offset0) (fun _ => 0) len0 out0 sched1 with hp1
  by_cases hfin1 : finished nt p1 = true
  swap
  · left
    unfold queryImpl
    simp only [← hp1, Bool.not_eq_true] at hfin1 ⊢
    simp [hfin1]
  obtain ⟨seg, s1, s2, s3, s4, s5⟩ := pass_spec hfit1 out0 sched1 hfin1
  rw [← hp1] at s3 s4 s5
  simp only [Nat.zero_add] at s4 s5
  -- sizes of the rows
  let len : ℕ → ℕ := fun j => (res j).length
  have hcnt : ∀ i < n, p1.counts i = len (permute i) := by
    intro i hi
    rw [s4, (s1 i).length_eq, (himp.rows i hi).length_eq]
  have hcc : ∀ j < n, copyCounts permute p1.counts offset0 n j = len j := by
    intro j hj
    obtain ⟨i, hi, rfl⟩ := hp.surj hj
    rw [copyCounts_apply hp _ _ n le_rfl i hi, hcnt i hi]
  have hoffset : ∀ j ≤ n, scan (copyCounts permute p1.counts offset0 n) j = scan len j :=
    scan_congr hcc
  -- inverse permutation
  obtain ⟨inv, hinv⟩ : ∃ inv : ℕ → ℕ, ∀ j < n, inv j < n ∧ permute (inv j) = j := by
    classical
    refine ⟨fun j => if h : j < n then (hp.surj h).choose else 0, fun j hj => ?_⟩
    simp only [hj, dif_pos]
    exact (hp.surj hj).choose_spec
  have hsuml : scan p1.counts n = scan len n := by
    have h1 : scan p1.counts n = ((List.range n).map (fun i => len (permute i))).sum := by
      have : ∀ m ≤ n, scan p1.counts m = ((List.range m).map (fun i => len (permute i))).sum := by
        intro m hm
        induction m with
        | zero => rfl
        | succ m ih => rw [List.range_succ]; simp [scan, ih (by omega), hcnt m (by omega)]
      exact this n le_rfl
    have h2 : scan len n = ((List.range n).map len).sum := by
      have : ∀ m, scan len m = ((List.range m).map len).sum := by
        intro m
        induction m with
        | zero => rfl
        | succ m ih => rw [List.range_succ]; simp [scan, ih]
      exact this n
    rw [h1, h2]
    have : ((List.range n).map (fun i => len (permute i))).Perm ((List.range n).map len) := by
      have := hp.map len
      simpa [List.map_map, Function.comp_def] using this
    clear h1 h2
    generalize (List.range n).map (fun i => len (permute i)) = a at this
    generalize (List.range n).map len = b at this
    induction this with
    | nil => rfl
    | cons x _ ih => simp [ih]
    | swap x y l => simp; omega
    | trans _ _ ih1 ih2 => exact ih1.trans ih2
  -- offsets of the result
  have hoffl : ∀ rows : ℕ → List T, (∀ j < n, (rows j).length = len j) →
      (toList (scan (copyCounts permute p1.counts offset0 n)) (n + 1)).length = n + 1 ∧
      ∀ i ≤ n, (toList (scan (copyCounts permute p1.counts offset0 n)) (n + 1))[i]?
        = some ((List.range i).flatMap rows).length := by
    intro rows hrows
    refine ⟨by simp [toList], fun i hi => ?_⟩
    unfold toList
    rw [List.getElem?_map, List.getElem?_range (by omega), scan_length, Option.map_some, hoffset i hi]
    congr 1
    exact scan_congr (n := n) (fun j hj => (hrows j hj).symm) i hi
  -- rows from the segments of a pass
  have hrowsP : ∀ sg : ℕ → List T, (∀ q, (sg q).Perm (inserted nt prog q)) →
      ∀ j < n, (sg (inv j)).Perm (res j) := by
    intro sg hsg j hj
    have := (hsg (inv j)).trans (himp.rows (inv j) (hinv j hj).1)
    rwa [(hinv j hj).2] at this
  have hrowsS : ∀ sg : ℕ → List T, (∀ t < nt, (∀ e ∈ prog t, e.1 = t) →
        (∀ t' < nt, t' ≠ t → ∀ e ∈ prog t', e.1 ≠ t) → sg t = (prog t).map (·.2)) →
      (∀ t < nt, ∀ e ∈ prog t, e.1 = t) → nt = n →
        ∀ i < n, sg (inv (permute i)) = (prog i).map (·.2) := by
    intro sg hsg h1 h2 i hi
    have e : inv (permute i) = i := by
      have := hinv (permute i) (hp.lt hi)
      exact hp.inj this.1 hi this.2
    rw [e]
    refine hsg i (by omega) (h1 i (by omega)) ?_
    intro t' ht' hne e he hc
    rw [h1 t' ht' e he] at hc
    exact hne hc
  by_cases hzero : scan len n = 0
  · -- no results
    have hz : ∀ j < n, len j = 0 := by
      intro j hj
      have := scan_mono len (show j + 1 ≤ n by omega)
      simp only [scan] at this
      omega
    right; right
    refine ⟨?_, fun j => seg (inv j), toList (scan (copyCounts permute p1.counts offset0 n)) (n + 1),
      [], ?_, hrowsP seg s1, ⟨(hoffl (fun j => seg (inv j)) ?_).1, (hoffl (fun j => seg (inv j)) ?_).2, ?_⟩, hrowsS seg s2⟩
    · rintro ⟨-, j, hj, hlt⟩
      have := hz j hj
      simp only [len] at this
      omega
    · unfold queryImpl
      simp only [← hp1, hfin1, s3, Bool.not_true, Bool.false_eq_true, if_false]
      rw [if_pos (by rw [hoffset n le_rfl]; exact hzero)]
    · intro j hj; exact (hrowsP seg s1 j hj).length_eq
    · intro j hj; exact (hrowsP seg s1 j hj).length_eq
    · have : ((List.range n).flatMap (fun j => seg (inv j))).length = 0 := by
        rw [scan_length]
        rw [scan_congr (n := n) (g := len) (fun j hj => (hrowsP seg s1 j hj).length_eq) n le_rfl]
        exact hzero
      rw [List.length_eq_zero_iff.mp this]; rfl
  · -- the overflow flag
    have hov : ∀ (_ : status ≠ .none), (overflowed n permute status offset0 p1.counts = true ↔
        ∃ j < n, buf j < (res j).length) := by
      intro hne
      have e : overflowed n permute status offset0 p1.counts = (List.range n).any (fun i =>
          decide (p1.counts i > offset0 (permute i + 1) - offset0 (permute i))) := by
        cases status
        · exact absurd rfl hne
        all_goals rfl
      rw [e, List.any_eq_true]
      constructor
      · rintro ⟨i, hi, hd⟩
        have hi := List.mem_range.mp hi
        have := hp.lt hi
        simp only [decide_eq_true_eq] at hd
        rw [hcnt i hi, hoff _ (by omega), hoff _ (by omega)] at hd
        simp only [scan] at hd
        exact ⟨permute i, this, by simp only [len] at hd; omega⟩
      · rintro ⟨j, hj, hlt⟩
        obtain ⟨i, hi, rfl⟩ := hp.surj hj
        refine ⟨i, List.mem_range.mpr hi, ?_⟩
        simp only [decide_eq_true_eq]
        rw [hcnt i hi, hoff _ (by omega), hoff _ (by omega)]
        simp only [scan, len]
        omega
    -- second pass
    have second : ∀ (_ : status ≠ .hard)
        (_ : overflowed n permute status offset0 p1.counts = true),
        queryImpl nt prog n permute status offset0 len0 out0 sched1 sched2 = .running ∨
        ∃ rows offset out, queryImpl nt prog n permute status offset0 len0 out0 sched1 sched2
            = .done offset out ∧
          (∀ j < n, (rows j).Perm (res j)) ∧ IsCrs n rows offset out ∧
          ((∀ t < nt, ∀ e ∈ prog t, e.1 = t) → nt = n →
            ∀ i < n, rows (permute i) = (prog i).map (·.2)) := by
      intro hhard hover
      have hfit2 : Fits nt prog target2
          (fun i => scan (copyCounts permute p1.counts offset0 n) (permute i))
          (scan (copyCounts permute p1.counts offset0 n) n) := by
        constructor
        · intro q k q' k' x hk hk' hx hx'
          have hq := hinsn q k hk
          have hq' := hinsn q' k' hk'
          have pq := hp.lt hq
          have pq' := hp.lt hq'
          rw [(himp.rows q hq).length_eq] at hk
          rw [(himp.rows q' hq').length_eq] at hk'
          simp only [target2, Option.some.injEq] at hx hx'
          rw [hoffset _ (by omega)] at hx hx'
          obtain ⟨e1, e2⟩ := scan_disjoint len (i := permute q) (j := permute q') (k := k) (l := k')
            hk hk' (by omega)
          exact ⟨hp.inj hq hq' e1, e2⟩
        · intro q k x hk hx
          have hq := hinsn q k hk
          have pq := hp.lt hq
          rw [(himp.rows q hq).length_eq] at hk
          simp only [target2, Option.some.injEq] at hx
          rw [hoffset _ (by omega)] at hx
          rw [hoffset _ le_rfl]
          have := scan_mono len (show permute q + 1 ≤ n by omega)
          simp only [scan, len] at this hk hx ⊢
          omega
      set p2 := runPass nt prog target2
        (fun i => scan (copyCounts permute p1.counts offset0 n) (permute i))
        (scan (copyCounts permute p1.counts offset0 n) n) (fun _ => none) sched2 with hp2
      have hunf : queryImpl nt prog n permute status offset0 len0 out0 sched1 sched2 =
          if !finished nt p2 then .running
          else if p2.fault then .fault
          else .done (toList (scan (copyCounts permute p1.counts offset0 n)) (n + 1))
            (toList p2.out (scan (copyCounts permute p1.counts offset0 n) n)) := by
        unfold queryImpl
        simp only [← hp1, hfin1, s3, Bool.not_true, Bool.false_eq_true, if_false]
        rw [if_neg (by rw [hoffset n le_rfl]; exact hzero)]
        rw [if_pos hover, if_neg hhard]
      rw [hunf]
      by_cases hfin2 : finished nt p2 = true
      swap
      · left
        simp only [Bool.not_eq_true] at hfin2
        simp [hfin2]
      obtain ⟨seg2, t1, t2, t3, t4, t5⟩ := pass_spec hfit2 (fun _ => none) sched2 hfin2
      rw [← hp2] at t3 t4 t5
      right
      refine ⟨fun j => seg2 (inv j), _, _, by rw [hfin2, t3]; rfl, hrowsP seg2 t1,
        ⟨(hoffl (fun j => seg2 (inv j)) ?_).1, (hoffl (fun j => seg2 (inv j)) ?_).2, ?_⟩, hrowsS seg2 t2⟩
      · intro j hj; exact (hrowsP seg2 t1 j hj).length_eq
      · intro j hj; exact (hrowsP seg2 t1 j hj).length_eq
      · have hl : ∀ j ≤ n, scan (copyCounts permute p1.counts offset0 n) j
            = scan (fun j => (seg2 (inv j)).length) j := by
          intro j hj
          rw [hoffset j hj]
          exact scan_congr (n := n) (fun j hj => (hrowsP seg2 t1 j hj).length_eq.symm) j hj
        rw [hl n le_rfl]
        apply toList_rows
        intro j k v hj hk
        refine t5 (inv j) k v _ hk ?_
        simp only [target2]
        rw [(hinv j hj).2, hl j (by omega)]
    by_cases hnone : status = .none
    · subst hnone
      rcases second (by decide) rfl with h | h
      · exact .inl h
      · exact .inr (.inr ⟨by simp, h⟩)
    by_cases hex : ∃ j < n, buf j < (res j).length
    · have hover := (hov hnone).mpr hex
      by_cases hhard : status = .hard
      · right; left
        refine ⟨hhard, hex, ?_⟩
        unfold queryImpl
        simp only [← hp1, hfin1, s3, Bool.not_true, Bool.false_eq_true, if_false]
        rw [if_neg (by rw [hoffset n le_rfl]; exact hzero), if_pos hover, if_pos hhard]
      · rcases second hhard hover with h | h
        · exact .inl h
        · exact .inr (.inr ⟨fun h' => hhard h'.1, h⟩)
    · -- the buffer is large enough
      have hover : overflowed n permute status offset0 p1.counts = false := by
        rw [← Bool.not_eq_true, hov hnone]; exact hex
      have hle : ∀ j < n, len j ≤ buf j := by
        intro j hj
        by_contra hc
        exact hex ⟨j, hj, by simp only [len] at hc; omega⟩
      right; right
      refine ⟨fun h' => hex h'.2, fun j => seg (inv j), ?_⟩
      have hcell : ∀ (j k : ℕ) (v : T), j < n → (seg (inv j))[k]? = some v →
          p1.out (offset0 j + k) = some v := by
        intro j k v hj hk
        refine s5 (inv j) k v _ hk ?_
        have hk' := (List.getElem?_eq_some_iff.mp hk).1
        have hl := (hrowsP seg s1 j hj).length_eq
        have := hle j hj
        have e : offset0 (j + 1) - offset0 j = buf j := by
          rw [hoff _ (by omega), hoff _ (by omega)]; simp [scan]
        unfold target1
        cases status
        · exact absurd rfl hnone
        all_goals
          simp only
          rw [(hinv j hj).2, e, if_pos (by simp only [len] at this; omega)]
      have hlr : ∀ j ≤ n, scan len j = scan (fun j => (seg (inv j)).length) j :=
        scan_congr (n := n) (fun j hj => (hrowsP seg s1 j hj).length_eq.symm)
      by_cases hund : scan p1.counts n < len0
      · refine ⟨toList (scan (copyCounts permute p1.counts offset0 n)) (n + 1),
          toList (compress (scan (copyCounts permute p1.counts offset0 n)) offset0 p1.out n)
            (scan (copyCounts permute p1.counts offset0 n) n), ?_, hrowsP seg s1,
          ⟨(hoffl (fun j => seg (inv j)) ?_).1, (hoffl (fun j => seg (inv j)) ?_).2, ?_⟩, hrowsS seg s2⟩
        · unfold queryImpl
          simp only [← hp1, hfin1, s3, Bool.not_true, Bool.false_eq_true, if_false]
          rw [if_neg (by rw [hoffset n le_rfl]; exact hzero), hover]
          simp [hund]
        · intro j hj; exact (hrowsP seg s1 j hj).length_eq
        · intro j hj; exact (hrowsP seg s1 j hj).length_eq
        · rw [hoffset n le_rfl, hlr n le_rfl]
          apply toList_rows
          intro j k v hj hk
          have hk' := (List.getElem?_eq_some_iff.mp hk).1
          rw [← hlr j (by omega), ← hoffset j (by omega)]
          rw [compress_at len hoffset n le_rfl j hj k (by
            have := (hrowsP seg s1 j hj).length_eq
            simp only [len]; omega)]
          exact hcell j k v hj hk
      · have heq := scan_eq_of_le hle (by omega)
        refine ⟨toList (scan (copyCounts permute p1.counts offset0 n)) (n + 1),
          toList p1.out len0, ?_, hrowsP seg s1,
          ⟨(hoffl (fun j => seg (inv j)) ?_).1, (hoffl (fun j => seg (inv j)) ?_).2, ?_⟩, hrowsS seg s2⟩
        · unfold queryImpl
          simp only [← hp1, hfin1, s3, Bool.not_true, Bool.false_eq_true, if_false]
          rw [if_neg (by rw [hoffset n le_rfl]; exact hzero), hover]
          simp [hund]
        · intro j hj; exact (hrowsP seg s1 j hj).length_eq
        · intro j hj; exact (hrowsP seg s1 j hj).length_eq
        · have h1 := scan_congr heq n le_rfl
          have : len0 = scan len n := by omega
          rw [this, hlr n le_rfl]
          apply toList_rows
          intro j k v hj hk
          rw [← hlr j (by omega), scan_congr heq j (by omega), ← hoff j (by omega)]
          exact hcell j k v hj hk

/-! ## Termination -/

/-- steps thread `t` still has to make -/
def remaining (s : State T) (t : ℕ) : ℕ := 2 * (s.thr t).1.length + if (s.thr t).2.isSome then 1 else 0

lemma remaining_step (nt : ℕ) (target : ℕ → ℕ → Option ℕ) (len : ℕ) (s : State T) (t u : ℕ) :
    remaining (step nt target len s t) u ≤ remaining s u ∧
    (t = u → t < nt → remaining s u ≠ 0 → remaining (step nt target len s t) u < remaining s u) := by
  unfold step
  split_ifs with hnt
  · exact ⟨le_rfl, fun _ h => by omega⟩
  rcases hth : s.thr t with ⟨rest, pend⟩
  by_cases htu : t = u
  · subst htu
    rcases pend with _ | ⟨slot, v⟩
    · rcases rest with _ | ⟨⟨q, v⟩, rest⟩
      · simp [remaining, hth]
      · simp only [remaining, hth, Function.update_self, List.length_cons]
        constructor <;> (try intro _ _ _) <;> split_ifs <;> simp_all <;> omega
    · simp [remaining, hth]
  · have hne : u ≠ t := fun h => htu h.symm
    rcases pend with _ | ⟨slot, v⟩
    · rcases rest with _ | ⟨⟨q, v⟩, rest⟩ <;> simp [remaining, hne, htu]
    · simp [remaining, hne, htu]

lemma remaining_run (nt : ℕ) (target : ℕ → ℕ → Option ℕ) (len : ℕ) (t : ℕ) (ht : t < nt) (sched : List ℕ) :
    ∀ s : State T, remaining s t ≤ sched.count t →
      remaining (sched.foldl (step nt target len) s) t = 0 := by
  induction sched with
  | nil => intro s hs; simpa using hs
  | cons u sched ih =>
    intro s hs
    simp only [List.foldl_cons]
    apply ih
    have := remaining_step nt target len s u t
    by_cases hut : u = t
    · subst hut
      simp only [List.count_cons_self] at hs
      by_cases h0 : remaining s u = 0
      · omega
      · have := this.2 rfl ht h0
        omega
    · rw [List.count_cons_of_ne hut] at hs
      omega

/-- A schedule that lets every thread finish: each thread is scheduled at least twice for
each of its insertions. -/
def Fair (nt : ℕ) (prog : ℕ → List (ℕ × T)) (sched : List ℕ) : Prop :=
  ∀ t < nt, 2 * (prog t).length ≤ sched.count t

lemma pass_terminates {nt : ℕ} {prog : ℕ → List (ℕ × T)} {sched : List ℕ} (h : Fair nt prog sched)
    (target : ℕ → ℕ → Option ℕ) (c0 : ℕ → ℕ) (len : ℕ) (out0 : ℕ → Option T) :
    finished nt (runPass nt prog target c0 len out0 sched) = true := by
  unfold finished
  rw [List.all_eq_true]
  intro t ht
  have ht := List.mem_range.mp ht
  have := remaining_run nt target len t ht sched ⟨c0, out0, fun t => (prog t, none), false⟩
    (by simpa [remaining] using h t ht)
  unfold remaining at this
  unfold runPass
  generalize (List.foldl (step nt target len) ⟨c0, out0, fun t => (prog t, none), false⟩ sched).thr t
    = x at this
  rcases x with ⟨a, b⟩
  rcases b with _ | b
  · simp at this ⊢; exact this
  · simp at this

lemma queryImpl_ne_running {nt : ℕ} {prog : ℕ → List (ℕ × T)} {sched1 sched2 : List ℕ}
    (h1 : Fair nt prog sched1) (h2 : Fair nt prog sched2) (n : ℕ) (permute : ℕ → ℕ) (status : Status)
    (offset0 : ℕ → ℕ) (len0 : ℕ) (out0 : ℕ → Option T) :
    queryImpl nt prog n permute status offset0 len0 out0 sched1 sched2 ≠ .running := by
  unfold queryImpl
  simp only [pass_terminates h1, pass_terminates h2]
  repeat' split
  all_goals simp_all

/-! ## The theorems -/

/-- **C09.** A query storing its results in compressed row storage, for spatial, ordered and
nearest predicates, every buffer size, every permutation of the predicates, every number of
threads sharing the queries and every pair of (fair) schedules. It never writes out of bounds;
it throws exactly when the predicates are spatial, the buffer size is negative and some query
has more than `|bufferSize|` results; otherwise it returns the compressed row storage of rows
holding exactly the results of each query, in the order of the queries. -/
theorem crs_query {nt : ℕ} {prog : ℕ → List (ℕ × T)} {n : ℕ} {permute : ℕ → ℕ}
    {res : ℕ → List T} (himp : Implements nt prog n permute res) (hp : IsPerm n permute)
    (kind : Kind) (bufferSize : ℤ) (ks : ℕ → ℕ) (userLen : ℕ) (userOut : ℕ → Option T)
    (sched1 sched2 : List ℕ) (h1 : Fair nt prog sched1) (h2 : Fair nt prog sched2) :
    if kind = .spatial ∧ bufferSize < 0 ∧ ∃ j < n, bufferSize.natAbs < (res j).length then
      query kind bufferSize ks userLen userOut nt prog n permute sched1 sched2 = .throw
    else ∃ rows offset out,
      query kind bufferSize ks userLen userOut nt prog n permute sched1 sched2 = .done offset out ∧
      (∀ j < n, (rows j).Perm (res j)) ∧ IsCrs n rows offset out ∧
      ((∀ t < nt, ∀ e ∈ prog t, e.1 = t) → nt = n →
        ∀ i < n, rows (permute i) = (prog i).map (·.2)) := by
  have key : ∀ (status : Status) (offset0 buf : ℕ → ℕ) (len0 : ℕ) (out0 : ℕ → Option T),
      (∀ j ≤ n, offset0 j = scan buf j) → scan buf n ≤ len0 →
      (status = .hard ∧ (∃ j < n, buf j < (res j).length) ∧
        queryImpl nt prog n permute status offset0 len0 out0 sched1 sched2 = .throw) ∨
      (¬ (status = .hard ∧ ∃ j < n, buf j < (res j).length) ∧
        ∃ rows offset out, queryImpl nt prog n permute status offset0 len0 out0 sched1 sched2
          = .done offset out ∧
        (∀ j < n, (rows j).Perm (res j)) ∧ IsCrs n rows offset out ∧
        ((∀ t < nt, ∀ e ∈ prog t, e.1 = t) → nt = n →
          ∀ i < n, rows (permute i) = (prog i).map (·.2))) := by
    intro status offset0 buf len0 out0 ho hl
    rcases queryImpl_correct himp hp status offset0 buf len0 out0 ho hl sched1 sched2 with h | h | h
    · exact (queryImpl_ne_running h1 h2 _ _ _ _ _ _ h).elim
    · exact .inl h
    · exact .inr h
  have hmul : ∀ b m : ℕ, scan (fun _ => b) m = m * b := by
    intro b m
    induction m with
    | zero => simp [scan]
    | succ m ih => simp [scan, ih, Nat.succ_mul]
  have hsp : ∀ (_ : kind ≠ .nearest) (_ : bufferSize.natAbs ≠ 0),
      query kind bufferSize ks userLen userOut nt prog n permute sched1 sched2 =
      queryImpl nt prog n permute (if kind = .spatial then toBufferStatus bufferSize else .soft)
        (scan (fun _ => bufferSize.natAbs)) (n * bufferSize.natAbs) (fun _ => none) sched1 sched2 := by
    intro hk hb
    unfold query
    cases kind
    · simp only [if_pos hb]
    · simp only [if_pos hb]
    · exact absurd rfl hk
  have hsp0 : ∀ (_ : kind ≠ .nearest) (_ : bufferSize.natAbs = 0),
      query kind bufferSize ks userLen userOut nt prog n permute sched1 sched2 =
      queryImpl nt prog n permute (if kind = .spatial then toBufferStatus bufferSize else .soft)
        (fun _ => 0) userLen userOut sched1 sched2 := by
    intro hk hb
    unfold query
    cases kind
    · simp only [hb, ne_eq, not_true_eq_false, if_false]
    · simp only [hb, ne_eq, not_true_eq_false, if_false]
    · exact absurd rfl hk
  by_cases hk : kind = .nearest
  · subst hk
    rw [if_neg (by rintro ⟨h, -⟩; cases h)]
    rcases key .soft (scan ks) ks (scan ks n) (fun _ => none) (fun _ _ => rfl) le_rfl with h | h
    · cases h.1
    · exact h.2
  by_cases hb : bufferSize.natAbs = 0
  · have hb0 : bufferSize = 0 := Int.natAbs_eq_zero.mp hb
    rw [if_neg (by rintro ⟨-, h, -⟩; omega), hsp0 hk hb]
    have hns : (if kind = .spatial then toBufferStatus bufferSize else .soft) ≠ Status.hard := by
      split_ifs
      · simp [toBufferStatus, hb0]
      · decide
    rcases key _ (fun _ => 0) (fun _ => 0) userLen userOut (fun j _ => by rw [hmul]; simp)
      (by rw [hmul]; simp) with h | h
    · exact absurd h.1 hns
    · exact h.2
  · rw [hsp hk hb]
    have hst : (if kind = .spatial then toBufferStatus bufferSize else .soft) = Status.hard ↔
        kind = .spatial ∧ bufferSize < 0 := by
      unfold toBufferStatus
      split_ifs with h1 h2 h3 <;> simp_all <;> omega
    rcases key (if kind = .spatial then toBufferStatus bufferSize else .soft) _
      (fun _ => bufferSize.natAbs) (n * bufferSize.natAbs) (fun _ => none) (fun _ _ => rfl)
      (by rw [hmul]) with h | h
    · rw [if_pos ⟨(hst.mp h.1).1, (hst.mp h.1).2, h.2.1⟩]
      exact h.2.2
    · rw [if_neg (fun hc => h.1 ⟨hst.mpr ⟨hc.1, hc.2.1⟩, hc.2.2⟩)]
      exact h.2

/-- **C09, one thread per query** (the traversals of `BoundingVolumeHierarchy`): each row is
the list of the values the traversal of the query inserted, in that order, whatever the
schedule. -/
theorem crs_query_bvh {n : ℕ} {permute : ℕ → ℕ} (res : ℕ → List T) (hp : IsPerm n permute)
    (kind : Kind) (bufferSize : ℤ) (ks : ℕ → ℕ) (userLen : ℕ) (userOut : ℕ → Option T)
    (sched1 sched2 : List ℕ)
    (h1 : Fair n (fun i => (res (permute i)).map (fun v => (i, v))) sched1)
    (h2 : Fair n (fun i => (res (permute i)).map (fun v => (i, v))) sched2)
    (hthrow : ¬ (kind = .spatial ∧ bufferSize < 0 ∧ ∃ j < n, bufferSize.natAbs < (res j).length)) :
    ∃ offset out, query kind bufferSize ks userLen userOut n
        (fun i => (res (permute i)).map (fun v => (i, v))) n permute sched1 sched2 = .done offset out ∧
      IsCrs n res offset out := by
  have himp : Implements n (fun i => (res (permute i)).map (fun v => (i, v))) n permute res := by
    constructor
    · intro i hi
      unfold inserted
      have : ∀ m, i < m → ((List.range m).flatMap (fun i => (res (permute i)).map (fun v => (i, v)))).filter
          (fun e => decide (e.1 = i)) = (res (permute i)).map (fun v => (i, v)) := by
        intro m hm
        induction m with
        | zero => omega
        | succ m ih =>
          rw [List.range_succ, List.flatMap_append, List.filter_append]
          by_cases him : i = m
          · subst him
            have : ((List.range i).flatMap (fun i => (res (permute i)).map (fun v => (i, v)))).filter
              (fun e => decide (e.1 = i)) = [] := by
              rw [List.filter_eq_nil_iff]
              intro e he
              obtain ⟨t, ht, hm⟩ := List.mem_flatMap.mp he
              obtain ⟨v, -, rfl⟩ := List.mem_map.mp hm
              have := List.mem_range.mp ht
              simp; omega
            rw [this]
            simp [List.filter_map, Function.comp_def]
          · rw [ih (by omega)]
            have : m ≠ i := fun h => him h.symm
            simp [List.filter_map, Function.comp_def, this]
      have e := this n hi
      rw [e]
      simp [Function.comp_def]
    · intro t ht e he
      obtain ⟨v, -, rfl⟩ := List.mem_map.mp he
      exact ht
  have := crs_query himp hp kind bufferSize ks userLen userOut sched1 sched2 h1 h2
  rw [if_neg hthrow] at this
  obtain ⟨rows, offset, out, e1, -, e3, e4⟩ := this
  refine ⟨offset, out, e1, ?_⟩
  have hrow : ∀ j < n, rows j = res j := by
    intro j hj
    obtain ⟨i, hi, rfl⟩ := hp.surj hj
    rw [e4 (by
      intro t _ e he
      obtain ⟨v, -, rfl⟩ := List.mem_map.mp he
      rfl) rfl i hi]
    simp [Function.comp_def]
  have hfl : ∀ m ≤ n, (List.range m).flatMap rows = (List.range m).flatMap res := by
    intro m hm
    induction m with
    | zero => rfl
    | succ m ih => rw [List.range_succ]; simp [ih (by omega), hrow m (by omega)]
  exact ⟨e3.1, fun i hi => by rw [← hfl i hi]; exact e3.2.1 i hi, by rw [← hfl n le_rfl]; exact e3.2.2⟩

section BVH
open BVH Traversal

variable {α V : Type} {w : ℕ} [SemilatticeSup V] [OrderBot V]

/-- **C09 with C01 and C02.** Building a hierarchy from any values, under any schedule, and
querying it with any list of `n` spatial predicates, any soft buffer size, predicate sorting on
or off, yields one row per predicate, in the order of the predicates, holding exactly the stored
values that satisfy it. -/
theorem crs_spatial (I : Input α V w) (h : I.Valid) (bsched : List ℕ) (hf : I.Finished bsched)
    (n : ℕ) (pl : ℕ → α → Bool) (pv : ℕ → V → Bool) (mono : ∀ j < n, Traversal.Monotone I.vol (pl j) (pv j))
    {permute : ℕ → ℕ} (hp : IsPerm n permute) (bufferSize : ℤ) (hb : 0 ≤ bufferSize) (ks : ℕ → ℕ)
    (userLen : ℕ) (userOut : ℕ → Option α) (fuel : ℕ) (hfuel : 2 * I.n ≤ fuel) :
    ∃ calls : ℕ → List α,
      (∀ j < n, spatialQuery (I.build bsched) (pl j) (pv j) (fun _ => false) fuel = .done (calls j)) ∧
      ∀ sched1 sched2, Fair n (fun i => (calls (permute i)).map (fun v => (i, v))) sched1 →
        Fair n (fun i => (calls (permute i)).map (fun v => (i, v))) sched2 →
      ∃ rows offset out, query .spatial bufferSize ks userLen userOut n
          (fun i => (calls (permute i)).map (fun v => (i, v))) n permute sched1 sched2
            = .done offset out ∧
        IsCrs n rows offset out ∧ ∀ j < n, (rows j).Perm (I.stored.filter (pl j)) := by
  have : ∀ j, ∃ c : List α, j < n → spatialQuery (I.build bsched) (pl j) (pv j) (fun _ => false) fuel
      = .done c ∧ c.Perm (I.stored.filter (pl j)) := by
    intro j
    by_cases hj : j < n
    · obtain ⟨c, h1, h2⟩ := spatial_query_exact I h (pl j) (pv j) (mono j hj) bsched hf fuel hfuel
      exact ⟨c, fun _ => ⟨h1, h2⟩⟩
    · exact ⟨[], fun h => absurd h hj⟩
  choose calls hc using this
  refine ⟨calls, fun j hj => (hc j hj).1, fun sched1 sched2 f1 f2 => ?_⟩
  obtain ⟨offset, out, e1, e2⟩ := crs_query_bvh calls hp .spatial bufferSize ks userLen userOut sched1
    sched2 f1 f2 (by rintro ⟨-, h, -⟩; omega)
  exact ⟨calls, offset, out, e1, e2, fun j hj => (hc j hj).2⟩

end BVH

section Nearest
open BVH Nearest

variable {α V D : Type} {w : ℕ} [SemilatticeSup V] [OrderBot V] [LinearOrder D]

/-- **C09 with C05 and C02.** The same for nearest predicates: row `j` holds the `k_j` nearest
values of predicate `j`, closest first. -/
theorem crs_nearest (I : Input α V w) (h : I.Valid) (hn : I.n ≠ 1) (bsched : List ℕ)
    (hf : I.Finished bsched) (n : ℕ) (q : ℕ → Query α V D)
    (had : ∀ j < n, Admissible (q j) I.vol) (hz : ∀ j < n, ∀ a, (q j).zero ≤ (q j).dl a)
    (hcap : ∀ j < n, StackFits I (q j).cap)
    {permute : ℕ → ℕ} (hp : IsPerm n permute) (bufferSize : ℤ)
    (userLen : ℕ) (userOut : ℕ → Option α) (fuel : ℕ) (hfuel : 2 * I.n ≤ fuel) :
    ∃ calls : ℕ → List α,
      (∀ j < n, nearestQuery (I.build bsched) (q j) fuel = .done (calls j)) ∧
      ∀ sched1 sched2, Fair n (fun i => (calls (permute i)).map (fun v => (i, v))) sched1 →
        Fair n (fun i => (calls (permute i)).map (fun v => (i, v))) sched2 →
      ∃ rows offset out, query .nearest bufferSize (fun j => (q j).k) userLen userOut n
          (fun i => (calls (permute i)).map (fun v => (i, v))) n permute sched1 sched2
            = .done offset out ∧
        IsCrs n rows offset out ∧
        ∀ j < n, IsKNearest (q j).dl (q j).inf (q j).k I.stored (rows j) := by
  have : ∀ j, ∃ c : List α, j < n → nearestQuery (I.build bsched) (q j) fuel = .done c ∧
      IsKNearest (q j).dl (q j).inf (q j).k I.stored c := by
    intro j
    by_cases hj : j < n
    · obtain ⟨c, h1, h2⟩ := nearest_query I h hn (q j) (had j hj) (hz j hj) (hcap j hj) bsched hf fuel hfuel
      exact ⟨c, fun _ => ⟨h1, h2⟩⟩
    · exact ⟨[], fun h => absurd h hj⟩
  choose calls hc using this
  refine ⟨calls, fun j hj => (hc j hj).1, fun sched1 sched2 f1 f2 => ?_⟩
  obtain ⟨offset, out, e1, e2⟩ := crs_query_bvh calls hp .nearest bufferSize _ userLen userOut sched1
    sched2 f1 f2 (by rintro ⟨h, -, -⟩; cases h)
  exact ⟨calls, offset, out, e1, e2, fun j hj => (hc j hj).2⟩

end Nearest

/-! ## Non-vacuity: three queries with 2, 0 and 3 results, permuted -/

/-- results of the example queries -/
def exampleRes : ℕ → List ℕ := fun j => [[10, 11], [], [20, 21, 22]].getD j []

/-- the permutation of the example -/
def examplePermute : ℕ → ℕ := fun i => [2, 0, 1].getD i 0

example : IsPerm 3 examplePermute := by unfold IsPerm; decide

example : Fair 3 (fun i => (exampleRes (examplePermute i)).map (fun v => (i, v)))
    [0, 1, 0, 1, 0, 0, 1, 0, 1, 0] := by unfold Fair; decide

/-- two threads share the queries, as in the brute-force search -/
example : Implements 2 (fun t => if t = 0 then [(0, 22), (1, 10)] else [(0, 20), (1, 11), (0, 21)]) 3
    examplePermute exampleRes :=
  ⟨by decide, by decide⟩

/-- and the query returns the rows in the original order, without buffer, ... -/
example : query .spatial 0 (fun _ => 0) 7 (fun _ => some 5) 3
    (fun i => (exampleRes (examplePermute i)).map (fun v => (i, v))) 3 examplePermute
    [0, 1, 0, 1, 0, 0, 1, 0, 1, 0] [1, 0, 1, 1, 1, 0, 0, 0, 0, 0]
    = .done [0, 2, 2, 5] [some 10, some 11, some 20, some 21, some 22] := by decide

/-- ... and a hard limit of two results throws. -/
example : query .spatial (-2) (fun _ => 0) 7 (fun _ => some 5) 3
    (fun i => (exampleRes (examplePermute i)).map (fun v => (i, v))) 3 examplePermute
    [0, 1, 0, 1, 0, 0, 1, 0, 1, 0] [1, 0, 1, 1, 1, 0, 0, 0, 0, 0] = .throw := by decide

end ArborX.Crs
