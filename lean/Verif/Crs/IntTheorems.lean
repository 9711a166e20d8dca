import Verif.Crs.IntLemmas

/-!
# Property theorems: numbers of results that an `int` holds (C76)
-/

namespace ArborX.Crs.Int32

open Function (update)
open ArborX.BVH

variable {T : Type}

/-- The outcome of the code with natural numbers, with its offsets as integers. -/
def ints : Crs.Outcome T → Outcome T
  | .done offset out => .done (offset.map (fun x : ℕ => (x : ℤ))) out
  | .throw => .throw
  | .fault => .fault
  | .running => .running

/-! ## Lemmas -/

/-- all results, as counted by position in the permuted list -/
lemma scan_perm {n : ℕ} {permute : ℕ → ℕ} (hp : IsPerm n permute) (f : ℕ → ℕ) :
    Crs.scan (fun i => f (permute i)) n = Crs.scan f n := by
  have hs : ∀ (g : ℕ → ℕ) m, Crs.scan g m = ((List.range m).map g).sum := by
    intro g m
    induction m with
    | zero => rfl
    | succ m ih => rw [Crs.scan, ih, List.range_succ]; simp
  rw [hs, hs]
  have := (hp.map f).sum_eq
  rw [List.map_map] at this
  exact this

lemma le_scan (f : ℕ → ℕ) {i n : ℕ} (h : i < n) : Crs.scan f i + f i ≤ Crs.scan f n := by
  have := scan_mono f (show i + 1 ≤ n from h)
  exact this

/-- The code with `int`s, as long as the results and the buffers are less than `2^31`. -/
lemma queryImpl_eq {nt : ℕ} {prog : ℕ → List (ℕ × T)} {n : ℕ} {permute : ℕ → ℕ}
    {res : ℕ → List T} (himp : Implements nt prog n permute res) (hp : IsPerm n permute)
    (status : Status) (offset0 buf : ℕ → ℕ) (len0 : ℕ) (out0 : ℕ → Option T)
    (hoff : ∀ j ≤ n, offset0 j = Crs.scan buf j) (hlen : len0 < 2 ^ 31)
    (hbuf : Crs.scan buf n < 2 ^ 31) (hres : Crs.scan (fun j => (res j).length) n < 2 ^ 31)
    (sched1 sched2 : List ℕ) :
    queryImpl nt prog n permute status (fun j => i32 (offset0 j)) len0 out0 sched1 sched2
      = ints (Crs.queryImpl nt prog n permute status offset0 len0 out0 sched1 sched2) := by
  have hins : ∀ q < n, (inserted nt prog q).length = (res (permute q)).length :=
    fun q hq => (himp.rows q hq).length_eq
  have hins0 : ∀ q, n ≤ q → (inserted nt prog q).length = 0 := by
    intro q hq
    rw [List.length_eq_zero_iff]
    unfold inserted
    rw [List.map_eq_nil_iff, List.filter_eq_nil_iff]
    intro e he
    obtain ⟨t, ht, het⟩ := List.mem_flatMap.mp he
    have := himp.idx t (List.mem_range.mp ht) e het
    simp; omega
  have hrow : ∀ j < n, (res j).length < 2 ^ 31 := fun j hj => by
    have := le_scan (fun j => (res j).length) hj
    omega
  have hrow' : ∀ q, (inserted nt prog q).length < 2 ^ 31 := by
    intro q
    rcases Nat.lt_or_ge q n with h | h
    · rw [hins q h]; exact hrow _ (hp.lt h)
    · rw [hins0 q h]; omega
  have hof : ∀ j ≤ n, offset0 j < 2 ^ 31 := fun j hj => by
    rw [hoff j hj]; exact (scan_mono buf hj).trans_lt hbuf
  have hdiff : ∀ j < n, i32 (offset0 (j + 1)) - i32 (offset0 j) = i32 (offset0 (j + 1) - offset0 j) ∧
      offset0 (j + 1) - offset0 j < 2 ^ 31 ∧ offset0 j + (offset0 (j + 1) - offset0 j) < 2 ^ 31 := by
    intro j hj
    have h1 : offset0 j ≤ offset0 (j + 1) := by
      rw [hoff j (by omega), hoff (j + 1) hj]; exact scan_mono buf (by omega)
    have h2 := hof (j + 1) hj
    exact ⟨i32_sub h1, by omega, by omega⟩
  -- the first pass
  have ht1 : ∀ q k, k < (inserted nt prog q).length →
      target1 status permute (fun j => i32 (offset0 j)) q (i32 (0 + k)) =
        (Crs.target1 status permute offset0 q (0 + k)).map (fun x : ℕ => (x : ℤ)) := by
    intro q k hk
    have hq : q < n := by
      by_contra hq
      rw [hins0 q (by omega)] at hk
      omega
    obtain ⟨h1, h2, h3⟩ := hdiff _ (hp.lt hq)
    have h4 := hrow' q
    unfold target1 Crs.target1
    cases status
    · rfl
    all_goals
      dsimp only
      rw [h1, toInt_i32 h2, toInt_i32 (by omega : 0 + k < 2 ^ 31), i32_add]
      by_cases hc : 0 + k < offset0 (permute q + 1) - offset0 (permute q)
      · rw [if_pos (by exact_mod_cast hc), if_pos hc, toInt_i32 (by omega)]; rfl
      · rw [if_neg (by exact_mod_cast hc), if_neg hc]; rfl
  obtain ⟨hrun1, htot1⟩ := wide_run (c0 := fun _ => 0) (len := len0) ht1 out0 sched1
  unfold queryImpl Crs.queryImpl
  dsimp only
  change (runPass nt prog (target1 status permute fun j => i32 (offset0 j)) (fun _ => i32 0) len0 out0
    sched1 = _) at hrun1
  change (if (!finished nt (runPass nt prog (target1 status permute fun j => i32 (offset0 j))
    (fun _ => i32 0) len0 out0 sched1)) = true then _ else _) = _
  rw [show (fun _ : ℕ => (0 : BitVec 32)) = fun _ => i32 0 from rfl, hrun1, finished_wide]
  set p1 := Crs.runPass nt prog (Crs.target1 status permute offset0) (fun _ => 0) len0 out0 sched1
    with hp1
  cases hf1 : Crs.finished nt p1 with
  | false => rfl
  | true =>
  have hc1 : ∀ q, p1.counts q = (inserted nt prog q).length := by
    intro q
    have := counts_finished htot1 hf1 q
    simpa using this
  simp only [Bool.not_true, Bool.false_eq_true, if_false]
  change (if p1.fault = true then _ else _) = _
  cases hfa1 : p1.fault with
  | true => rfl
  | false =>
  simp only [Bool.false_eq_true, if_false]
  -- counts and offsets
  have hcnt : (wide p1).counts = fun q => i32 (p1.counts q) := rfl
  have hov : overflowed n permute status (fun j => i32 (offset0 j)) (wide p1).counts
      = Crs.overflowed n permute status offset0 p1.counts := by
    unfold overflowed Crs.overflowed
    cases status
    · rfl
    all_goals
      dsimp only
      rw [Bool.eq_iff_iff, List.any_eq_true, List.any_eq_true]
      have : ∀ i ∈ List.range n, (decide (((wide p1).counts i).toInt >
          (i32 (offset0 (permute i + 1)) - i32 (offset0 (permute i))).toInt) = true ↔
          decide (p1.counts i > offset0 (permute i + 1) - offset0 (permute i)) = true) := by
        intro i hi
        have hi := List.mem_range.mp hi
        obtain ⟨h1, h2, -⟩ := hdiff _ (hp.lt hi)
        rw [h1, hcnt, toInt_i32 h2, toInt_i32 (by rw [hc1]; exact hrow' i)]
        simp
      constructor
      · rintro ⟨i, hi, h⟩; exact ⟨i, hi, (this i hi).mp h⟩
      · rintro ⟨i, hi, h⟩; exact ⟨i, hi, (this i hi).mpr h⟩
  have hscan1 : Crs.scan p1.counts n = Crs.scan (fun j => (res j).length) n := by
    rw [← scan_perm hp (fun j => (res j).length)]
    exact scan_congr (fun i hi => by rw [hc1, hins i hi]) n le_rfl
  have hcopy : ∀ j < n, Crs.copyCounts permute p1.counts offset0 n j = (res j).length := by
    intro j hj
    obtain ⟨i, hi, rfl⟩ := hp.surj hj
    rw [copyCounts_apply hp _ _ n le_rfl i hi, hc1, hins i hi]
  set off := Crs.scan (Crs.copyCounts permute p1.counts offset0 n) with hoffd
  have hoffe : ∀ j ≤ n, off j = Crs.scan (fun j => (res j).length) j :=
    fun j hj => scan_congr hcopy j hj
  have hofflt : ∀ j ≤ n, off j < 2 ^ 31 := fun j hj => by
    rw [hoffe j hj]; exact (scan_mono _ hj).trans_lt hres
  have hoff32 : scan (copyCounts permute (wide p1).counts (fun j => i32 (offset0 j)) n)
      = fun j => i32 (off j) := by
    rw [hcnt, copyCounts_i32]
    funext j
    exact scan_i32 _ j
  have hun : decide ((scan (wide p1).counts n).toInt < (BitVec.ofNat 32 len0).toInt)
      = decide (Crs.scan p1.counts n < len0) := by
    rw [hcnt, scan_i32, toInt_i32 (by rw [hscan1]; exact hres), toInt_i32 hlen]
    simp
  have hoffl : (List.range (n + 1)).map (fun j => (i32 (off j)).toInt)
      = (toList off (n + 1)).map (fun x : ℕ => (x : ℤ)) := by
    unfold toList
    rw [List.map_map]
    apply List.map_congr_left
    intro j hj
    exact toInt_i32 (hofflt j (by have := List.mem_range.mp hj; omega))
  rw [hov, hun, hoff32]
  dsimp only
  rw [hoffl, toInt_i32 (hofflt n le_rfl)]
  have hz : ((off n : ℤ) = 0) ↔ off n = 0 := by omega
  by_cases h0 : off n = 0
  · rw [if_pos (hz.mpr h0), if_pos h0]; rfl
  rw [if_neg (fun h => h0 (hz.mp h)), if_neg h0, Int.toNat_natCast,
    if_neg (by omega : ¬ ((off n : ℤ) < 0)), if_neg (by omega : ¬ ((off n : ℤ) < 0))]
  cases hovv : Crs.overflowed n permute status offset0 p1.counts with
  | true =>
    simp only [if_true]
    by_cases hst : status = .hard
    · rw [if_pos hst, if_pos hst]; rfl
    rw [if_neg hst, if_neg hst]
    -- the second pass
    have ht2 : ∀ q k, k < (inserted nt prog q).length →
        target2 q (i32 (off (permute q) + k)) =
          (Crs.target2 q (off (permute q) + k)).map (fun x : ℕ => (x : ℤ)) := by
      intro q k hk
      have hq : q < n := by
        by_contra hq
        rw [hins0 q (by omega)] at hk
        omega
      have h1 := le_scan (fun j => (res j).length) (hp.lt hq)
      rw [← hoffe _ (hp.lt hq).le, ← hins q hq] at h1
      unfold target2 Crs.target2
      rw [toInt_i32 (by omega)]
      rfl
    obtain ⟨hrun2, -⟩ := wide_run (c0 := fun i => off (permute i)) (len := off n) ht2 (fun _ => none) sched2
    rw [hrun2, finished_wide]
    set p2 := Crs.runPass nt prog Crs.target2 (fun i => off (permute i)) (off n) (fun _ => none) sched2
    cases Crs.finished nt p2 with
    | false => rfl
    | true =>
      simp only [Bool.not_true, Bool.false_eq_true, if_false]
      change (if p2.fault = true then _ else _) = _
      cases p2.fault <;> rfl
  | false =>
    simp only [Bool.not_false, Bool.true_and, Bool.false_eq_true, if_false]
    by_cases hu : Crs.scan p1.counts n < len0
    · simp only [hu, decide_true, if_true]
      have hneg : negative n (fun j => i32 (off j)) (fun j => i32 (offset0 j)) = false := by
        unfold negative
        rw [List.any_eq_false]
        intro i hi
        have hi := List.mem_range.mp hi
        dsimp only
        rw [toInt_i32 (hofflt i hi.le), toInt_i32 (hof i hi.le)]
        simp only [decide_eq_true_eq]
        omega
      rw [hneg]
      simp only [Bool.false_eq_true, if_false]
      have hcmp : ∀ m ≤ n, compress (fun j => (i32 (off j)).toInt.toNat)
          (fun j => (i32 (offset0 j)).toInt.toNat) (wide p1).out m = compress off offset0 p1.out m := by
        intro m hm
        induction m with
        | zero => rfl
        | succ m ih =>
          unfold compress
          rw [ih (by omega)]
          rw [toInt_i32 (hofflt m (by omega)), toInt_i32 (hofflt (m + 1) hm), toInt_i32 (hof m (by omega))]
          rfl
      rw [hcmp n le_rfl]
      rfl
    · simp only [hu, decide_false, Bool.false_eq_true, if_false]
      rfl

/-! ## The theorems -/

/-- The room that the call of `query` reserves in advance. -/
def reserved (kind : Kind) (bufferSize : ℤ) (ks : ℕ → ℕ) (n : ℕ) : ℕ :=
  match kind with
  | .nearest => Crs.scan ks n
  | _ => n * bufferSize.natAbs

/-- **C76, part.** If the queries together have less than `2^31` results, and less than `2^31`
places are reserved in advance, then the code with its counters and offsets of type `int` does
what the code with unbounded numbers does, under every schedule: all of C09 applies. -/
theorem crs_int_partial {nt : ℕ} {prog : ℕ → List (ℕ × T)} {n : ℕ} {permute : ℕ → ℕ}
    {res : ℕ → List T} (himp : Implements nt prog n permute res) (hp : IsPerm n permute)
    (kind : Kind) (bufferSize : ℤ) (ks : ℕ → ℕ) (userLen : ℕ) (userOut : ℕ → Option T)
    (sched1 sched2 : List ℕ) (hres : ((List.range n).flatMap res).length < 2 ^ 31)
    (hbuf : reserved kind bufferSize ks n < 2 ^ 31) (huser : userLen < 2 ^ 31) :
    query kind bufferSize ks userLen userOut nt prog n permute sched1 sched2
      = ints (Crs.query kind bufferSize ks userLen userOut nt prog n permute sched1 sched2) := by
  rw [scan_length] at hres
  have hmul : ∀ b m : ℕ, Crs.scan (fun _ => b) m = m * b := by
    intro b m
    induction m with
    | zero => simp [Crs.scan]
    | succ m ih => simp [Crs.scan, ih, Nat.succ_mul]
  have hsp : ∀ status, (if bufferSize.natAbs ≠ 0 then
        queryImpl nt prog n permute status (scan (fun _ => BitVec.ofNat 32 bufferSize.natAbs))
          (n * bufferSize.natAbs) (fun _ => none) sched1 sched2
      else queryImpl nt prog n permute status (fun _ => 0) userLen userOut sched1 sched2)
      = ints (if bufferSize.natAbs ≠ 0 then
        Crs.queryImpl nt prog n permute status (Crs.scan (fun _ => bufferSize.natAbs))
          (n * bufferSize.natAbs) (fun _ => none) sched1 sched2
      else Crs.queryImpl nt prog n permute status (fun _ => 0) userLen userOut sched1 sched2) ∨
      2 ^ 31 ≤ n * bufferSize.natAbs := by
    intro status
    by_cases hb2 : 2 ^ 31 ≤ n * bufferSize.natAbs
    · exact .inr hb2
    left
    by_cases hb : bufferSize.natAbs = 0
    · rw [if_neg (by simpa using hb), if_neg (by simpa using hb)]
      exact queryImpl_eq himp hp status (fun _ => 0) (fun _ => 0) userLen userOut
        (fun j _ => by rw [hmul]; simp) huser (by rw [hmul]; simp) hres sched1 sched2
    · rw [if_pos hb, if_pos hb]
      have h1 : scan (fun _ => BitVec.ofNat 32 bufferSize.natAbs)
          = fun j => i32 (Crs.scan (fun _ => bufferSize.natAbs) j) := by
        funext j; exact scan_i32 (fun _ => bufferSize.natAbs) j
      rw [h1]
      exact queryImpl_eq himp hp status _ (fun _ => bufferSize.natAbs) _ _ (fun _ _ => rfl) (by omega)
        (by rw [hmul]; omega) hres sched1 sched2
  unfold query Crs.query
  cases kind
  · exact (hsp _).resolve_right (by unfold reserved at hbuf; dsimp only at hbuf; omega)
  · exact (hsp _).resolve_right (by unfold reserved at hbuf; dsimp only at hbuf; omega)
  · dsimp only
    unfold reserved at hbuf
    dsimp only at hbuf
    have h1 : scan (fun j => BitVec.ofNat 32 (ks j)) = fun j => i32 (Crs.scan ks j) := by
      funext j; exact scan_i32 ks j
    rw [h1]
    dsimp only
    rw [toInt_i32 hbuf, if_neg (by omega), Int.toNat_natCast]
    exact queryImpl_eq himp hp _ _ ks _ _ (fun _ _ => rfl) hbuf hbuf hres sched1 sched2

/-- **C76, part: the results.** As C09, for the code with `int`s. -/
theorem crs_int_rows_partial {nt : ℕ} {prog : ℕ → List (ℕ × T)} {n : ℕ} {permute : ℕ → ℕ}
    {res : ℕ → List T} (himp : Implements nt prog n permute res) (hp : IsPerm n permute)
    (kind : Kind) (bufferSize : ℤ) (ks : ℕ → ℕ) (userLen : ℕ) (userOut : ℕ → Option T)
    (sched1 sched2 : List ℕ) (h1 : Fair nt prog sched1) (h2 : Fair nt prog sched2)
    (hres : ((List.range n).flatMap res).length < 2 ^ 31)
    (hbuf : reserved kind bufferSize ks n < 2 ^ 31) (huser : userLen < 2 ^ 31) :
    if kind = .spatial ∧ bufferSize < 0 ∧ ∃ j < n, bufferSize.natAbs < (res j).length then
      query kind bufferSize ks userLen userOut nt prog n permute sched1 sched2 = .throw
    else ∃ (rows : ℕ → List T) (offset : List ℤ) (out : List (Option T)),
      query kind bufferSize ks userLen userOut nt prog n permute sched1 sched2 = .done offset out ∧
      (∀ j < n, (rows j).Perm (res j)) ∧ offset.length = n + 1 ∧
      (∀ i ≤ n, offset[i]? = some (((List.range i).flatMap rows).length : ℤ)) ∧
      out = ((List.range n).flatMap rows).map some := by
  rw [crs_int_partial himp hp kind bufferSize ks userLen userOut sched1 sched2 hres hbuf huser]
  have h := crs_query himp hp kind bufferSize ks userLen userOut sched1 sched2 h1 h2
  split_ifs at h ⊢ with hc
  · rw [h]; rfl
  · obtain ⟨rows, offset, out, he, hr, ⟨hl, ho, hout⟩, -⟩ := h
    refine ⟨rows, _, out, by rw [he]; rfl, hr, by rw [List.length_map, hl], fun i hi => ?_, hout⟩
    rw [List.getElem?_map, ho i hi]
    rfl

/-- **C76 is false without the bound.** If the number of results is `2^32`, or a multiple of
it, then a spatial query without buffer returns no result at all, without an error: the offsets
wrap around, the last one is zero, and the code leaves after the first pass (line 252). -/
theorem crs_results_lost {nt : ℕ} {prog : ℕ → List (ℕ × T)} {n : ℕ} {permute : ℕ → ℕ}
    {res : ℕ → List T} (himp : Implements nt prog n permute res) (hp : IsPerm n permute)
    (ks : ℕ → ℕ) (userLen : ℕ) (userOut : ℕ → Option T)
    (sched1 sched2 : List ℕ) (h1 : Fair nt prog sched1)
    (hres : 2 ^ 32 ∣ ((List.range n).flatMap res).length) :
    ∃ offset, query .spatial 0 ks userLen userOut nt prog n permute sched1 sched2
      = .done offset [] := by
  rw [scan_length] at hres
  have ht : ∀ q k, k < (inserted nt prog q).length →
      target1 .none permute (fun _ => i32 0) q (i32 (0 + k)) =
        (Crs.target1 .none permute (fun _ => 0) q (0 + k)).map (fun x : ℕ => (x : ℤ)) :=
    fun _ _ _ => rfl
  obtain ⟨hrun, htot⟩ := wide_run (c0 := fun _ => 0) (len := userLen) ht userOut sched1
  have hfin := pass_terminates h1 (Crs.target1 .none permute (fun _ => 0)) (fun _ => 0) userLen userOut
  set p1 := Crs.runPass nt prog (Crs.target1 .none permute (fun _ => 0)) (fun _ => 0) userLen userOut
    sched1
  have hc : ∀ q, p1.counts q = (inserted nt prog q).length := by
    intro q; simpa using counts_finished htot hfin q
  have hfault : p1.fault = false := by
    have hf : Fits nt prog (Crs.target1 .none permute (fun _ => 0)) (fun _ => 0) userLen :=
      ⟨fun _ _ _ _ _ _ _ h => (by cases h), fun _ _ _ _ h => (by cases h)⟩
    exact (pass_spec hf userOut sched1 hfin).choose_spec.2.2.1
  have hcopy : ∀ j < n, Crs.copyCounts permute p1.counts (fun _ => 0) n j = (res j).length := by
    intro j hj
    obtain ⟨i, hi, rfl⟩ := hp.surj hj
    rw [copyCounts_apply hp _ _ n le_rfl i hi, hc, (himp.rows i hi).length_eq]
  have hlast : scan (copyCounts permute (wide p1).counts (fun _ => 0) n) n = 0 := by
    have h2 : copyCounts permute (wide p1).counts (fun _ => 0) n
        = fun i => i32 (Crs.copyCounts permute p1.counts (fun _ => 0) n i) :=
      copyCounts_i32 permute p1.counts (fun _ => 0) n
    rw [h2, scan_i32, scan_congr hcopy n le_rfl]
    obtain ⟨m, hm⟩ := hres
    rw [hm]
    apply BitVec.eq_of_toNat_eq
    simp
  refine ⟨(List.range (n + 1)).map (fun j =>
    (scan (copyCounts permute (wide p1).counts (fun _ => 0) n) j).toInt), ?_⟩
  change queryImpl nt prog n permute .none (fun _ => i32 0) userLen userOut sched1 sched2 = _
  unfold queryImpl
  dsimp only
  change runPass nt prog (target1 .none permute fun _ => i32 0) (fun _ => 0) userLen userOut sched1 = _
    at hrun
  rw [hrun, finished_wide, hfin]
  change (if (!true) = true then _ else if p1.fault = true then _ else _) = _
  rw [hfault]
  change (if (!true) = true then _ else if false = true then _ else
    if (scan (copyCounts permute (wide p1).counts (fun _ => 0) n) n).toInt = 0 then _ else _) = _
  rw [hlast]
  rfl

/-- Every thread inserts the results of its query. -/
def own (res : ℕ → List T) : ℕ → List (ℕ × T) := fun i => (res i).map (fun v => (i, v))

lemma own_implements (res : ℕ → List T) (n : ℕ) : Implements n (own res) n id res := by
  constructor
  · intro i hi
    unfold inserted
    have : ∀ m, (((List.range m).flatMap (own res)).filter (fun e => decide (e.1 = i))).map (·.2)
        = if i < m then res i else [] := by
      intro m
      induction m with
      | zero => simp
      | succ m ih =>
        rw [List.range_succ, List.flatMap_append, List.filter_append, List.map_append, ih]
        simp only [List.flatMap_cons, List.flatMap_nil, List.append_nil, own]
        by_cases h : m = i
        · subst h
          rw [if_neg (by omega), if_pos (by omega), List.filter_eq_self.mpr (by simp)]
          simp
        · rw [List.filter_eq_nil_iff.mpr (by simpa using fun _ _ => h)]
          by_cases h2 : i < m
          · simp [h2, show i < m + 1 by omega]
          · simp [h2, show ¬ i < m + 1 by omega]
    rw [this, if_pos hi]
    rfl
  · intro t ht e he
    obtain ⟨v, -, rfl⟩ := List.mem_map.mp he
    exact ht

section BVH
open Traversal

variable {α V : Type} {w : ℕ} [SemilatticeSup V] [OrderBot V]

lemma spatial_calls (I : Input α V w) (h : I.Valid) (bsched : List ℕ)
    (hf : I.Finished bsched) (n : ℕ) (pl : ℕ → α → Bool) (pv : ℕ → V → Bool)
    (mono : ∀ j < n, Traversal.Monotone I.vol (pl j) (pv j)) (fuel : ℕ) (hfuel : 2 * I.n ≤ fuel) :
    ∃ calls : ℕ → List α, ∀ j < n,
      spatialQuery (I.build bsched) (pl j) (pv j) (fun _ => false) fuel = .done (calls j) ∧
      (calls j).Perm (I.stored.filter (pl j)) := by
  have : ∀ j, ∃ c : List α, j < n → spatialQuery (I.build bsched) (pl j) (pv j) (fun _ => false) fuel
      = .done c ∧ c.Perm (I.stored.filter (pl j)) := by
    intro j
    by_cases hj : j < n
    · obtain ⟨c, h1, h2⟩ := spatial_query_exact I h (pl j) (pv j) (mono j hj) bsched hf fuel hfuel
      exact ⟨c, fun _ => ⟨h1, h2⟩⟩
    · exact ⟨[], fun h => absurd h hj⟩
  choose calls hc using this
  exact ⟨calls, hc⟩

lemma length_congr {n : ℕ} {f g : ℕ → List α} (h : ∀ j < n, (f j).Perm (g j)) :
    ((List.range n).flatMap f).length = ((List.range n).flatMap g).length := by
  rw [scan_length, scan_length]
  exact scan_congr (fun j hj => (h j hj).length_eq) n le_rfl

/-- **C76, part, on a tree.** If the queries together have less than `2^31` results, a spatial
query with a soft buffer returns one row for each predicate, in the order of the predicates,
with exactly the stored values that satisfy it. -/
theorem crs_int_spatial_partial (I : Input α V w) (h : I.Valid) (bsched : List ℕ)
    (hf : I.Finished bsched) (n : ℕ) (pl : ℕ → α → Bool) (pv : ℕ → V → Bool)
    (mono : ∀ j < n, Traversal.Monotone I.vol (pl j) (pv j)) {permute : ℕ → ℕ} (hp : IsPerm n permute)
    (bufferSize : ℤ) (hb : 0 ≤ bufferSize) (ks : ℕ → ℕ) (userLen : ℕ) (userOut : ℕ → Option α)
    (fuel : ℕ) (hfuel : 2 * I.n ≤ fuel)
    (hres : ((List.range n).flatMap (fun j => I.stored.filter (pl j))).length < 2 ^ 31)
    (hbuf : n * bufferSize.natAbs < 2 ^ 31) (huser : userLen < 2 ^ 31) :
    ∃ calls : ℕ → List α,
      (∀ j < n, spatialQuery (I.build bsched) (pl j) (pv j) (fun _ => false) fuel = .done (calls j)) ∧
      ∀ sched1 sched2, Fair n (own (fun i => calls (permute i))) sched1 →
        Fair n (own (fun i => calls (permute i))) sched2 →
      ∃ (rows : ℕ → List α) (offset : List ℤ) (out : List (Option α)),
        query .spatial bufferSize ks userLen userOut n (own (fun i => calls (permute i))) n permute
          sched1 sched2 = .done offset out ∧
        (∀ j < n, (rows j).Perm (I.stored.filter (pl j))) ∧ offset.length = n + 1 ∧
        (∀ i ≤ n, offset[i]? = some (((List.range i).flatMap rows).length : ℤ)) ∧
        out = ((List.range n).flatMap rows).map some := by
  obtain ⟨calls, hc⟩ := spatial_calls I h bsched hf n pl pv mono fuel hfuel
  refine ⟨calls, fun j hj => (hc j hj).1, fun sched1 sched2 f1 f2 => ?_⟩
  have himp : Implements n (own (fun i => calls (permute i))) n permute calls :=
    ⟨(own_implements _ n).rows, (own_implements _ n).idx⟩
  have := crs_int_rows_partial himp hp .spatial bufferSize ks userLen userOut sched1 sched2 f1 f2
    (by rw [length_congr (fun j hj => (hc j hj).2)]; exact hres) hbuf huser
  rw [if_neg (by rintro ⟨-, h, -⟩; omega)] at this
  obtain ⟨rows, offset, out, h1, h2, h3⟩ := this
  exact ⟨rows, offset, out, h1, fun j hj => (h2 j hj).trans (hc j hj).2, h3⟩

/-- **C76 is false without the bound, on a tree.** -/
theorem crs_spatial_lost (I : Input α V w) (h : I.Valid) (bsched : List ℕ)
    (hf : I.Finished bsched) (n : ℕ) (pl : ℕ → α → Bool) (pv : ℕ → V → Bool)
    (mono : ∀ j < n, Traversal.Monotone I.vol (pl j) (pv j)) {permute : ℕ → ℕ} (hp : IsPerm n permute)
    (ks : ℕ → ℕ) (userLen : ℕ) (userOut : ℕ → Option α) (fuel : ℕ) (hfuel : 2 * I.n ≤ fuel)
    (hres : 2 ^ 32 ∣ ((List.range n).flatMap (fun j => I.stored.filter (pl j))).length) :
    ∃ calls : ℕ → List α,
      (∀ j < n, spatialQuery (I.build bsched) (pl j) (pv j) (fun _ => false) fuel = .done (calls j)) ∧
      ∀ sched1 sched2, Fair n (own (fun i => calls (permute i))) sched1 →
      ∃ offset, query .spatial 0 ks userLen userOut n (own (fun i => calls (permute i))) n permute
          sched1 sched2 = .done offset [] := by
  obtain ⟨calls, hc⟩ := spatial_calls I h bsched hf n pl pv mono fuel hfuel
  refine ⟨calls, fun j hj => (hc j hj).1, fun sched1 sched2 f1 => ?_⟩
  have himp : Implements n (own (fun i => calls (permute i))) n permute calls :=
    ⟨(own_implements _ n).rows, (own_implements _ n).idx⟩
  exact crs_results_lost himp hp ks userLen userOut sched1 sched2 f1
    (by rw [length_congr (fun j hj => (hc j hj).2)]; exact hres)

end BVH

/-! ## Examples -/

/-- `65536` queries, all of which find all of `65536` values: `2^32` results. -/
def everywhere (T : Type) (v : T) : ℕ → List T := fun _ => List.replicate 65536 v

lemma id_perm (n : ℕ) : IsPerm n id := by simp [IsPerm]

/-- There is a fair schedule for every pass. -/
lemma exists_fair (nt : ℕ) (prog : ℕ → List (ℕ × T)) : ∃ sched, Fair nt prog sched := by
  refine ⟨(List.range nt).flatMap (fun t => List.replicate (2 * (prog t).length) t), fun t ht => ?_⟩
  induction nt with
  | zero => omega
  | succ nt ih =>
    rw [List.range_succ, List.flatMap_append, List.count_append]
    rcases Nat.lt_or_ge t nt with h | h
    · exact (ih h).trans (Nat.le_add_right _ _)
    · have : t = nt := by omega
      subst this
      simp

/-- `65536` coincident values and `65536` queries that all find all of them: under every fair
schedule, the result is empty. -/
example : (∃ sched1, Fair 65536 (own (everywhere ℕ 7)) sched1) ∧
    ∀ sched1 sched2 : List ℕ, Fair 65536 (own (everywhere ℕ 7)) sched1 → ∃ offset, query .spatial 0 (fun _ => 0) 0 (fun _ => none) 65536 (own (everywhere ℕ 7)) 65536 id
      sched1 sched2 = .done offset [] := by
  refine ⟨exists_fair _ _, fun sched1 sched2 h => ?_⟩
  refine crs_results_lost (own_implements (everywhere ℕ 7) 65536) (id_perm _) _ _ _ _ _ h ?_
  rw [scan_length]
  have : ∀ m, Crs.scan (fun j => (everywhere ℕ 7 j).length) m = m * 65536 := by
    intro m
    induction m with
    | zero => rfl
    | succ m ih => rw [Crs.scan, ih, everywhere, List.length_replicate, Nat.succ_mul]
  rw [this]
  exact ⟨1, by norm_num⟩

/-- Three queries with three, one and two results, with a buffer for two results each. -/
example : query .spatial 2 (fun _ => 0) 0 (fun _ => none) 3 (own (fun i => ([[1, 2, 3], [4], [5, 6]] : List (List ℕ)).getD i [])) 3 id
    [0, 0, 1, 2, 2, 1, 0, 0, 2, 2, 0, 0] [0, 0, 1, 2, 2, 1, 0, 0, 2, 2, 0, 0]
    = .done [0, 3, 4, 6] [some 1, some 2, some 3, some 4, some 5, some 6] := by
  decide +kernel

end ArborX.Crs.Int32
