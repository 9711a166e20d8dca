import Verif.Distributed.ByteExchange
import Verif.Distributed.Theorems

/-!
# The `Distributor` with messages counted in bytes (C95)

The specification is `select`, `deliver` (`Exchange.lean`), `byteSize`, `arrives` and `received` (`ByteExchange.lean`).
-/

namespace ArborX.Distributed

instance : Nonempty Plan := ⟨⟨⟨[], [], [0]⟩, [], [0]⟩⟩

/-- The number of items process `r` receives. -/
def receiveTotal (P : ℕ) (dest : ℕ → List ℤ) (r : ℕ) : ℕ := ((List.range P).map (fun s => (dest s).count (r : ℤ))).sum

lemma offsetsFrom_le {ws : List ℕ} {o x : ℕ} (h : x ∈ offsetsFrom o ws) : x ≤ o + ws.sum := by
  induction ws generalizing o with
  | nil => simp only [offsetsFrom, List.mem_singleton] at h; simp [h]
  | cons w ws ih =>
    rw [offsetsFrom, List.mem_cons] at h
    rw [List.sum_cons]
    rcases h with rfl | h
    · omega
    · have := ih h; omega

lemma Good.offset_le {dest : List ℤ} {L : Layout} (h : Good dest L) {x : ℕ} (hx : x ∈ L.destOffsets) : x ≤ dest.length := by
  obtain ⟨i, hi, rfl⟩ := List.mem_iff_getElem.mp hx
  have hl := h.len
  have := h.mono (show i ≤ L.destinations.length by omega) le_rfl
  rw [h.back, List.getD_eq_getElem?_getD, List.getElem?_eq_getElem hi] at this
  exact this

/-- `createFromSends` with `int`s succeeds on a process exactly if the number of items it sends and the number of items it receives fit into an `int`; then it is the
distributor of `distributor_delivers`. -/
theorem create_int_iff (E : Env) (hE : E.Valid) (P : ℕ) (dest : ℕ → List ℤ) (hr : ∀ s < P, ∀ d ∈ dest s, 0 ≤ d ∧ d < P) :
    ∀ r < P, ((createFromSendsI E P dest r).isSome ↔ (dest r).length < 2 ^ 31 ∧ receiveTotal P dest r < 2 ^ 31) ∧
      ∀ p, createFromSendsI E P dest r = some p → createFromSends E P dest r = some p := by
  have hex := fun s (hs : s < P) => layoutFromRanks_good E hE (dest s) (fun d hd => (hr s hs d hd).1)
  set L : ℕ → Layout := fun s => (layoutFromRanks E (dest s)).getD ⟨[], [], [0]⟩ with hL
  have hg : ∀ s < P, Good (dest s) (L s) := by
    intro s hs
    obtain ⟨l, h1, h2⟩ := hex s hs
    rw [hL]; simp only [h1, Option.getD_some]; exact h2
  have hcr : ∀ r, createFromSends E P dest r = prepare E P L r := by
    intro r
    unfold createFromSends
    rw [if_pos]
    rw [List.all_eq_true]
    intro s hs
    obtain ⟨l, h1, -⟩ := hex s (List.mem_range.mp hs)
    rw [h1]; rfl
  obtain ⟨h0, hp⟩ := exchange_good E hE P dest L hg hr
  have hplan : ∀ r < P, ∃ p, prepare E P L r = some p := fun r hrP => Option.isSome_iff_exists.mp (h0 r hrP)
  choose! plan hplan using hplan
  obtain ⟨himp, -⟩ := hp plan hplan
  intro r hrP
  have hpr : plan r = ⟨L r, (sourcesOf E P L r).map (·.1), offsetsFrom 0 ((sourcesOf E P L r).map (·.2))⟩ := by
    have := hplan r hrP
    unfold prepare at this
    split_ifs at this
    exact (Option.some.inj this).symm
  have hsum : ((sourcesOf E P L r).map (·.2)).sum = receiveTotal P dest r := by
    have := himp r hrP
    rw [hpr] at this
    unfold Plan.imports at this
    simp only [offsetsFrom_last, Nat.zero_add, Option.getD_some] at this
    exact this
  have hI : createFromSendsI E P dest r = if AreInts (plan r).ints then some (plan r) else none := by
    unfold createFromSendsI
    rw [hcr, hplan r hrP]; rfl
  have hints : AreInts (plan r).ints ↔ (dest r).length < 2 ^ 31 ∧ receiveTotal P dest r < 2 ^ 31 := by
    unfold AreInts Plan.ints
    constructor
    · intro hall
      have h1 : (dest r).length ∈ (L r).destOffsets := List.mem_of_getLast? (hg r hrP).last
      have h2 : receiveTotal P dest r ∈ (plan r).srcOffsets := by
        rw [hpr]
        simp only
        refine List.mem_of_getLast? ?_
        rw [offsetsFrom_last, hsum, Nat.zero_add]
      have e1 := (hall ((dest r).length : ℕ) (List.mem_map.mpr ⟨_, List.mem_append_left _ (by rw [hpr]; exact h1), rfl⟩)).2
      have e2 := (hall (receiveTotal P dest r : ℕ) (List.mem_map.mpr ⟨_, List.mem_append_right _ h2, rfl⟩)).2
      omega
    · rintro ⟨h1, h2⟩ x hx
      obtain ⟨y, hy, rfl⟩ := List.mem_map.mp hx
      have : y < 2 ^ 31 := by
        rcases List.mem_append.mp hy with hy | hy
        · rw [hpr] at hy
          have := (hg r hrP).offset_le hy
          omega
        · rw [hpr] at hy
          have := offsetsFrom_le hy
          rw [hsum] at this
          omega
      constructor <;> omega
  refine ⟨?_, ?_⟩
  · rw [hI, ← hints]
    split_ifs with hh <;> simp [hh]
  · intro p hpe
    rw [hI] at hpe
    rw [hcr, hplan r hrP]
    split_ifs at hpe
    exact hpe

/-- `createFromSends` on every process, then an exchange of items of `sz` bytes. If the lowest 32 bits of the size of some message are at least `2 ^ 31` then MPI reports an error.
Otherwise the call succeeds, and of each message exactly as many bytes arrive as the lowest 32 bits of its size say. -/
theorem distributor_bytes (E : Env) (hE : E.Valid) (P : ℕ) (dest : ℕ → List ℤ) (hr : ∀ s < P, ∀ d ∈ dest s, 0 ≤ d ∧ d < P)
    (plan : ℕ → Plan) (hplan : ∀ r < P, createFromSendsI E P dest r = some (plan r)) (sz : ℕ) (hsz : 0 < sz) (E' : Env) (hE' : E'.Valid)
    (T : Type) (exports : ℕ → List T) (hlen : ∀ s < P, (exports s).length = (dest s).length) :
    ∀ r < P, exchangeI E' P sz plan exports r (plan r).imports =
      if ∃ s < P, ∃ r < P, s ≠ r ∧ 2 ^ 31 ≤ byteSize sz dest s r % 2 ^ 32 then none else some (received sz P dest exports r) := by
  have hex := fun s (hs : s < P) => layoutFromRanks_good E hE (dest s) (fun d hd => (hr s hs d hd).1)
  set L : ℕ → Layout := fun s => (layoutFromRanks E (dest s)).getD ⟨[], [], [0]⟩ with hL
  have hg : ∀ s < P, Good (dest s) (L s) := by
    intro s hs
    obtain ⟨l, h1, h2⟩ := hex s hs
    rw [hL]; simp only [h1, Option.getD_some]; exact h2
  have hcr : ∀ r, createFromSends E P dest r = prepare E P L r := by
    intro r
    unfold createFromSends
    rw [if_pos]
    rw [List.all_eq_true]
    intro s hs
    obtain ⟨l, h1, -⟩ := hex s (List.mem_range.mp hs)
    rw [h1]; rfl
  have hpl : ∀ r < P, prepare E P L r = some (plan r) := by
    intro r hrP
    rw [← hcr]
    exact (create_int_iff E hE P dest hr r hrP).2 _ (hplan r hrP)
  exact exchangeI_good E hE P dest L hg hr plan hpl sz hsz E' hE' exports hlen

lemma received_small {T : Type} {sz P : ℕ} {dest : ℕ → List ℤ} {exports : ℕ → List T} (hlen : ∀ s < P, (exports s).length = (dest s).length)
    {r : ℕ} (h : ∀ s < P, s ≠ r → byteSize sz dest s r < 2 ^ 31) : received sz P dest exports r = (deliver P dest exports r).map some := by
  unfold received deliver
  rw [List.map_flatMap]
  apply List.flatMap_congr
  intro s hs
  have hs := List.mem_range.mp hs
  split_ifs with hsr
  · rfl
  · apply arrives_small
    rw [select_length (hlen s hs)]
    have := h s hs hsr
    unfold byteSize at this
    omega

lemma received_large {T : Type} {sz P : ℕ} {dest : ℕ → List ℤ} {exports : ℕ → List T} (hlen : ∀ s < P, (exports s).length = (dest s).length)
    {s r : ℕ} (hs : s < P) (hsr : s ≠ r) (h : 2 ^ 32 ≤ byteSize sz dest s r) : none ∈ received sz P dest exports r := by
  unfold received
  refine List.mem_flatMap.mpr ⟨s, List.mem_range.mpr hs, ?_⟩
  rw [if_neg hsr]
  unfold byteSize at h
  have hl := select_length (hlen s hs) (r : ℤ)
  set row := select (exports s) (dest s) (r : ℤ)
  have hpos : 0 < row.length := by
    rw [hl]
    rcases Nat.eq_zero_or_pos ((dest s).count (r : ℤ)) with h0 | h0
    · rw [h0] at h; simp at h
    · exact h0
  unfold arrives
  refine List.mem_iff_getElem.mpr ⟨row.length - 1, by simp; omega, ?_⟩
  rw [List.getElem_mapIdx, if_neg]
  rw [Nat.sub_add_cancel hpos, hl]
  have := Nat.mod_lt ((dest s).count (r : ℤ) * sz) (show 0 < 2 ^ 32 by norm_num)
  omega

/-- Exchanges deliver if every message between two processes has less than `2 ^ 31` bytes. The full claim of C27 has no such condition; it is false (`distributor_bytes_iff`,
`distributor_loses`). -/
theorem distributor_delivers_bytes_partial (E : Env) (hE : E.Valid) (P : ℕ) (dest : ℕ → List ℤ) (hr : ∀ s < P, ∀ d ∈ dest s, 0 ≤ d ∧ d < P)
    (plan : ℕ → Plan) (hplan : ∀ r < P, createFromSendsI E P dest r = some (plan r)) (sz : ℕ) (hsz : 0 < sz) (E' : Env) (hE' : E'.Valid)
    (T : Type) (exports : ℕ → List T) (hlen : ∀ s < P, (exports s).length = (dest s).length)
    (hsmall : ∀ s < P, ∀ r < P, s ≠ r → byteSize sz dest s r < 2 ^ 31) :
    ∀ r < P, exchangeI E' P sz plan exports r (plan r).imports = some ((deliver P dest exports r).map some) := by
  intro r hrP
  rw [distributor_bytes E hE P dest hr plan hplan sz hsz E' hE' T exports hlen r hrP, if_neg, received_small hlen (fun s hs => hsmall s hs r hrP)]
  rintro ⟨s, hs, r, hr', hne, hh⟩
  have := hsmall s hs r hr' hne
  have := Nat.mod_le (byteSize sz dest s r) (2 ^ 32)
  omega

/-- The processes all get their items exactly if every message between two processes has less than `2 ^ 31` bytes. -/
theorem distributor_bytes_iff (E : Env) (hE : E.Valid) (P : ℕ) (dest : ℕ → List ℤ) (hr : ∀ s < P, ∀ d ∈ dest s, 0 ≤ d ∧ d < P)
    (plan : ℕ → Plan) (hplan : ∀ r < P, createFromSendsI E P dest r = some (plan r)) (sz : ℕ) (hsz : 0 < sz) (E' : Env) (hE' : E'.Valid)
    (T : Type) (exports : ℕ → List T) (hlen : ∀ s < P, (exports s).length = (dest s).length) :
    (∀ r < P, exchangeI E' P sz plan exports r (plan r).imports = some ((deliver P dest exports r).map some)) ↔
      ∀ s < P, ∀ r < P, s ≠ r → byteSize sz dest s r < 2 ^ 31 := by
  refine ⟨fun hall s hs r hrP hne => ?_, distributor_delivers_bytes_partial E hE P dest hr plan hplan sz hsz E' hE' T exports hlen⟩
  by_contra hlarge
  have hd := hall r hrP
  rw [distributor_bytes E hE P dest hr plan hplan sz hsz E' hE' T exports hlen r hrP] at hd
  split_ifs at hd with hbad
  have hmod : byteSize sz dest s r % 2 ^ 32 < 2 ^ 31 := by
    by_contra hh
    exact hbad ⟨s, hs, r, hrP, hne, by omega⟩
  have h32 : 2 ^ 32 ≤ byteSize sz dest s r := by
    by_contra hh
    rw [Nat.mod_eq_of_lt (by omega)] at hmod
    exact hlarge hmod
  have hm := received_large hlen hs hne h32
  rw [Option.some.inj hd] at hm
  simp at hm

/-! ## Lost messages -/

/-- Process 0 sends `n` items to process 1. -/
def bulk (n : ℕ) (s : ℕ) : List ℤ := if s = 0 then List.replicate n 1 else []

lemma bulk_range (n : ℕ) : ∀ s < 2, ∀ d ∈ bulk n s, 0 ≤ d ∧ d < (2 : ℕ) := by
  intro s _ d hd
  unfold bulk at hd
  split_ifs at hd
  · rw [List.mem_replicate] at hd
    rw [hd.2]; decide
  · simp at hd

lemma bulk_total (n : ℕ) : receiveTotal 2 (bulk n) 0 = 0 ∧ receiveTotal 2 (bulk n) 1 = n := by
  unfold receiveTotal bulk
  constructor <;> simp [List.range_succ, List.count_replicate]

/-- Distributors for fewer than `2 ^ 31` items exist. -/
lemma bulk_plan (E : Env) (hE : E.Valid) (n : ℕ) (hn : n < 2 ^ 31) : ∃ plan : ℕ → Plan, ∀ r < 2, createFromSendsI E 2 (bulk n) r = some (plan r) := by
  have h : ∀ r < 2, ∃ p, createFromSendsI E 2 (bulk n) r = some p := by
    intro r hr
    refine Option.isSome_iff_exists.mp ((create_int_iff E hE 2 (bulk n) (bulk_range n) r hr).1.mpr ?_)
    obtain ⟨h0, h1⟩ := bulk_total n
    have : r = 0 ∨ r = 1 := by omega
    rcases this with rfl | rfl
    · rw [h0]; simpa [bulk] using hn
    · rw [h1]; simpa [bulk] using hn
  choose! plan hplan using h
  exact ⟨plan, hplan⟩

/-- The defect: process 0 sends a message of `2 ^ 32` bytes to process 1, for example `2 ^ 28` items of 16 bytes. The call succeeds on both processes, and none of the items
arrives. -/
theorem distributor_loses (E : Env) (hE : E.Valid) (E' : Env) (hE' : E'.Valid) (n sz : ℕ) (hn : n < 2 ^ 31) (hsz : n * sz = 2 ^ 32) (T : Type)
    (items : List T) (hi : items.length = n) :
    ∃ plan : ℕ → Plan, (∀ r < 2, createFromSendsI E 2 (bulk n) r = some (plan r)) ∧
      exchangeI E' 2 sz plan (fun s => if s = 0 then items else []) 0 (plan 0).imports = some [] ∧
      exchangeI E' 2 sz plan (fun s => if s = 0 then items else []) 1 (plan 1).imports = some (List.replicate n none) := by
  obtain ⟨plan, hplan⟩ := bulk_plan E hE n hn
  refine ⟨plan, hplan, ?_⟩
  have hz : 0 < sz := by
    rcases Nat.eq_zero_or_pos sz with h0 | h0
    · rw [h0] at hsz; norm_num at hsz
    · exact h0
  have hlen : ∀ s < 2, (if s = 0 then items else []).length = (bulk n s).length := by
    intro s _
    unfold bulk
    split_ifs
    · rw [List.length_replicate, hi]
    · rfl
  have hb := distributor_bytes E hE 2 (bulk n) (bulk_range _) plan hplan sz hz E' hE' T
    (fun s => if s = 0 then items else []) hlen
  have hno : ¬ ∃ s < 2, ∃ r < 2, s ≠ r ∧ 2 ^ 31 ≤ byteSize sz (bulk n) s r % 2 ^ 32 := by
    rintro ⟨s, -, r, -, -, hh⟩
    unfold byteSize bulk at hh
    split_ifs at hh
    · rw [List.count_replicate] at hh
      split_ifs at hh
      · rw [hsz] at hh; norm_num at hh
      · norm_num at hh
    · simp at hh
  have e0 := hb 0 (by norm_num)
  have e1 := hb 1 (by norm_num)
  rw [if_neg hno] at e0 e1
  refine ⟨e0.trans ?_, e1.trans ?_⟩
  · have h0 := select_length (exports := items) (dest := bulk n 0) (by rw [hi]; simp [bulk]) ((0 : ℕ) : ℤ)
    have hc : (bulk n 0).count ((0 : ℕ) : ℤ) = 0 := by
      unfold bulk; rw [if_pos rfl, List.count_replicate]; rfl
    rw [hc, List.length_eq_zero_iff] at h0
    unfold received
    simp only [List.range_succ, List.range_zero, List.nil_append, List.flatMap_cons, List.flatMap_nil, List.cons_append, if_true, h0]
    rw [if_neg (by norm_num)]
    unfold bulk
    simp [select, arrives]
  · have h1 := select_length (exports := items) (dest := bulk n 0) (by rw [hi]; simp [bulk]) ((1 : ℕ) : ℤ)
    have hc : (bulk n 0).count ((1 : ℕ) : ℤ) = n := by
      unfold bulk; rw [if_pos rfl]; exact List.count_replicate_self
    rw [hc] at h1
    unfold received
    simp only [List.range_succ, List.range_zero, List.nil_append, List.flatMap_cons, List.flatMap_nil, List.cons_append, if_true]
    have h2 : select ([] : List T) (bulk n 1) ((1 : ℕ) : ℤ) = [] := by simp [select]
    rw [if_neg (by norm_num), if_neg (by norm_num), h2]
    simp only [List.map_nil, List.append_nil]
    refine congrArg some (List.eq_replicate_iff.mpr ⟨(arrives_length _ _).trans h1, ?_⟩)
    intro b hb
    unfold arrives at hb
    obtain ⟨k, hk, rfl⟩ := List.mem_iff_getElem.mp hb
    rw [List.getElem_mapIdx, if_neg]
    rw [h1, hsz, Nat.mod_self]
    exact Nat.not_le.mpr (Nat.mul_pos (Nat.succ_pos k) hz)

/-! ## Cases that meet the hypotheses -/

/-- The three processes of `Theorems.lean` with items of 8 bytes. -/
example : (∀ r < 3, (createFromSendsI someEnv 3 someDest r).isSome) ∧ ∀ s < 3, ∀ r < 3, s ≠ r → byteSize 8 someDest s r < 2 ^ 31 := by
  refine ⟨fun r hr => (create_int_iff someEnv someEnv_valid 3 someDest (by decide) r hr).1.mpr ?_, by decide⟩
  have : ∀ r < 3, (someDest r).length < 2 ^ 31 ∧ receiveTotal 3 someDest r < 2 ^ 31 := by decide
  exact this r hr

/-- `2 ^ 28` items of 16 bytes. -/
example : ∃ n sz : ℕ, n < 2 ^ 31 ∧ n * sz = 2 ^ 32 ∧ ∃ items : List Bool, items.length = n :=
  ⟨2 ^ 28, 16, by norm_num, by norm_num, _, List.length_replicate (a := true)⟩

end ArborX.Distributed
