import Verif.Mpi.Rounds
import Verif.Mpi.Programs
import Verif.DistDbscan.MergeLemmas

/-! # The programs of the processes and the functions on all processes

If a function on all processes (`Verif/Distributed`, `Verif/DistDbscan`) succeeds, then the programs of the processes run, round by round, and have its results. -/

namespace ArborX.Mpi

open Distributed DistDbscan BVH Traversal

variable {Q T V D O β X : Type} {P : ℕ}

lemma Runs.congr {C X M R : Type} {p p' : ℕ → Prog C X M R} {res : ℕ → R} (h : Runs P p res) (hp : ∀ s < P, p' s = p s) : Runs P p' res := by
  cases h with
  | done h => exact .done fun s hs => (hp s hs).trans (h s hs)
  | coll c x k h hr => exact .coll c x k (fun s hs => (hp s hs).trans (h s hs)) hr
  | exch src msgs k h h1 h2 h3 hr => exact .exch src msgs k (fun s hs => (hp s hs).trans (h s hs)) h1 h2 h3 hr

lemma collect_some [Inhabited β] {f : ℕ → Option β} {b : ℕ → β} (h : collect P f = some b) : ∀ r < P, f r = some (b r) := by
  unfold collect at h
  split at h
  · rename_i ha
    simp only [Option.some.injEq] at h
    subst h
    intro r hr
    have := List.all_eq_true.1 ha r (by simpa using hr)
    obtain ⟨y, hy⟩ := Option.isSome_iff_exists.1 this
    simp [hy]
  · cases h

lemma local_runs {f : ℕ → Option β} {b : ℕ → β} (h : ∀ r < P, f r = some (b r)) {k : ℕ → β → LProg V D O} {res : ℕ → Option O} (hr : Runs P (fun r => k r (b r)) res) :
    Runs P (fun r => localP (f r) (k r)) res :=
  hr.congr fun s hs => by rw [h s hs]; rfl

/-! ## `createFromSends` -/

lemma sourcesOf_congr {E : Env} {L L' : ℕ → Distributed.Layout} (h : ∀ s < P, L s = L' s) (r : ℕ) : sourcesOf E P L r = sourcesOf E P L' r := by
  unfold sourcesOf
  split
  · refine List.filterMap_congr fun s hs => ?_
    rw [h s (List.mem_range.1 hs)]
  · congr 2
    refine List.flatMap_congr fun s hs => ?_
    rw [h s (List.mem_range.1 hs)]

lemma prepare_congr {E : Env} {L L' : ℕ → Distributed.Layout} (h : ∀ s < P, L s = L' s) {r : ℕ} (hr : r < P) : prepare E P L r = prepare E P L' r := by
  unfold prepare
  have : ((List.range P).all fun s => (L s).destinations.all fun d => decide (0 ≤ d ∧ d < P)) = (List.range P).all fun s => (L' s).destinations.all fun d => decide (0 ≤ d ∧ d < P) := by
    rw [Bool.eq_iff_iff, List.all_eq_true, List.all_eq_true]
    constructor
    · intro h1 s hs; rw [← h s (List.mem_range.1 hs)]; exact h1 s hs
    · intro h1 s hs; rw [h s (List.mem_range.1 hs)]; exact h1 s hs
  rw [this, sourcesOf_congr h, h r hr]

lemma layouts_get (L : ℕ → Distributed.Layout) {s : ℕ} (hs : s < P) : layouts (V := V) ((List.range P).map fun s => .layout (L s)) s = L s := by
  unfold layouts
  simp [hs]

/-- The distributors `plan` come from a call of `createFromSends` on all processes. -/
def Prepared (P : ℕ) (plan : ℕ → Plan) : Prop := ∃ E : Env, E.Valid ∧ ∃ L, ∀ r < P, prepare E P L r = some (plan r)

lemma create_runs {E : Env} (hE : E.Valid) {lay : ℕ → Option Distributed.Layout} {plan : ℕ → Plan}
    (h : collect P (fun r => if (List.range P).all (fun s => (lay s).isSome) then prepare E P (fun s => (lay s).getD ⟨[], [], [0]⟩) r else none) = some plan)
    {k : ℕ → Plan → LProg V D O} {res : ℕ → Option O} (hr : Runs P (fun r => k r (plan r)) res) :
    Runs P (fun r => createP E P r (lay r) (k r)) res ∧ Prepared P plan := by
  have h1 := collect_some h
  by_cases hP : P = 0
  · subst hP
    refine ⟨?_, E, hE, fun s => (lay s).getD ⟨[], [], [0]⟩, fun r hr => absurd hr (by omega)⟩
    exact hr.congr fun s hs => absurd hs (by omega)
  have hall : (List.range P).all (fun s => (lay s).isSome) = true := by
    by_contra hc
    have := h1 0 (by omega)
    rw [if_neg hc] at this
    cases this
  simp only [hall, if_true] at h1
  have hlay : ∀ s < P, lay s = some ((lay s).getD ⟨[], [], [0]⟩) := by
    intro s hs
    obtain ⟨y, hy⟩ := Option.isSome_iff_exists.1 (List.all_eq_true.1 hall s (by simpa using hs))
    simp [hy]
  refine ⟨?_, E, hE, _, h1⟩
  set L := fun s => (lay s).getD ⟨[], [], [0]⟩ with hL
  have hdest : ∀ s < P, (L s).destinations.all (fun d => decide (0 ≤ d ∧ d < P)) = true := by
    have := h1 0 (by omega)
    unfold prepare at this
    split at this
    · rename_i hd
      intro s hs
      exact List.all_eq_true.1 hd s (by simpa using hs)
    · cases this
  unfold createP
  refine local_runs (f := lay) (b := L) hlay ?_
  have hprep : ∀ s < P, prepare E P (layouts (V := V) ((List.range P).map fun s => .layout (L s))) s = some (plan s) := by
    intro s hs
    rw [← h1 s hs]
    exact prepare_congr (fun t ht => layouts_get L ht) hs
  have hfin : Runs P (fun s => localP (prepare E P (layouts (V := V) ((List.range P).map fun s => .layout (L s))) s) (k s)) res := local_runs hprep hr
  cases ho : E.openMpi with
  | true =>
    refine .coll .alltoall (fun s => .layout (L s)) (fun s xs => localP (prepare E P (layouts xs) s) (k s)) (fun s hs => ?_) hfin
    simp only [hdest s hs, if_true]
  | false =>
    refine .coll .graph (fun s => .layout (L s)) (fun s xs => .enter .free .empty fun _ => localP (prepare E P (layouts xs) s) (k s)) (fun s hs => ?_)
      (.coll .free (fun _ => .empty) _ (fun s hs => rfl) hfin)
    simp only [hdest s hs, if_true]
    rfl

/-! ## `doPostsAndWaits` -/

lemma decode_encode (c : Code X D) (m : List (Option X)) : decode c (m.map (Option.map c.enc)) = m := by
  unfold decode
  rw [List.map_map]
  conv_rhs => rw [← List.map_id m]
  refine List.map_congr_left fun o _ => ?_
  cases o with
  | none => rfl
  | some x => simp [c.dec_enc]

lemma filterMap_messagesTo {β M : Type} (f : β → Option (ℕ × M)) (r : ℕ) (l : List β) :
    messagesTo r (l.filterMap f) = l.filterMap fun i => (f i).bind fun y => if y.1 = r then some y.2 else none := by
  induction l with
  | nil => rfl
  | cons a l ih =>
    rw [List.filterMap_cons, List.filterMap_cons]
    cases ha : f a with
    | none => simp only [Option.bind_none]; exact ih
    | some y =>
      simp only [Option.bind_some]
      rw [show y = (y.1, y.2) from rfl, messagesTo_cons]
      by_cases hy : y.1 = r
      · simp [hy, ih]
      · simp [hy, ih]

/-- The messages for `r` in the list of messages of `s`. -/
lemma messagesTo_sendList (c : Code X D) {E : Env} {s r : ℕ} {p : Plan} {exports : List X} {permuted : ℕ → Option X}
    (hp : permutedExports E s p exports = some permuted) (hd : ∀ d ∈ p.layout.destinations, (0 : ℤ) ≤ d) :
    messages E s r p exports = some ((messagesTo r (sendList c E s p permuted)).map (decode c)) := by
  unfold messages sendList
  rw [hp, Option.map_some, Option.some.injEq]
  dsimp only
  rw [filterMap_messagesTo, List.map_filterMap]
  generalize exportsComm E p _ permuted = comm
  refine List.filterMap_congr fun i _ => ?_
  cases hi : p.layout.destinations[i]? with
  | none => simp
  | some d =>
    have hd0 := hd d (List.mem_of_getElem? hi)
    dsimp only
    by_cases hds : d = (s : ℤ)
    · have : ¬ (some d = some (r : ℤ) ∧ r ≠ s) := by
        rintro ⟨h1, h2⟩
        have := Option.some.inj h1
        omega
      rw [if_neg this, if_neg (by simpa using hds)]
      rfl
    · by_cases hdr : d = (r : ℤ)
      · have hrs : r ≠ s := by rintro rfl; exact hds hdr
        rw [if_pos ⟨by rw [hdr], hrs⟩, if_pos hds, Option.bind_some, if_pos (by dsimp only; omega), Option.map_some, decode_encode]
      · rw [if_neg (by rintro ⟨h1, -⟩; exact hdr (Option.some.inj h1)), if_pos hds, Option.bind_some, if_neg (by dsimp only; omega)]
        rfl

lemma sum_zero {c s : ℕ} : ∀ {l : List ℕ}, s ∉ l → (l.map fun t => if t = s then c else 0).sum = 0
  | [], _ => rfl
  | a :: l, h => by
    rw [List.map_cons, List.sum_cons, if_neg (by rintro rfl; exact h (by simp)), sum_zero (fun hm => h (by simp [hm]))]

lemma sum_single {c s : ℕ} : ∀ {l : List ℕ}, l.Nodup → s ∈ l → (l.map fun t => if t = s then c else 0).sum = c
  | a :: l, hn, hm => by
    rw [List.map_cons, List.sum_cons]
    rw [List.nodup_cons] at hn
    by_cases ha : a = s
    · subst ha; rw [if_pos rfl, sum_zero hn.1]; rfl
    · rw [if_neg ha, sum_single hn.2 (by simpa [Ne.symm ha] using hm)]; simp

lemma prepare_sources {E : Env} (hE : E.Valid) {L : ℕ → Distributed.Layout} {r : ℕ} {p : Plan} (h : prepare E P L r = some p) :
    p.layout = L r ∧ (∀ s < P, ∀ d ∈ (L s).destinations, (0 : ℤ) ≤ d ∧ d < P) ∧
      ∃ l : List ℕ, p.sources = l.map (fun s : ℕ => (s : ℤ)) ∧ (∀ s ∈ l, s < P) ∧ ∀ s < P, l.count s ≤ 1 ∨ l.count s = (L s).destinations.count (r : ℤ) := by
  unfold prepare at h
  split at h
  swap
  · cases h
  rename_i hd
  simp only [Option.some.injEq] at h
  subst h
  refine ⟨rfl, ?_, ?_⟩
  · intro s hs d hd'
    simpa using List.all_eq_true.1 (List.all_eq_true.1 hd s (by simpa using hs)) d hd'
  dsimp only
  unfold sourcesOf
  split
  · refine ⟨(List.range P).filter fun s => decide ((denseCounts P (L s)).getD r 0 > 0), ?_, ?_, ?_⟩
    · generalize List.range P = l
      induction l with
      | nil => rfl
      | cons a l ih =>
        rw [List.filterMap_cons, List.filter_cons]
        by_cases ha : (denseCounts P (L a)).getD r 0 > 0
        · simp only [ha, if_true, decide_true, List.map_cons]
          rw [ih]
        · simp only [ha, if_false, decide_false]
          rw [ih]
          simp
    · intro s hs
      simpa using (List.mem_filter.1 hs).1
    · intro s _
      left
      exact List.nodup_iff_count_le_one.1 (List.nodup_range.filter _) s
  · set l0 := (List.range P).flatMap fun s => (((L s).destinations.zip (L s).weights).filter (fun e => decide (e.1 = (r : ℤ)))).map fun e => ((s : ℤ), e.2) with hl0
    have hperm : ((E.nbr r l0).insertionSort fun a b => a.1 ≤ b.1).Perm l0 := (List.perm_insertionSort _ _).trans (hE.nbr r l0)
    have hmem : ∀ x ∈ l0, ∃ s < P, x.1 = (s : ℤ) := by
      intro x hx
      rw [hl0, List.mem_flatMap] at hx
      obtain ⟨s, hs, hx⟩ := hx
      obtain ⟨e, _, rfl⟩ := List.mem_map.1 hx
      exact ⟨s, by simpa using hs, rfl⟩
    refine ⟨((E.nbr r l0).insertionSort fun a b => a.1 ≤ b.1).map fun e => e.1.toNat, ?_, ?_, ?_⟩
    · rw [List.map_map]
      refine List.map_congr_left fun x hx => ?_
      obtain ⟨s, _, hs⟩ := hmem x (hperm.mem_iff.1 hx)
      simp [hs]
    · intro s hs
      obtain ⟨x, hx, rfl⟩ := List.mem_map.1 hs
      obtain ⟨s, hs, hx'⟩ := hmem x (hperm.mem_iff.1 hx)
      rw [hx']; simpa using hs
    · intro s hs
      right
      rw [(hperm.map _).count_eq]
      have hlen : ∀ t, (L t).destinations.length = (L t).weights.length := by intro t; simp [Layout.weights]
      have hone : ∀ t, (((((L t).destinations.zip (L t).weights).filter (fun e => decide (e.1 = (r : ℤ)))).map fun e => ((t : ℤ), e.2)).map fun e => e.1.toNat) =
          List.replicate ((L t).destinations.count (r : ℤ)) t := by
        intro t
        rw [List.map_map]
        rw [List.eq_replicate_iff]
        constructor
        · rw [List.length_map, ← List.countP_eq_length_filter]
          have h2 : (L t).destinations = ((L t).destinations.zip (L t).weights).map Prod.fst := (List.map_fst_zip (by rw [hlen t])).symm
          conv_rhs => rw [h2]
          rw [List.count, List.countP_map]
          refine List.countP_congr fun e _ => ?_
          simp
        · intro b hb
          obtain ⟨e, _, rfl⟩ := List.mem_map.1 hb
          simp
      rw [hl0, List.map_flatMap]
      simp only [hone]
      rw [List.count_flatMap]
      have : ((List.range P).map (List.count s ∘ fun t => List.replicate ((L t).destinations.count (r : ℤ)) t)) =
          (List.range P).map fun t => if t = s then (L s).destinations.count (r : ℤ) else 0 := by
        refine List.map_congr_left fun t _ => ?_
        simp only [Function.comp_apply, List.count_replicate]
        by_cases hts : t = s
        · subst hts; simp
        · simp [hts]
      rw [this]
      exact sum_single List.nodup_range (List.mem_range.2 hs)

lemma foldl_receive {r : ℕ} {p : Plan} {msgs : ℕ → Option (List (List (Option X)))} : ∀ (l : List ℕ) {b b' : Option (ℕ → Option X)}, l.foldl (receiveStep r p msgs) b = b' → b'.isSome →
    b.isSome ∧ ∀ i ∈ l, ∃ c, (receiveStep r p msgs (some c) i).isSome
  | [], b, b', h, hb => by subst h; exact ⟨hb, by simp⟩
  | i :: l, b, b', h, hb => by
    rw [List.foldl_cons] at h
    obtain ⟨h1, h2⟩ := foldl_receive l h hb
    cases b with
    | none => simp [receiveStep] at h1
    | some c =>
      refine ⟨rfl, ?_⟩
      intro j hj
      rcases List.mem_cons.1 hj with rfl | hj
      · exact ⟨c, h1⟩
      · exact h2 j hj

lemma exchange_some {E : Env} {plan : ℕ → Plan} {exports : ℕ → List X} {r n : ℕ} {l : List (Option X)} (h : Distributed.exchange E P plan exports r n = some l) :
    (∀ s < P, unexpected r (plan r) s (messages E s r (plan s) (exports s)) = false) ∧
      ∃ permuted ic, permutedExports E r (plan r) (exports r) = some permuted ∧
        (E.arrive r (plan r).sources.length).foldl (receiveStep r (plan r) (fun s => messages E s r (plan s) (exports s))) (some (fun _ => none)) = some ic ∧
        finish E r n (plan r) permuted ic = some l := by
  unfold Distributed.exchange at h
  dsimp only at h
  split at h
  · cases h
  · split at h
    · cases h
    · rename_i hu
      constructor
      · intro s hs
        by_contra hc
        apply hu
        rw [List.any_eq_true]
        exact ⟨s, by simpa using hs, by simpa using hc⟩
      · split at h
        · cases h
        · rename_i permuted hp
          split at h
          · cases h
          · rename_i ic hic
            exact ⟨permuted, ic, hp, hic, h⟩

lemma foldl_receiveStep_congr {r : ℕ} {p : Plan} {msgs msgs' : ℕ → Option (List (List (Option X)))} (h : ∀ s ∈ p.sources, msgs s.toNat = msgs' s.toNat) (l : List ℕ) (b : Option (ℕ → Option X)) :
    l.foldl (receiveStep r p msgs) b = l.foldl (receiveStep r p msgs') b := by
  congr 1
  funext b i
  unfold receiveStep
  cases b with
  | none => rfl
  | some c =>
    cases hi : p.sources[i]? with
    | none => rfl
    | some s => simp only [h s (List.mem_of_getElem? hi)]

lemma sendList_lt (c : Code X D) {E : Env} {s : ℕ} {p : Plan} {permuted : ℕ → Option X} (hd : ∀ d ∈ p.layout.destinations, (0 : ℤ) ≤ d ∧ d < P) :
    ∀ y ∈ sendList c E s p permuted, y.1 < P := by
  intro y hy
  unfold sendList at hy
  rw [List.mem_filterMap] at hy
  obtain ⟨i, _, hi⟩ := hy
  cases he : p.layout.destinations[i]? with
  | none => rw [he] at hi; cases hi
  | some d =>
    rw [he] at hi
    dsimp only at hi
    split at hi
    · simp only [Option.some.injEq] at hi
      subst hi
      have := hd d (List.mem_of_getElem? he)
      dsimp only
      omega
    · cases hi

lemma messages_length {E : Env} {s r : ℕ} (hsr : s ≠ r) {p : Plan} {exports : List X} {ms : List (List (Option X))} (h : messages E s r p exports = some ms) :
    ms.length = p.layout.destinations.count (r : ℤ) := by
  unfold messages at h
  rw [Option.map_eq_some_iff] at h
  obtain ⟨permuted, -, rfl⟩ := h
  dsimp only
  rw [List.length_filterMap_eq_countP]
  have h1 : p.layout.destinations = (List.range p.layout.destinations.length).map fun i => p.layout.destinations.getD i 0 := by
    refine List.ext_getElem (by simp) fun i h1 h2 => ?_
    simp [List.getD_eq_getElem?_getD, h1]
  conv_rhs => rw [h1]
  rw [List.count, List.countP_map]
  refine List.countP_congr fun i hi => ?_
  have hi' := List.mem_range.1 hi
  simp only [Function.comp_apply, List.getD_eq_getElem?_getD, List.getElem?_eq_getElem hi', Option.some.injEq, Option.getD_some]
  by_cases hx : p.layout.destinations[i] = (r : ℤ)
  · simp [hx, hsr.symm]
  · simp [hx]

lemma exchange_runs (c : Code X D) {E : Env} (hE : E.Valid) {plan : ℕ → Plan} (hplan : Prepared P plan) {exports imports : ℕ → List X}
    (h : communicate E P plan exports = some imports) {k : ℕ → List X → LProg V D O} {res : ℕ → Option O} (hr : Runs P (fun r => k r (imports r)) res) :
    Runs P (fun r => exchangeP c E r (plan r) (exports r) (k r)) res := by
  obtain ⟨E', hE', L, hL⟩ := hplan
  have h1 := collect_some h
  have h2 : ∀ r < P, ∃ l, Distributed.exchange E P plan exports r (plan r).imports = some l ∧ initialised l = some (imports r) := by
    intro r hr
    exact Option.bind_eq_some_iff.1 (h1 r hr)
  have hd : ∀ s < P, ∀ d ∈ (plan s).layout.destinations, (0 : ℤ) ≤ d ∧ d < P := by
    intro s hs d hd
    obtain ⟨h3, h4, -⟩ := prepare_sources hE' (hL s hs)
    rw [h3] at hd
    exact h4 s hs d hd
  have hperm : ∀ r < P, ∃ permuted, permutedExports E r (plan r) (exports r) = some permuted := by
    intro r hr
    obtain ⟨l, hl, -⟩ := h2 r hr
    obtain ⟨-, permuted, ic, hp, -⟩ := exchange_some hl
    exact ⟨permuted, hp⟩
  set perm : ℕ → ℕ → Option X := fun r => (permutedExports E r (plan r) (exports r)).getD fun _ => none with hpm
  have hpe : ∀ r < P, permutedExports E r (plan r) (exports r) = some (perm r) := by
    intro r hr
    obtain ⟨q, hq⟩ := hperm r hr
    simp [hpm, hq]
  have hmsg : ∀ s < P, ∀ r, messages E s r (plan s) (exports s) = some ((messagesTo r (sendList c E s (plan s) (perm s))).map (decode c)) :=
    fun s hs r => messagesTo_sendList c (hpe s hs) fun d hd' => (hd s hs d hd').1
  unfold exchangeP
  refine local_runs (b := perm) hpe ?_
  refine .exch (fun r => ((plan r).sources.filter fun s => decide (s ≠ (r : ℤ))).map Int.toNat) (fun r => sendList c E r (plan r) (perm r)) _ (fun s _ => rfl) ?_ ?_ ?_ ?_
  · intro r hr s hs
    obtain ⟨-, -, l, hl, hlt, -⟩ := prepare_sources hE' (hL r hr)
    obtain ⟨z, hz, rfl⟩ := List.mem_map.1 hs
    have := (List.mem_filter.1 hz).1
    rw [hl] at this
    obtain ⟨t, ht, rfl⟩ := List.mem_map.1 this
    simpa using hlt t ht
  · intro s hs
    exact sendList_lt c (hd s hs)
  · intro s hs r hr
    obtain ⟨hlay, hdst, l, hl, hlt, hcount⟩ := prepare_sources hE' (hL r hr)
    obtain ⟨out, hout, -⟩ := h2 r hr
    obtain ⟨hun, permuted, ic, hp, hic, -⟩ := exchange_some hout
    rw [← List.length_map (f := decode c)]
    by_cases hsr : s = r
    · subst hsr
      have hz : messagesTo s (sendList c E s (plan s) (perm s)) = [] := by
        unfold messagesTo
        rw [List.map_eq_nil_iff, List.filter_eq_nil_iff]
        intro y hy hy'
        simp only [decide_eq_true_eq] at hy'
        unfold sendList at hy
        rw [List.mem_filterMap] at hy
        obtain ⟨i, _, hi⟩ := hy
        cases he : (plan s).layout.destinations[i]? with
        | none => rw [he] at hi; cases hi
        | some d =>
          rw [he] at hi
          dsimp only at hi
          split at hi
          · rename_i hne
            simp only [Option.some.injEq] at hi
            subst hi
            have := (hd s hs d (List.mem_of_getElem? he)).1
            dsimp only at hy'
            omega
          · cases hi
      rw [hz]
      simp only [List.map_nil, List.length_nil]
      rw [List.count_eq_zero]
      intro hm
      obtain ⟨z, hz, hz'⟩ := List.mem_map.1 hm
      have hz1 := List.mem_filter.1 hz
      rw [hl] at hz1
      obtain ⟨t, ht, rfl⟩ := List.mem_map.1 hz1.1
      simp at hz' hz1
      omega
    · have hcnt : (((plan r).sources.filter fun s => decide (s ≠ (r : ℤ))).map Int.toNat).count s = l.count s := by
        rw [hl, List.filter_map, List.map_map]
        have : (Int.toNat ∘ fun s : ℕ => (s : ℤ)) = id := by funext x; simp
        rw [this, List.map_id, List.count_filter]
        simpa using hsr
      have hml := messages_length (fun h => hsr h) (hmsg s hs r)
      rw [hcnt]
      by_cases hmem : s ∈ l
      · -- a receive is posted
        have hi : ∃ i, i < (plan r).sources.length ∧ (plan r).sources[i]? = some (s : ℤ) := by
          obtain ⟨i, hi, hie⟩ := List.getElem_of_mem hmem
          refine ⟨i, by rw [hl]; simpa using hi, ?_⟩
          rw [hl]
          simp [hi, hie]
        obtain ⟨i, hi, hie⟩ := hi
        obtain ⟨-, hstep⟩ := foldl_receive _ hic rfl
        obtain ⟨b, hb⟩ := hstep i ((hE.arrive r _).mem_iff.2 (by simpa using hi))
        unfold receiveStep at hb
        rw [hie] at hb
        simp only [Int.toNat_natCast] at hb
        rw [if_neg (by exact_mod_cast hsr)] at hb
        unfold receive at hb
        rw [hmsg s hs r] at hb
        have hone : ((messagesTo r (sendList c E s (plan s) (perm s))).map (decode c)).length = 1 := by
          generalize (messagesTo r (sendList c E s (plan s) (perm s))).map (decode c) = ms at hb
          match ms, hb with
          | [m], _ => rfl
          | [], hb => simp at hb
          | _ :: _ :: _, hb => simp at hb
        have hpos : 0 < l.count s := List.count_pos_iff.2 hmem
        rcases hcount s hs with hc | hc
        · omega
        · obtain ⟨hlay', -, -⟩ := prepare_sources hE' (hL s hs)
          rw [hc, ← hlay', ← hml]
      · rw [List.count_eq_zero.2 hmem]
        have := hun s hs
        unfold unexpected at this
        rw [hmsg s hs r] at this
        have hns : ((s : ℤ) ∈ (plan r).sources) = False := by
          rw [hl, eq_iff_iff, iff_false]
          intro hm
          obtain ⟨t, ht, hte⟩ := List.mem_map.1 hm
          have : t = s := by exact_mod_cast hte
          subst this
          exact hmem ht
        simp only [Option.isNone_some, Bool.false_or, hns, decide_false, Bool.not_false, Bool.and_true, hsr, ne_eq, not_false_eq_true, decide_true] at this
        generalize (messagesTo r (sendList c E s (plan s) (perm s))).map (decode c) = ms at this
        cases ms with
        | nil => rfl
        | cons a l => simp at this
  · refine hr.congr fun r hr => ?_
    obtain ⟨-, -, l, hl, hlt, -⟩ := prepare_sources hE' (hL r hr)
    obtain ⟨out, hout, hini⟩ := h2 r hr
    obtain ⟨-, permuted, ic, hp, hic, hfin⟩ := exchange_some hout
    have hpe' : permuted = perm r := Option.some.inj (hp.symm.trans (hpe r hr))
    subst hpe'
    dsimp only
    rw [foldl_receiveStep_congr (msgs' := fun s => messages E s r (plan s) (exports s)) ?_, hic]
    · show localP (Option.bind (finish E r (plan r).imports (plan r) (perm r) ic) initialised) (k r) = _
      rw [hfin, Option.bind_some, hini]
      rfl
    · intro s hs
      rw [hl] at hs
      obtain ⟨t, ht, rfl⟩ := List.mem_map.1 hs
      have htP := hlt t ht
      simp only [Int.toNat_natCast, htP, if_true]
      rw [hmsg t htP r]

end ArborX.Mpi
