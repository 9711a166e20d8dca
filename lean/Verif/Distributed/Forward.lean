import Verif.Distributed.Query
import Verif.Distributed.Theorems
import Mathlib.Data.List.GetD

/-!
# Lemmas about forwarding queries and returning results (C28, C29)
-/

namespace ArborX.Distributed

variable {T Q X : Type}

/-! ## Collective calls -/

lemma collect_some {β : Type} [Inhabited β] {P : ℕ} {f : ℕ → Option β} {g : ℕ → β} (h : ∀ r < P, f r = some (g r)) :
    ∃ c, collect P f = some c ∧ ∀ r < P, c r = g r := by
  refine ⟨fun r => (f r).getD default, ?_, fun r hr => by simp [h r hr]⟩
  unfold collect
  rw [if_pos]
  rw [List.all_eq_true]
  intro r hr
  rw [h r (List.mem_range.mp hr)]; rfl

lemma collect_isSome {β : Type} [Inhabited β] {P : ℕ} {f : ℕ → Option β} (h : ∀ r < P, (f r).isSome) :
    ∃ c, collect P f = some c ∧ ∀ r < P, f r = some (c r) := by
  obtain ⟨c, h1, h2⟩ := collect_some (P := P) (f := f) (g := fun r => (f r).getD default) (fun r hr => by
    obtain ⟨b, hb⟩ := Option.isSome_iff_exists.mp (h r hr)
    rw [hb]; rfl)
  refine ⟨c, h1, fun r hr => ?_⟩
  obtain ⟨b, hb⟩ := Option.isSome_iff_exists.mp (h r hr)
  rw [h2 r hr, hb]; rfl

lemma initialised_map_some (l : List X) : initialised (l.map some) = some l := by
  induction l with
  | nil => rfl
  | cons a l ih => simp [initialised, ih]

lemma initialised_eq {l : List (Option X)} {l' : List X} (h : initialised l = some l') : l = l'.map some := by
  induction l generalizing l' with
  | nil => simp only [initialised, Option.some.injEq] at h; subst h; rfl
  | cons a l ih =>
    cases a with
    | none => simp [initialised] at h
    | some a =>
      simp only [initialised, Option.map_eq_some_iff] at h
      obtain ⟨l'', h1, h2⟩ := h
      subst h2
      rw [ih h1]; rfl

/-! ## Filling the buffers -/

lemma fill_at (off : List ℕ) (x : ℕ → Option X) (i q : ℕ) (hq : off.getD q 0 ≤ i ∧ i < off.getD (q + 1) 0)
    (order : List ℕ) (hu : ∀ p ∈ order, p ≠ q → ¬ (off.getD p 0 ≤ i ∧ i < off.getD (p + 1) 0)) (buf : ℕ → Option X) :
    order.foldl (fun buf q => fillRow (off.getD q 0) (off.getD (q + 1) 0) (x q) buf) buf i =
      if q ∈ order then x q else buf i := by
  induction order generalizing buf with
  | nil => simp
  | cons p order ih =>
    rw [List.foldl_cons, ih (fun p' hp' => hu p' (by simp [hp']))]
    by_cases hpq : p = q
    · subst hpq
      unfold fillRow
      rw [if_pos hq]
      simp
    · have := hu p (by simp) hpq
      by_cases hm : q ∈ order
      · simp [hm]
      · have : ¬ (q = p) := fun e => hpq e.symm
        simp only [hm, if_false, List.mem_cons, this, or_self]
        unfold fillRow
        rw [if_neg (hu p (by simp) hpq)]

lemma exportRows_spec (order : List ℕ) (n : ℕ) (ho : order.Perm (List.range n)) (len : ℕ → ℕ) (x : ℕ → Option X) (y : ℕ → X)
    (hx : ∀ q < n, x q = some (y q)) :
    exportRows order (offsetsFrom 0 ((List.range n).map len)) x = some ((List.range n).flatMap (fun q => List.replicate (len q) (y q))) := by
  have hoff : ∀ i ≤ n, (offsetsFrom 0 ((List.range n).map len)).getD i 0 = Crs.scan len i := by
    intro i hi
    rw [offsetsFrom_getD _ _ _ (by simpa using hi), Nat.zero_add]
    apply Crs.scan_congr (n := n) _ i hi
    intro j hj
    simp [List.getD_eq_getElem?_getD, hj]
  have hlast : (offsetsFrom 0 ((List.range n).map len)).getLast?.getD 0 = Crs.scan len n := by
    rw [List.getLast?_eq_getElem?, offsetsFrom_length, Nat.add_sub_cancel, ← List.getD_eq_getElem?_getD, List.length_map,
      List.length_range, hoff n le_rfl]
  unfold exportRows
  rw [hlast]
  have hlen : Crs.scan len n = Crs.scan (fun q => (List.replicate (len q) (y q)).length) n :=
    Crs.scan_congr (n := n) (fun i _ => by simp) n le_rfl
  have key := Crs.toList_rows (rows := fun q => List.replicate (len q) (y q)) (n := n)
    (out := order.foldl (fun buf q => fillRow ((offsetsFrom 0 ((List.range n).map len)).getD q 0)
      ((offsetsFrom 0 ((List.range n).map len)).getD (q + 1) 0) (x q) buf) (fun _ => none)) ?_
  · rw [← hlen] at key
    unfold Crs.toList at key
    rw [key, initialised_map_some]
  · intro j k v hj hk
    have hlen' : Crs.scan len j = Crs.scan (fun q => (List.replicate (len q) (y q)).length) j :=
      Crs.scan_congr (n := n) (fun i _ => by simp) j hj.le
    have hk1 : k < len j := by simpa using (List.getElem?_eq_some_iff.mp hk).1
    have hv : y j = v := by
      rw [List.getElem?_replicate, if_pos hk1] at hk
      exact Option.some.inj hk
    rw [← hlen', fill_at _ _ _ j]
    · rw [if_pos (ho.mem_iff.mpr (List.mem_range.mpr hj)), hx j hj, hv]
    · rw [hoff j hj.le, hoff (j + 1) (by omega)]
      simp only [Crs.scan]; omega
    · intro p hp hpj
      have hp := List.mem_range.mp (ho.mem_iff.mp hp)
      rw [hoff p hp.le, hoff (p + 1) (by omega)]
      intro hc
      simp only [Crs.scan] at hc
      have := Crs.scan_disjoint len (i := p) (j := j) (k := Crs.scan len j + k - Crs.scan len p) (l := k) (by omega) hk1 (by omega)
      exact hpj this.1

/-! ## Selecting from rows -/

lemma select_append {a b : List T} {c d : List ℤ} (h : a.length = c.length) (t : ℤ) :
    select (a ++ b) (c ++ d) t = select a c t ++ select b d t := by
  unfold select
  rw [List.zip_append h, List.filter_append, List.map_append]

lemma flatMap_length_congr {ι : Type} (l : List ι) (A : ι → List T) (B : ι → List X) (h : ∀ i ∈ l, (A i).length = (B i).length) :
    (l.flatMap A).length = (l.flatMap B).length := by
  rw [List.length_flatMap, List.length_flatMap]
  congr 1
  exact List.map_congr_left h

lemma select_flatMap {ι : Type} (l : List ι) (A : ι → List T) (B : ι → List ℤ) (h : ∀ i ∈ l, (A i).length = (B i).length) (t : ℤ) :
    select (l.flatMap A) (l.flatMap B) t = l.flatMap (fun i => select (A i) (B i) t) := by
  induction l with
  | nil => rfl
  | cons a l ih =>
    rw [List.flatMap_cons, List.flatMap_cons, select_append (h a (by simp)), ih (fun i hi => h i (by simp [hi])), List.flatMap_cons]

lemma select_const (a : List T) (d t : ℤ) : select a (List.replicate a.length d) t = if d = t then a else [] := by
  induction a with
  | nil => simp [select]
  | cons x a ih =>
    unfold select at ih ⊢
    rw [List.length_cons, List.replicate_succ, List.zip_cons_cons, List.filter_cons]
    by_cases h : d = t
    · simp only [h, decide_true, if_true, List.map_cons] at ih ⊢; rw [ih]
    · simp only [h, decide_false, if_false] at ih ⊢; simpa using ih

lemma select_same (x : T) (c : List ℤ) (t : ℤ) : select (List.replicate c.length x) c t = List.replicate (c.count t) x := by
  rw [List.eq_replicate_iff]
  refine ⟨select_length (by simp) t, fun b hb => ?_⟩
  unfold select at hb
  obtain ⟨e, he, rfl⟩ := List.mem_map.mp hb
  have := (List.of_mem_zip (List.mem_filter.mp he).1).1
  exact (List.mem_replicate.mp this).2

lemma deliver_congr {P : ℕ} {dest : ℕ → List ℤ} {e e' : ℕ → List T} (h : ∀ s < P, e s = e' s) (r : ℕ) :
    deliver P dest e r = deliver P dest e' r := by
  unfold deliver
  exact List.flatMap_congr (fun s hs => by rw [h s (List.mem_range.mp hs)])
/-! ## One communication -/

lemma communicate_ranks {E : Env} (hE : E.Valid) {P : ℕ} {dest : ℕ → List ℤ} (hr : ∀ s < P, ∀ d ∈ dest s, 0 ≤ d ∧ d < P) :
    ∃ plan, collect P (createFromSends E P dest) = some plan ∧
      ∀ (E' : Env), E'.Valid → ∀ (X : Type) (ex : ℕ → List X), (∀ s < P, (ex s).length = (dest s).length) →
      ∃ im, communicate E' P plan ex = some im ∧ ∀ r < P, im r = deliver P dest ex r := by
  obtain ⟨h1, h2⟩ := distributor_delivers E hE P dest hr
  obtain ⟨plan, h3, h4⟩ := collect_isSome h1
  refine ⟨plan, h3, fun E' hE' X ex hlen => ?_⟩
  unfold communicate
  apply collect_some
  intro r hrP
  rw [(h2 plan h4 E' hE' X ex hlen r hrP).2, Option.bind_some, initialised_map_some]

lemma all_congr_range {P : ℕ} {f g : ℕ → Bool} (h : ∀ s < P, f s = g s) : (List.range P).all f = (List.range P).all g := by
  rw [Bool.eq_iff_iff, List.all_eq_true, List.all_eq_true]
  refine forall₂_congr (fun s hs => ?_)
  rw [h s (List.mem_range.mp hs)]

lemma prepare_congr (E : Env) {P : ℕ} {L L' : ℕ → Layout} (h : ∀ s < P, L s = L' s) {r : ℕ} (hr : r < P) :
    prepare E P L r = prepare E P L' r := by
  have e1 : sourcesOf E P L r = sourcesOf E P L' r := by
    unfold sourcesOf
    split_ifs
    · apply List.filterMap_congr
      intro s hs
      rw [h s (List.mem_range.mp hs)]
    · congr 2
      apply List.flatMap_congr
      intro s hs
      rw [h s (List.mem_range.mp hs)]
  unfold prepare
  rw [all_congr_range (f := fun s => (L s).destinations.all (fun d => decide (0 ≤ d ∧ d < P)))
    (g := fun s => (L' s).destinations.all (fun d => decide (0 ≤ d ∧ d < P))) (fun s hs => by rw [h s hs]), e1, h r hr]

lemma communicate_batches {E : Env} (hE : E.Valid) {P : ℕ} {ranks : ℕ → List ℤ} {sizes : ℕ → List ℕ}
    (hl : ∀ s < P, (ranks s).length = (sizes s).length) (hc : ∀ s < P, Consecutive (ranks s))
    (hr : ∀ s < P, ∀ d ∈ ranks s, 0 ≤ d ∧ d < P) {offset : ℕ → List ℕ} (hoff : ∀ s < P, offset s = offsetsFrom 0 (sizes s)) :
    ∃ plan, collect P (createFromBatches E P ranks offset) = some plan ∧
      ∀ (E' : Env), E'.Valid → ∀ (X : Type) (ex : ℕ → List X), (∀ s < P, (ex s).length = (sizes s).sum) →
      ∃ im, communicate E' P plan ex = some im ∧
        ∀ r < P, im r = deliver P (fun s => expandRuns ((ranks s).zip (sizes s))) ex r := by
  obtain ⟨h1, h2⟩ := distributor_delivers_batches E hE P ranks sizes hl hc hr
  have hcongr : ∀ r < P, createFromBatches E P ranks offset r = createFromBatches E P ranks (fun s => offsetsFrom 0 (sizes s)) r := by
    intro r hrP
    unfold createFromBatches
    have e : (List.range P).all (fun s => (layoutFromBatches (ranks s) (offset s)).isSome) =
        (List.range P).all (fun s => (layoutFromBatches (ranks s) (offsetsFrom 0 (sizes s))).isSome) :=
      all_congr_range (fun s hs => by rw [hoff s hs])
    rw [e]
    split_ifs with h
    · exact prepare_congr E (fun s hs => by rw [hoff s hs]) hrP
    · rfl
  replace h1 : ∀ r < P, (createFromBatches E P ranks offset r).isSome := fun r hrP => by rw [hcongr r hrP]; exact h1 r hrP
  replace h2 := fun plan (hp : ∀ r < P, createFromBatches E P ranks offset r = some (plan r)) =>
    h2 plan (fun r hrP => by rw [← hcongr r hrP]; exact hp r hrP)
  obtain ⟨plan, h3, h4⟩ := collect_isSome h1
  refine ⟨plan, h3, fun E' hE' X ex hlen => ?_⟩
  unfold communicate
  apply collect_some
  intro r hrP
  rw [(h2 plan h4 E' hE' X ex hlen r hrP).2, Option.bind_some, initialised_map_some]

/-! ## Forwarding -/

/-- What process `t` receives: pairs of the origin and the index of the query there. -/
def inbox (P : ℕ) (n : ℕ → ℕ) (rk : ℕ → ℕ → List ℤ) (t : ℕ) : List (ℕ × ℕ) :=
  (List.range P).flatMap (fun s => (List.range (n s)).flatMap (fun q => List.replicate ((rk s q).count (t : ℤ)) (s, q)))

lemma deliver_rows {P : ℕ} {n : ℕ → ℕ} {rk : ℕ → ℕ → List ℤ} {dest : ℕ → List ℤ}
    (hd : ∀ s < P, dest s = (List.range (n s)).flatMap (rk s)) (y : ℕ → ℕ → X) {ex : ℕ → List X}
    (hex : ∀ s < P, ex s = (List.range (n s)).flatMap (fun q => List.replicate (rk s q).length (y s q))) (t : ℕ) :
    deliver P dest ex t = (inbox P n rk t).map (fun e => y e.1 e.2) := by
  unfold deliver inbox
  rw [List.map_flatMap]
  apply List.flatMap_congr
  intro s hs
  have hs := List.mem_range.mp hs
  rw [hd s hs, hex s hs, select_flatMap _ _ _ (fun q _ => by simp), List.map_flatMap]
  apply List.flatMap_congr
  intro q _
  rw [select_same, List.map_replicate]

lemma forward_spec (Es : ℕ → Env) (hE : ∀ i, (Es i).Valid) {P : ℕ} {queries : ℕ → List Q} {n : ℕ → ℕ} {qf : ℕ → ℕ → Q}
    (hq : ∀ s < P, queries s = (List.range (n s)).map (qf s)) {rk : ℕ → ℕ → List ℤ}
    (hr : ∀ s < P, ∀ q < n s, ∀ d ∈ rk s q, 0 ≤ d ∧ d < P) {ranksTo : ℕ → List ℤ} {offset : ℕ → List ℕ}
    (hd : ∀ s < P, ranksTo s = (List.range (n s)).flatMap (rk s))
    (ho : ∀ s < P, offset s = offsetsFrom 0 ((List.range (n s)).map (fun q => (rk s q).length))) :
    (∃ fq fi fr, forwardQueries Es P queries ranksTo offset = some (fq, fi, fr) ∧ ∀ t < P,
      fq t = (inbox P n rk t).map (fun e => qf e.1 e.2) ∧ fi t = (inbox P n rk t).map (fun e => e.2) ∧
      fr t = (inbox P n rk t).map (fun e => (e.1 : ℤ))) ∧
    (∃ fq, forwardQueriesOnly Es P queries ranksTo offset = some fq ∧ ∀ t < P,
      fq t = (inbox P n rk t).map (fun e => qf e.1 e.2)) := by
  have hr' : ∀ s < P, ∀ d ∈ ranksTo s, 0 ≤ d ∧ d < P := by
    intro s hs d hdm
    rw [hd s hs] at hdm
    obtain ⟨q, h1, h2⟩ := List.mem_flatMap.mp hdm
    exact hr s hs q (List.mem_range.mp h1) d h2
  obtain ⟨plan, hp1, hp2⟩ := communicate_ranks (hE 0) hr'
  have hql : ∀ s < P, (queries s).length = n s := fun s hs => by rw [hq s hs]; simp
  have hlen : ∀ {Y : Type} (ex : ℕ → List Y) (y : ℕ → ℕ → Y),
      (∀ s < P, ex s = (List.range (n s)).flatMap (fun q => List.replicate (rk s q).length (y s q))) →
      ∀ s < P, (ex s).length = (ranksTo s).length := by
    intro Y ex y hex s hs
    rw [hex s hs, hd s hs]
    exact flatMap_length_congr _ _ _ (fun q _ => by simp)
  -- queries
  obtain ⟨eq, he1, he2⟩ := collect_some (P := P)
    (f := fun r => exportRows ((Es 1).order r (queries r).length) (offset r) (fun q => (queries r)[q]?))
    (g := fun s => (List.range (n s)).flatMap (fun q => List.replicate (rk s q).length (qf s q))) (by
      intro s hs
      rw [ho s hs]
      apply exportRows_spec _ (n s) (by rw [hql s hs]; exact (hE 1).order _ _)
      intro q hqn
      rw [hq s hs, List.getElem?_map, List.getElem?_range hqn]; rfl)
  obtain ⟨fq, hf1, hf2⟩ := hp2 (Es 1) (hE 1) Q eq (hlen eq qf he2)
  replace hf2 : ∀ t < P, fq t = (inbox P n rk t).map (fun e => qf e.1 e.2) := fun t ht => by
    rw [hf2 t ht, deliver_rows hd qf he2]
  constructor
  swap
  · refine ⟨fq, ?_, hf2⟩
    unfold forwardQueriesOnly
    rw [hp1, Option.bind_some, he1, Option.bind_some, hf1]
  -- ranks
  have hx : ∀ s < P, List.replicate ((offset s).getLast?.getD 0) (s : ℤ) =
      (List.range (n s)).flatMap (fun q => List.replicate (rk s q).length (s : ℤ)) := by
    intro s hs
    rw [ho s hs, offsetsFrom_last]
    symm
    rw [List.eq_replicate_iff]
    constructor
    · simp [List.length_flatMap]
    · intro b hb
      obtain ⟨q, -, h⟩ := List.mem_flatMap.mp hb
      exact (List.mem_replicate.mp h).2
  obtain ⟨fr, hr1, hr2⟩ := hp2 (Es 2) (hE 2) ℤ (fun s => List.replicate ((offset s).getLast?.getD 0) (s : ℤ)) (hlen _ (fun s _ => (s : ℤ)) hx)
  replace hr2 : ∀ t < P, fr t = (inbox P n rk t).map (fun e => (e.1 : ℤ)) := fun t ht => by
    rw [hr2 t ht, deliver_rows hd (fun s _ => (s : ℤ)) hx]
  -- ids
  obtain ⟨ei, hi1, hi2⟩ := collect_some (P := P)
    (f := fun r => exportRows ((Es 3).order r (queries r).length) (offset r) (fun q => some q))
    (g := fun s => (List.range (n s)).flatMap (fun q => List.replicate (rk s q).length q)) (by
      intro s hs
      rw [ho s hs]
      exact exportRows_spec _ (n s) (by rw [hql s hs]; exact (hE 3).order _ _) _ _ (fun q => q) (fun q _ => rfl))
  obtain ⟨fi, hj1, hj2⟩ := hp2 (Es 3) (hE 3) ℕ ei (hlen ei (fun _ q => q) hi2)
  replace hj2 : ∀ t < P, fi t = (inbox P n rk t).map (fun e => e.2) := fun t ht => by
    rw [hj2 t ht, deliver_rows hd (fun _ q => q) hi2]
  refine ⟨fq, fi, fr, ?_, fun t ht => ⟨hf2 t ht, hj2 t ht, hr2 t ht⟩⟩
  unfold forwardQueries
  rw [hp1, Option.bind_some, he1, Option.bind_some, hf1, Option.bind_some, hr1, Option.bind_some, hi1, Option.bind_some, hj1,
    Option.bind_some]

lemma inbox_sorted (P : ℕ) (n : ℕ → ℕ) (rk : ℕ → ℕ → List ℤ) (t : ℕ) : ((inbox P n rk t).map (fun e => (e.1 : ℤ))).Pairwise (· ≤ ·) := by
  rw [List.pairwise_map]
  unfold inbox
  rw [List.pairwise_flatMap]
  constructor
  · intro s _
    rw [List.pairwise_iff_getElem]
    have hc : ∀ e ∈ (List.range (n s)).flatMap (fun q => List.replicate ((rk s q).count (t : ℤ)) (s, q)), e.1 = s := by
      intro e he
      obtain ⟨q, -, h⟩ := List.mem_flatMap.mp he
      rw [(List.mem_replicate.mp h).2]
    intro i j hi hj _
    rw [hc _ (List.getElem_mem hi), hc _ (List.getElem_mem hj)]
  · refine (List.pairwise_lt_range).imp ?_
    intro a b hab x hx y hy
    obtain ⟨q, -, h⟩ := List.mem_flatMap.mp hx
    obtain ⟨q', -, h'⟩ := List.mem_flatMap.mp hy
    rw [(List.mem_replicate.mp h).2, (List.mem_replicate.mp h').2]
    simp only
    omega

/-! ## Returning results -/

/-- What comes back to process `s`: the origin and index of each of its queries with the values found. -/
def returned (P : ℕ) (F : ℕ → List (ℕ × ℕ)) (rows : ℕ → List (List T)) (s : ℕ) : List ((ℕ × ℕ) × List T) :=
  (List.range P).flatMap (fun t => ((F t).zip (rows t)).filter (fun e => decide (e.1.1 = s)))

lemma deliver_back {P : ℕ} {F : ℕ → List (ℕ × ℕ)} {rows : ℕ → List (List T)}
    (g : (ℕ × ℕ) × List T → List X) (hg : ∀ e, (g e).length = e.2.length) {ex : ℕ → List X}
    (hex : ∀ t < P, ex t = ((F t).zip (rows t)).flatMap g) {dest : ℕ → List ℤ}
    (hd : ∀ t < P, dest t = expandRuns (((F t).map (fun e => (e.1 : ℤ))).zip ((rows t).map List.length))) (s : ℕ) :
    deliver P dest ex s = (returned P F rows s).flatMap g := by
  unfold deliver returned
  rw [List.flatMap_assoc]
  apply List.flatMap_congr
  intro t ht
  have ht := List.mem_range.mp ht
  rw [hd t ht, hex t ht]
  have : expandRuns (((F t).map (fun e => (e.1 : ℤ))).zip ((rows t).map List.length)) =
      ((F t).zip (rows t)).flatMap (fun e => List.replicate (g e).length (e.1.1 : ℤ)) := by
    unfold expandRuns
    rw [List.zip_map, List.flatMap_map]
    apply List.flatMap_congr
    intro e _
    rw [hg e]; rfl
  rw [this, select_flatMap _ _ _ (fun e _ => by simp)]
  generalize (F t).zip (rows t) = l
  induction l with
  | nil => rfl
  | cons e l ih =>
    rw [List.flatMap_cons, ih, select_const, List.filter_cons]
    by_cases h : e.1.1 = s
    · simp [h]
    · have : ¬ ((e.1.1 : ℤ) = s) := by omega
      simp [h, this]

lemma back_spec (Es : ℕ → Env) (hE : ∀ i, (Es i).Valid) {P : ℕ} {F : ℕ → List (ℕ × ℕ)} {rows : ℕ → List (List T)}
    (hl : ∀ t < P, (rows t).length = (F t).length) (hF : ∀ t < P, ((F t).map (fun e => (e.1 : ℤ))).Pairwise (· ≤ ·))
    (hr : ∀ t < P, ∀ e ∈ F t, e.1 < P) {out : ℕ → List T} {offset : ℕ → List ℕ} {ranks : ℕ → List ℤ} {ids : ℕ → List ℕ}
    (ho : ∀ t < P, out t = (rows t).flatten) (hof : ∀ t < P, offset t = offsetsFrom 0 ((rows t).map List.length))
    (hrk : ∀ t < P, ranks t = (F t).map (fun e => (e.1 : ℤ))) (hid : ∀ t < P, ids t = (F t).map (fun e => e.2)) :
    ∃ ii oo, communicateResultsBack Es P out offset ranks ids = some (ii, oo) ∧ ∀ s < P,
      ii s = (returned P F rows s).flatMap (fun e => List.replicate e.2.length e.1.2) ∧
      oo s = (returned P F rows s).flatMap (fun e => e.2) := by
  obtain ⟨plan, hp1, hp2⟩ := communicate_batches (E := Es 0) (hE 0) (P := P) (ranks := ranks) (sizes := fun t => (rows t).map List.length)
    (fun t ht => by rw [hrk t ht]; simp [hl t ht]) (fun t ht => by rw [hrk t ht]; exact consecutive_of_sorted (hF t ht))
    (by
      intro t ht d hd
      rw [hrk t ht] at hd
      obtain ⟨e, he, rfl⟩ := List.mem_map.mp hd
      have := hr t ht e he
      omega) hof
  have hdest : ∀ t < P, (fun s => expandRuns ((ranks s).zip ((rows s).map List.length))) t =
      expandRuns (((F t).map (fun e => (e.1 : ℤ))).zip ((rows t).map List.length)) := fun t ht => by
    simp only [hrk t ht]
  have hlen : ∀ {Y : Type} (g : (ℕ × ℕ) × List T → List Y), (∀ e, (g e).length = e.2.length) →
      ∀ t < P, (((F t).zip (rows t)).flatMap g).length = ((rows t).map List.length).sum := by
    intro Y g hg t ht
    rw [List.length_flatMap]
    congr 1
    rw [List.map_congr_left (fun e _ => hg e)]
    have : (rows t).map List.length = (((F t).zip (rows t)).map Prod.snd).map List.length := by
      rw [List.map_snd_zip (by rw [hl t ht])]
    rw [this, List.map_map]; rfl
  -- ranks
  have hx : ∀ t < P, List.replicate ((offset t).getLast?.getD 0) (t : ℤ) =
      ((F t).zip (rows t)).flatMap (fun e => List.replicate e.2.length (t : ℤ)) := by
    intro t ht
    symm
    rw [List.eq_replicate_iff]
    constructor
    · rw [hlen _ (fun e => by simp) t ht, hof t ht, offsetsFrom_last]; simp
    · intro b hb
      obtain ⟨q, -, h⟩ := List.mem_flatMap.mp hb
      exact (List.mem_replicate.mp h).2
  obtain ⟨ir, hr1, -⟩ := hp2 (Es 1) (hE 1) ℤ (fun t => List.replicate ((offset t).getLast?.getD 0) (t : ℤ))
    (fun t ht => by rw [hx t ht]; exact hlen _ (fun e => by simp) t ht)
  -- ids
  obtain ⟨ei, hi1, hi2⟩ := collect_some (P := P)
    (f := fun r => exportRows ((Es 2).order r ((offset r).length - 1)) (offset r) (fun q => (ids r)[q]?))
    (g := fun t => ((F t).zip (rows t)).flatMap (fun e => List.replicate e.2.length e.1.2)) (by
      intro t ht
      rw [hof t ht]
      have e1 : (rows t).map List.length = (List.range (F t).length).map (fun q => ((rows t).getD q []).length) := by
        apply List.ext_getElem
        · simp [hl t ht]
        · intro i h1 h2
          have : i < (rows t).length := by simpa using h1
          simp [List.getD_eq_getElem?_getD, this]
      rw [e1]
      rw [exportRows_spec _ (F t).length (by
        rw [offsetsFrom_length]; simpa using (hE 2).order t (F t).length) _ _ (fun q => ((F t).getD q (0, 0)).2) (by
        intro q hq
        rw [hid t ht]
        simp [List.getD_eq_getElem?_getD, hq])]
      congr 1
      have e2 : (F t).zip (rows t) = (List.range (F t).length).map (fun q => ((F t).getD q (0, 0), (rows t).getD q [])) := by
        apply List.ext_getElem
        · simp [hl t ht]
        · intro i h1 h2
          have h1 : i < (F t).length := by simpa using h2
          have h3 : i < (rows t).length := by rw [hl t ht]; exact h1
          simp [List.getD_eq_getElem?_getD, h1, h3]
      rw [e2, List.flatMap_map])
  obtain ⟨ii, hj1, hj2⟩ := hp2 (Es 2) (hE 2) ℕ ei (fun t ht => by rw [hi2 t ht]; exact hlen _ (fun e => by simp) t ht)
  -- values
  have ho' : ∀ t < P, out t = ((F t).zip (rows t)).flatMap (fun e => e.2) := by
    intro t ht
    rw [ho t ht]
    have : rows t = ((F t).zip (rows t)).map Prod.snd := by
      rw [List.map_snd_zip (by rw [hl t ht])]
    conv_lhs => rw [this]
    rw [List.flatMap_def]
  obtain ⟨oo, hk1, hk2⟩ := hp2 (Es 3) (hE 3) T out (fun t ht => by rw [ho' t ht]; exact hlen _ (fun e => rfl) t ht)
  refine ⟨ii, oo, ?_, fun s hs => ⟨?_, ?_⟩⟩
  · unfold communicateResultsBack
    rw [hp1, Option.bind_some, hr1, Option.bind_some, hi1, Option.bind_some, hj1, Option.bind_some, hk1, Option.bind_some]
  · rw [hj2 s hs]
    exact deliver_back _ (fun e => by simp) hi2 hdest s
  · rw [hk2 s hs]
    exact deliver_back _ (fun e => rfl) ho' hdest s

end ArborX.Distributed
