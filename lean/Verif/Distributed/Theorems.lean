import Verif.Distributed.Layouts
import Mathlib.Data.List.Flatten

/-!
# The `Distributor` delivers (C27)

`select exports dest r` are the items of one process with destination `r` in their original order;
`deliver P dest exports r` are the items for process `r`, by source process (both in `Exchange.lean`).
-/

namespace ArborX.Distributed

/-- `createFromSends` on every process, then any number of exchanges: on every process the reported number of
imports is the number of items sent to it, and each exchange fills the imports with exactly these items, ordered by
source process and then by their position on the source. `E` and `E'` range over all executions. -/
theorem distributor_delivers (E : Env) (hE : E.Valid) (P : ℕ) (dest : ℕ → List ℤ)
    (hr : ∀ s < P, ∀ d ∈ dest s, 0 ≤ d ∧ d < P) :
    (∀ r < P, (createFromSends E P dest r).isSome) ∧
      ∀ plan : ℕ → Plan, (∀ r < P, createFromSends E P dest r = some (plan r)) →
      ∀ (E' : Env), E'.Valid → ∀ (T : Type) (exports : ℕ → List T), (∀ s < P, (exports s).length = (dest s).length) →
      ∀ r < P, (plan r).imports = (deliver P dest exports r).length ∧
        exchange E' P plan exports r (plan r).imports = some ((deliver P dest exports r).map some) := by
  have hex := fun s (hs : s < P) => layoutFromRanks_good E hE (dest s) (fun d hd => (hr s hs d hd).1)
  set L : ℕ → Layout := fun s => (layoutFromRanks E (dest s)).getD ⟨[], [], [0]⟩ with hL
  have hg : ∀ s < P, Good (dest s) (L s) := by
    intro s hs
    obtain ⟨l, h1, h2⟩ := hex s hs
    rw [hL]; simp only [h1, Option.getD_some]; exact h2
  have hcr : ∀ r, createFromSends E P dest r = prepare E P L r := by
    intro r
    unfold createFromSends
    rw [if_pos]
    rw [List.all_eq_true]
    intro s hs
    obtain ⟨l, h1, -⟩ := hex s (List.mem_range.mp hs)
    rw [h1]; rfl
  simp only [hcr]
  obtain ⟨h0, hp⟩ := exchange_good E hE P dest L hg hr
  refine ⟨h0, fun plan hpl => ?_⟩
  obtain ⟨h1, h2⟩ := hp plan hpl
  refine fun E' hE' T exports hlen r hrP => ⟨?_, h2 E' hE' T exports hlen r hrP⟩
  · rw [h1 r hrP, deliver, List.length_flatMap]
    congr 1
    apply List.map_congr_left
    intro s hs
    exact (select_length (hlen s (List.mem_range.mp hs)) _).symm

/-- The same for batches of consecutive items, with `batch_offsets` the partial sums of the batch sizes. Batches to the
same process have to be consecutive. -/
theorem distributor_delivers_batches (E : Env) (hE : E.Valid) (P : ℕ) (ranks : ℕ → List ℤ) (sizes : ℕ → List ℕ)
    (hl : ∀ s < P, (ranks s).length = (sizes s).length) (hc : ∀ s < P, Consecutive (ranks s))
    (hr : ∀ s < P, ∀ d ∈ ranks s, 0 ≤ d ∧ d < P) :
    (∀ r < P, (createFromBatches E P ranks (fun s => offsetsFrom 0 (sizes s)) r).isSome) ∧
      ∀ plan : ℕ → Plan, (∀ r < P, createFromBatches E P ranks (fun s => offsetsFrom 0 (sizes s)) r = some (plan r)) →
      ∀ (E' : Env), E'.Valid → ∀ (T : Type) (exports : ℕ → List T), (∀ s < P, (exports s).length = (sizes s).sum) →
      ∀ r < P, (plan r).imports = (deliver P (fun s => expandRuns ((ranks s).zip (sizes s))) exports r).length ∧
        exchange E' P plan exports r (plan r).imports =
          some ((deliver P (fun s => expandRuns ((ranks s).zip (sizes s))) exports r).map some) := by
  set dest : ℕ → List ℤ := fun s => expandRuns ((ranks s).zip (sizes s)) with hdest
  have hex := fun s (hs : s < P) => layoutFromBatches_good (ranks s) (sizes s) (hl s hs) (hc s hs)
  set L : ℕ → Layout := fun s => (layoutFromBatches (ranks s) (offsetsFrom 0 (sizes s))).getD ⟨[], [], [0]⟩ with hL
  have hg : ∀ s < P, Good (dest s) (L s) := by
    intro s hs
    obtain ⟨l, h1, h2⟩ := hex s hs
    rw [hL]; simp only [h1, Option.getD_some]; exact h2
  have hlen : ∀ s < P, (dest s).length = (sizes s).sum := by
    intro s hs
    rw [hdest]
    simp only
    rw [expandRuns_length, List.map_snd_zip (by have := hl s hs; omega)]
  have hr' : ∀ s < P, ∀ d ∈ dest s, 0 ≤ d ∧ d < P := by
    intro s hs d hd
    obtain ⟨e, he1, he2⟩ := List.mem_flatMap.mp hd
    rw [List.mem_replicate] at he2
    rw [he2.2]
    exact hr s hs _ ((List.of_mem_zip he1).1)
  have hcr : ∀ r, createFromBatches E P ranks (fun s => offsetsFrom 0 (sizes s)) r = prepare E P L r := by
    intro r
    unfold createFromBatches
    rw [if_pos]
    rw [List.all_eq_true]
    intro s hs
    obtain ⟨l, h1, -⟩ := hex s (List.mem_range.mp hs)
    rw [h1]; rfl
  simp only [hcr]
  obtain ⟨h0, hp⟩ := exchange_good E hE P dest L hg hr'
  refine ⟨h0, fun plan hpl => ?_⟩
  obtain ⟨h1, h2⟩ := hp plan hpl
  refine fun E' hE' T exports he r hrP =>
    have he' : ∀ s < P, (exports s).length = (dest s).length := fun s hs => by rw [he s hs, hlen s hs]
    ⟨?_, h2 E' hE' T exports he' r hrP⟩
  · rw [h1 r hrP, deliver, List.length_flatMap]
    congr 1
    apply List.map_congr_left
    intro s hs
    exact (select_length (he' s (List.mem_range.mp hs)) _).symm

/-- Nothing is lost or duplicated: the deliveries of all processes together are the exports of all processes. -/
theorem deliver_perm {T : Type} (P : ℕ) (dest : ℕ → List ℤ) (hr : ∀ s < P, ∀ d ∈ dest s, 0 ≤ d ∧ d < P)
    (exports : ℕ → List T) (hlen : ∀ s < P, (exports s).length = (dest s).length) :
    ((List.range P).flatMap (deliver P dest exports)).Perm ((List.range P).flatMap exports) := by
  -- one source
  have one : ∀ (ex : List T) (ds : List ℤ), ex.length = ds.length → (∀ d ∈ ds, 0 ≤ d ∧ d < P) →
      ((List.range P).flatMap (fun r : ℕ => select ex ds r)).Perm ex := by
    intro ex ds
    induction ds generalizing ex with
    | nil =>
      intro h _
      have : ex = [] := by simpa using h
      subst this
      simp [select]
    | cons d ds ih =>
      intro h hd
      cases ex with
      | nil => simp at h
      | cons x ex =>
        have ih' := ih ex (by simpa using h) (fun e he => hd e (by simp [he]))
        obtain ⟨d0, hd0, hdP⟩ : ∃ d0 : ℕ, d = d0 ∧ d0 < P := ⟨d.toNat, by have := hd d (by simp); omega, by have := hd d (by simp); omega⟩
        subst hd0
        have hsel : ∀ r : ℕ, select (x :: ex) ((d0 : ℤ) :: ds) r = (if r = d0 then [x] else []) ++ select ex ds r := by
          intro r
          unfold select
          rw [List.zip_cons_cons, List.filter_cons]
          by_cases hrd : r = d0
          · subst hrd; simp
          · rw [if_neg (by simp; omega), if_neg hrd]; rfl
        have h1 : ((List.range P).flatMap (fun r : ℕ => select (x :: ex) ((d0 : ℤ) :: ds) r)).Perm
            ((List.range P).flatMap (fun r => if r = d0 then [x] else []) ++ (List.range P).flatMap (fun r : ℕ => select ex ds r)) := by
          simp only [hsel]
          exact (List.flatMap_append_perm _ _ _).symm
        have h2 : (List.range P).flatMap (fun r => if r = d0 then [x] else []) = [x] := by
          have := filterMap_unique P (fun r => if r = d0 then some x else none) d0 hdP (fun i _ hi => by simp [hi])
          rw [if_pos rfl] at this
          have e : ∀ l : List ℕ, l.flatMap (fun r => if r = d0 then [x] else []) = l.filterMap (fun r => if r = d0 then some x else none) := by
            intro l
            induction l with
            | nil => rfl
            | cons a l ih => by_cases h : a = d0 <;> simp [h, ih]
          rw [e, this]; rfl
        rw [h2] at h1
        exact h1.trans (ih'.cons x)
  -- exchange the order of sources and destinations
  have swap : ∀ (l m : List ℕ) (g : ℕ → ℕ → List T),
      (l.flatMap (fun r => m.flatMap (fun s => g s r))).Perm (m.flatMap (fun s => l.flatMap (fun r => g s r))) := by
    intro l m g
    induction l with
    | nil => simp
    | cons a l ih =>
      simp only [List.flatMap_cons]
      exact (ih.append_left _).trans (List.flatMap_append_perm _ _ _)
  refine (swap (List.range P) (List.range P) (fun s r => select (exports s) (dest s) r)).trans ?_
  apply List.Perm.flatMap_left
  intro s hs
  have hs := List.mem_range.mp hs
  exact one _ _ (hlen s hs) (hr s hs)

/-! ## Cases that meet the hypotheses -/

/-- Messages arrive in reverse order, loops run backwards, fresh memory is not zero. -/
def someEnv : Env where
  openMpi := false
  direct := false
  nbr := fun _ l => l.reverse
  arrive := fun _ m => (List.range m).reverse
  order := fun _ n => (List.range n).reverse
  garbage := fun n => List.replicate n 7

lemma someEnv_valid : someEnv.Valid where
  nbr _ l := List.reverse_perm l
  arrive _ _ := List.reverse_perm _
  order _ _ := List.reverse_perm _
  garbage _ := List.length_replicate

/-- Three processes; the first sends to all, the second to itself only, the third has nothing to send. -/
def someDest (s : ℕ) : List ℤ := if s = 0 then [2, 0, 1, 2, 1] else if s = 1 then [1, 1] else []

def someExports (s : ℕ) : List ℕ := if s = 0 then [10, 11, 12, 13, 14] else if s = 1 then [20, 21] else []

example : ∀ s < 3, (∀ d ∈ someDest s, 0 ≤ d ∧ d < 3) ∧ (someExports s).length = (someDest s).length := by decide

example : (List.range 3).map (deliver 3 someDest someExports) = [[11], [12, 14, 20, 21], [10, 13]] := by decide

example : (List.range 3).map (fun r => (createFromSends someEnv 3 someDest r).map Plan.imports) = [some 1, some 4, some 2] := by
  decide

/-- Batches as `communicateResultsBack` uses them: repeated and empty ones. -/
example : Consecutive [0, 0, 1, 2] ∧ expandRuns ([0, 0, 1, 2].zip [1, 2, 0, 1]) = [0, 0, 0, 2] :=
  ⟨consecutive_of_sorted (by decide), by decide⟩

end ArborX.Distributed
