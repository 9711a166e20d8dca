import Verif.StdAlg.ReduceModel
import Verif.Distributed.Distributor
import Mathlib.Order.Bounds.Basic
import Mathlib.Tactic.NormNum

/-!
# Property theorems: minima and maxima of views (C105)
-/

namespace ArborX.Reduce

open Nearest

variable {D : Type} [LinearOrder D]

/-! ## Specification -/

/-- The entries of the view that are numbers. -/
def numbers (n : ℕ) (v : ℕ → Option D) : Set D := {x | ∃ i < n, v i = some x}

/-! ## Lemmas -/

/-- `u` holds the least of `top` and of the entries of `l`. -/
def Least (top : D) (v : ℕ → Option D) (l : List ℕ) (u : Option D) : Prop := ∃ m, u = some m ∧ IsLeast ({top} ∪ {x | ∃ i ∈ l, v i = some x}) m

lemma least_body (top : D) (v : ℕ → Option D) (l : List ℕ) (u : Option D) (i : ℕ) (h : Least top v l u) : Least top v (l ++ [i]) (minBody v u i) := by
  obtain ⟨m, rfl, hm, hlb⟩ := h
  have hmem : ∀ x, x ∈ ({top} ∪ {x | ∃ j ∈ l, v j = some x} : Set D) → x ∈ ({top} ∪ {x | ∃ j ∈ l ++ [i], v j = some x} : Set D) := by
    rintro x (h | ⟨j, hj, e⟩)
    · exact .inl h
    · exact .inr ⟨j, List.mem_append_left _ hj, e⟩
  have hbound : ∀ y : D, (∀ z, v i = some z → y ≤ z) → y ≤ m → y ∈ lowerBounds ({top} ∪ {x | ∃ j ∈ l ++ [i], v j = some x} : Set D) := by
    rintro y hy hym x (h | ⟨j, hj, e⟩)
    · exact hym.trans (hlb (.inl h))
    · rcases List.mem_append.mp hj with hj | hj
      · exact hym.trans (hlb (.inr ⟨j, hj, e⟩))
      · rw [List.mem_singleton.mp hj] at e
        exact hy x e
  unfold minBody
  cases hv : v i with
  | none => exact ⟨m, by simp [nanLt], hmem m hm, hbound m (fun z hz => by rw [hv] at hz; cases hz) le_rfl⟩
  | some z =>
    by_cases hz : z < m
    · refine ⟨z, by simp [nanLt, hz], .inr ⟨i, by simp, hv⟩, hbound z (fun z' hz' => ?_) hz.le⟩
      rw [hv] at hz'
      exact (Option.some.inj hz').le
    · refine ⟨m, by simp [nanLt, hz], hmem m hm, hbound m (fun z' hz' => ?_) le_rfl⟩
      rw [hv] at hz'
      rw [← Option.some.inj hz']
      exact not_lt.mp hz

lemma least_thread (top : D) (v : ℕ → Option D) (l l' : List ℕ) (u : Option D) (h : Least top v l' u) : Least top v (l' ++ l) (l.foldl (minBody v) u) := by
  induction l generalizing l' u with
  | nil => simpa using h
  | cons i l ih =>
    have := ih (l' ++ [i]) _ (least_body top v l' u i h)
    rwa [List.append_assoc, List.singleton_append] at this

lemma least_join (top : D) (v : ℕ → Option D) (l l' : List ℕ) (u u' : Option D) (h : Least top v l u) (h' : Least top v l' u') :
    Least top v (l ++ l') (minJoin u u') := by
  obtain ⟨m, rfl, hm, hlb⟩ := h
  obtain ⟨m', rfl, hm', hlb'⟩ := h'
  have hl : ∀ x, x ∈ ({top} ∪ {x | ∃ j ∈ l, v j = some x} : Set D) → x ∈ ({top} ∪ {x | ∃ j ∈ l ++ l', v j = some x} : Set D) := by
    rintro x (h | ⟨j, hj, e⟩)
    · exact .inl h
    · exact .inr ⟨j, List.mem_append_left _ hj, e⟩
  have hr : ∀ x, x ∈ ({top} ∪ {x | ∃ j ∈ l', v j = some x} : Set D) → x ∈ ({top} ∪ {x | ∃ j ∈ l ++ l', v j = some x} : Set D) := by
    rintro x (h | ⟨j, hj, e⟩)
    · exact .inl h
    · exact .inr ⟨j, List.mem_append_right _ hj, e⟩
  have hbound : ∀ y : D, y ≤ m → y ≤ m' → y ∈ lowerBounds ({top} ∪ {x | ∃ j ∈ l ++ l', v j = some x} : Set D) := by
    rintro y h1 h2 x (h | ⟨j, hj, e⟩)
    · exact h1.trans (hlb (.inl h))
    · rcases List.mem_append.mp hj with hj | hj
      · exact h1.trans (hlb (.inr ⟨j, hj, e⟩))
      · exact h2.trans (hlb' (.inr ⟨j, hj, e⟩))
  unfold minJoin
  by_cases h : m' < m
  · exact ⟨m', by simp [nanLt, h], hr m' hm', hbound m' h.le le_rfl⟩
  · exact ⟨m, by simp [nanLt, h], hl m hm, hbound m le_rfl (not_lt.mp h)⟩

lemma least_run (top : D) (v : ℕ → Option D) (S : Schedule) : Least top v S.items (run (some top) (minBody v) minJoin S) := by
  induction S with
  | thread l =>
    have := least_thread top v l [] (some top) ⟨top, rfl, .inl rfl, by rintro x (h | ⟨j, hj, _⟩); exacts [(show x = top from h).ge, by simp at hj]⟩
    simpa [Schedule.items, run] using this
  | join a b iha ihb => exact least_join top v _ _ _ _ iha ihb

/-- A maximum is a minimum in the opposite order. -/
lemma run_dual (bot : D) (v : ℕ → Option D) (S : Schedule) :
    run (some bot) (maxBody v) maxJoin S = run (α := Option Dᵒᵈ) (some (OrderDual.toDual bot)) (minBody (D := Dᵒᵈ) v) minJoin S := by
  have hlt : ∀ a b : Option D, nanLt a b = nanLt (D := Dᵒᵈ) b a := by
    intro a b
    cases a <;> cases b <;> rfl
  induction S with
  | thread l =>
    unfold run
    have : (maxBody v : Option D → ℕ → Option D) = minBody (D := Dᵒᵈ) v := by
      funext u i
      unfold maxBody minBody
      rw [hlt]
      rfl
    rw [this]
    rfl
  | join a b iha ihb =>
    have hj : ∀ d s : Option D, maxJoin d s = minJoin (D := Dᵒᵈ) d s := by
      intro d s
      unfold maxJoin minJoin
      rw [hlt]
      rfl
    unfold run
    exact (hj _ _).trans (congrArg₂ (minJoin (D := Dᵒᵈ)) iha ihb)

lemma run_pair (bot top : D) (v : ℕ → Option D) (S : Schedule) :
    run (some top, some bot) (fun u i => (minBody v u.1 i, maxBody v u.2 i)) (fun d s => (minJoin d.1 s.1, maxJoin d.2 s.2)) S =
      (run (some top) (minBody v) minJoin S, run (some bot) (maxBody v) maxJoin S) := by
  induction S with
  | thread l =>
    unfold run
    have : ∀ a b : Option D, l.foldl (fun u i => (minBody v u.1 i, maxBody v u.2 i)) (a, b) = (l.foldl (minBody v) a, l.foldl (maxBody v) b) := by
      induction l with
      | nil => intro a b; rfl
      | cons i l ih => intro a b; exact ih _ _
    exact this _ _
  | join a b iha ihb =>
    unfold run
    rw [iha, ihb]

omit [LinearOrder D] in
lemma schedule_entries {S : Schedule} {n : ℕ} (hS : S.For n) (v : ℕ → Option D) : {x | ∃ i ∈ S.items, v i = some x} = numbers n v := by
  ext x
  unfold numbers
  simp only [Set.mem_ofPred_eq, hS.mem_iff, List.mem_range]

/-! ## Property theorems -/

/-- **C105.** `min_reduce` fails on an empty view only. On others it returns the least of the entries that are numbers, whatever the threads do, except
that entries above the largest finite value count as this value, which is also the result if all entries are NaN. -/
theorem min_reduce_exact (top : D) (n : ℕ) (v : ℕ → Option D) (S : Schedule) (hS : S.For n) :
    (n = 0 → minReduce top n v S = none) ∧
    (0 < n → ∃ m, minReduce top n v S = some (some m) ∧ IsLeast ({top} ∪ numbers n v) m) := by
  refine ⟨fun h => by unfold minReduce; rw [if_neg (by omega)], fun h => ?_⟩
  obtain ⟨m, hm, hl⟩ := least_run top v S
  rw [schedule_entries hS] at hl
  exact ⟨m, by unfold minReduce; rw [if_pos h, hm], hl⟩

/-- **C105.** `max_reduce` likewise. -/
theorem max_reduce_exact (bot : D) (n : ℕ) (v : ℕ → Option D) (S : Schedule) (hS : S.For n) :
    (n = 0 → maxReduce bot n v S = none) ∧
    (0 < n → ∃ m, maxReduce bot n v S = some (some m) ∧ IsGreatest ({bot} ∪ numbers n v) m) := by
  refine ⟨fun h => by unfold maxReduce; rw [if_neg (by omega)], fun h => ?_⟩
  obtain ⟨m, hm, hl, hub⟩ := least_run (D := Dᵒᵈ) (OrderDual.toDual bot) v S
  have e := schedule_entries hS v
  refine ⟨OrderDual.ofDual m, by unfold maxReduce; rw [if_pos h, run_dual]; exact congrArg some hm, ?_, ?_⟩
  · rw [← e]
    exact hl
  · rw [← e]
    exact fun x hx => hub hx

/-- **C105.** `minmax_reduce` returns what `min_reduce` and `max_reduce` return. -/
theorem minmax_reduce_exact (bot top : D) (n : ℕ) (v : ℕ → Option D) (S : Schedule) (hS : S.For n) :
    (n = 0 → minmaxReduce bot top n v S = none) ∧
    (0 < n → ∃ m m', minmaxReduce bot top n v S = some (some m, some m') ∧ IsLeast ({top} ∪ numbers n v) m ∧ IsGreatest ({bot} ∪ numbers n v) m') := by
  refine ⟨fun h => by unfold minmaxReduce; rw [if_neg (by omega)], fun h => ?_⟩
  obtain ⟨m, hm, hl⟩ := (min_reduce_exact top n v S hS).2 h
  obtain ⟨m', hm', hl'⟩ := (max_reduce_exact bot n v S hS).2 h
  unfold minReduce at hm
  unfold maxReduce at hm'
  rw [if_pos h] at hm hm'
  refine ⟨m, m', ?_, hl, hl'⟩
  unfold minmaxReduce
  rw [if_pos h, run_pair, Option.some.inj hm, Option.some.inj hm']

/-- **C105.** On a view of finite numbers, as the views of integers, the results are the smallest and the largest entry. -/
theorem minmax_reduce_finite (bot top : D) (n : ℕ) (x : ℕ → D) (hx : ∀ i < n, bot ≤ x i ∧ x i ≤ top) (hn : 0 < n) (S : Schedule) (hS : S.For n) :
    ∃ i j, i < n ∧ j < n ∧ (∀ k < n, x i ≤ x k ∧ x k ≤ x j) ∧
      minReduce top n (fun i => some (x i)) S = some (some (x i)) ∧
      maxReduce bot n (fun i => some (x i)) S = some (some (x j)) ∧
      minmaxReduce bot top n (fun i => some (x i)) S = some (some (x i), some (x j)) := by
  have hv : ∀ k < n, x k ∈ numbers n (fun i => some (x i)) := fun k hk => ⟨k, hk, rfl⟩
  obtain ⟨m, hm, hl, hlb⟩ := (min_reduce_exact top n (fun i => some (x i)) S hS).2 hn
  obtain ⟨m', hm', hl', hub⟩ := (max_reduce_exact bot n (fun i => some (x i)) S hS).2 hn
  have hi : ∃ i < n, x i = m := by
    rcases hl with h | ⟨i, hi, e⟩
    · have h0 := hlb (.inr (hv 0 hn))
      exact ⟨0, hn, le_antisymm ((hx 0 hn).2.trans (show m = top from h).ge) h0⟩
    · exact ⟨i, hi, Option.some.inj e⟩
  have hj : ∃ j < n, x j = m' := by
    rcases hl' with h | ⟨j, hj, e⟩
    · have h0 := hub (.inr (hv 0 hn))
      exact ⟨0, hn, le_antisymm h0 ((show m' = bot from h).le.trans (hx 0 hn).1)⟩
    · exact ⟨j, hj, Option.some.inj e⟩
  obtain ⟨i, hi, rfl⟩ := hi
  obtain ⟨j, hj, rfl⟩ := hj
  refine ⟨i, j, hi, hj, fun k hk => ⟨hlb (.inr (hv k hk)), hub (.inr (hv k hk))⟩, hm, hm', ?_⟩
  unfold minReduce at hm
  unfold maxReduce at hm'
  rw [if_pos hn] at hm hm'
  unfold minmaxReduce
  rw [if_pos hn, run_pair, Option.some.inj hm, Option.some.inj hm']

omit [LinearOrder D] in
lemma numbers_list (l : List D) : numbers l.length (fun i => l[i]?) = {x | x ∈ l} := by
  ext x
  unfold numbers
  simp only [Set.mem_ofPred_eq, List.mem_iff_getElem?]
  constructor
  · rintro ⟨i, -, e⟩
    exact ⟨i, e⟩
  · rintro ⟨i, e⟩
    exact ⟨i, (List.getElem?_eq_some_iff.mp e).1, e⟩

lemma foldr_min_least (top : D) (l : List D) : IsLeast ({top} ∪ {x | x ∈ l}) (l.foldr min top) := by
  induction l with
  | nil => exact ⟨.inl rfl, by rintro x (h | h); exacts [(show x = top from h).ge, by simp at h]⟩
  | cons a l ih =>
    obtain ⟨h1, h2⟩ := ih
    refine ⟨?_, ?_⟩
    · rw [List.foldr_cons]
      rcases min_choice a (l.foldr min top) with e | e <;> rw [e]
      · exact .inr List.mem_cons_self
      · rcases h1 with h | h
        · exact .inl h
        · exact .inr (List.mem_cons_of_mem _ h)
    · rintro x (h | h)
      · exact (min_le_right _ _).trans (h2 (.inl h))
      · rcases List.mem_cons.mp h with rfl | h
        · exact min_le_left _ _
        · exact (min_le_right _ _).trans (h2 (.inr h))

lemma foldr_max_greatest (bot : D) (l : List D) : IsGreatest ({bot} ∪ {x | x ∈ l}) (l.foldr max bot) := by
  induction l with
  | nil => exact ⟨.inl rfl, by rintro x (h | h); exacts [(show x = bot from h).le, by simp at h]⟩
  | cons a l ih =>
    obtain ⟨h1, h2⟩ := ih
    refine ⟨?_, ?_⟩
    · rw [List.foldr_cons]
      rcases max_choice a (l.foldr max bot) with e | e <;> rw [e]
      · exact .inr List.mem_cons_self
      · rcases h1 with h | h
        · exact .inl h
        · exact .inr (List.mem_cons_of_mem _ h)
    · rintro x (h | h)
      · exact (h2 (.inl h)).trans (le_max_right _ _)
      · rcases List.mem_cons.mp h with rfl | h
        · exact le_max_left _ _
        · exact (h2 (.inr h)).trans (le_max_right _ _)

/-- **C105.** The smallest and the largest destination of a `Distributor`, whatever the threads do: the model of the `Distributor` computes with the same numbers. -/
theorem distributor_reduces (ranks : List ℤ) (h : ranks ≠ []) (S : Schedule) (hS : S.For ranks.length) :
    minmaxReduce (-2 ^ 31) (2 ^ 31 - 1) ranks.length (fun i => ranks[i]?) S = some (some (Distributed.minReduce ranks), some (Distributed.maxReduce ranks)) ∧
    maxReduce (-2 ^ 31) ranks.length (fun i => ranks[i]?) S = some (some (Distributed.maxReduce ranks)) := by
  have hn : 0 < ranks.length := List.length_pos_iff.mpr h
  obtain ⟨m, m', e, h1, h2⟩ := (minmax_reduce_exact (-2 ^ 31) (2 ^ 31 - 1) ranks.length (fun i => ranks[i]?) S hS).2 hn
  obtain ⟨m'', e', h3⟩ := (max_reduce_exact (-2 ^ 31) ranks.length (fun i => ranks[i]?) S hS).2 hn
  rw [numbers_list] at h1 h2 h3
  rw [e, e', h1.unique (foldr_min_least _ ranks), h2.unique (foldr_max_greatest _ ranks), h3.unique (foldr_max_greatest _ ranks)]
  exact ⟨rfl, rfl⟩

/-- **C105 (limits).** A view of floating-point numbers that are all infinite has the largest finite value as its minimum; a view of NaN too. -/
theorem min_reduce_infinite (top inf : D) (h : top < inf) (n : ℕ) (hn : 0 < n) (v : ℕ → Option D) (hv : ∀ i < n, v i = some inf ∨ v i = none) (S : Schedule) (hS : S.For n) :
    minReduce top n v S = some (some top) := by
  obtain ⟨m, hm, hl, hlb⟩ := (min_reduce_exact top n v S hS).2 hn
  rw [hm]
  rcases hl with h1 | ⟨i, hi, e⟩
  · rw [show m = top from h1]
  · rcases hv i hi with h2 | h2
    · rw [h2] at e
      rw [← Option.some.inj e] at hlb
      exact absurd (hlb (.inl rfl)) (not_le.mpr h)
    · rw [h2] at e
      cases e

/-- Three entries, one NaN, two threads. -/
example : (Schedule.join (.thread [2]) (.thread [1, 0])).For 3 ∧
    minmaxReduce (-100) 100 3 (fun i => [some (5 : ℤ), none, some 7].getD i none) (.join (.thread [2]) (.thread [1, 0])) = some (some 5, some 7) :=
  ⟨by unfold Schedule.For; decide +kernel, by decide +kernel⟩

/-- An infinite entry only. -/
example : minReduce (100 : ℤ) 1 (fun _ => some 1000) (.thread [0]) = some (some 100) :=
  min_reduce_infinite 100 1000 (by norm_num) 1 (by norm_num) _ (fun _ _ => .inl rfl) _ (List.Perm.refl _)

end ArborX.Reduce
