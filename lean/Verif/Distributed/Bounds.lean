import Verif.Distributed.Spatial
import Verif.Traversal.Weak
import Verif.Euclid.Theorems
import Mathlib.Order.Bounds.Basic

/-!
# `bounds()` and `size()` (C83)
-/

namespace ArborX.Distributed

open BVH Traversal

variable {α V : Type} {w : ℕ} [SemilatticeSup V] [OrderBot V]

/-! ## Model -/

/-- `bounds()` as `bounds`, of a tree that was constructed on a machine with weak memory
(`ArborX_LinearBVH.hpp` 203-206, `ArborX_TreeConstruction.hpp` 41-69, 101-111). -/
def boundsW (I : Input α V w) (sched : List (ℕ × Option V)) : Option V :=
  if I.n = 0 then some ⊥
  else if I.n = 1 then ((buildW ⟨true, true⟩ I sched).leaf 0).map (fun l => ⊥ ⊔ I.vol l.value)
  else ((buildW ⟨true, true⟩ I sched).internal 0).map (·.vol)

/-- `bounds()` of a `BruteForce` (`ArborX_BruteForce.hpp` 140-147,
`ArborX_BruteForceImpl.hpp` 32-50): the reduction `r` of the volumes of the values, see
`Geometry.Reduction`. -/
def bruteBounds (vol : ℕ → V) : Geometry.Reduction → V
  | .init => ⊥
  | .iter r i => bruteBounds vol r ⊔ vol i
  | .join r s => bruteBounds vol r ⊔ bruteBounds vol s

/-- A sum of two numbers of type `int`; `none`: overflow, which is undefined. -/
def addInt (a b : ℤ) : Option ℤ := if -2 ^ 31 ≤ a + b ∧ a + b < 2 ^ 31 then some (a + b) else none

/-- Conversion of a `size_type` to `int`. -/
def toInt (a : ℕ) : ℤ := (BitVec.ofNat 32 a).toInt

/-- `reduce(space, _bottom_tree_sizes, 0)` (`ArborX_DistributedTree.hpp` 248), any arrangement
`r`. The initial value `0` is an `int`, and this makes it the type of the sum. -/
def sumInt (sizes : ℕ → ℕ) : Geometry.Reduction → Option ℤ
  | .init => some 0
  | .iter r i => (sumInt sizes r).bind (fun a => addInt a (toInt (sizes i)))
  | .join r s => (sumInt sizes r).bind (fun a => (sumInt sizes s).bind (fun b => addInt a b))

/-- `size()` of a distributed tree (61-67, 233-248); `size_type` has 64 bits. -/
def DTree.sizeInt (D : DTree α V w) (r : Geometry.Reduction) : Option ℕ :=
  (sumInt (fun t => (D.bottom t).n) r).map (fun a => (BitVec.ofInt 64 a).toNat)

/-! ## Lemmas -/

omit [OrderBot V] in
lemma vol_le (f : ℕ → V) (T : BTree) (b : V) (h : ∀ i ∈ T.leaves, f i ≤ b) : T.vol f ≤ b := by
  induction T with
  | leaf i => exact h i (by simp [BTree.leaves])
  | node x y hx hy =>
    exact sup_le (hx fun i hi => h i (by simp [BTree.leaves, hi])) (hy fun i hi => h i (by simp [BTree.leaves, hi]))

lemma bruteBounds_isLUB (vol : ℕ → V) (r : Geometry.Reduction) :
    IsLUB {v | ∃ i ∈ r.iters, v = vol i} (bruteBounds vol r) := by
  induction r with
  | init => simp [bruteBounds, Geometry.Reduction.iters]
  | iter r i ih =>
    constructor
    · rintro v ⟨j, hj, rfl⟩
      rcases List.mem_cons.mp hj with rfl | hj
      · exact le_sup_right
      · exact (ih.1 ⟨j, hj, rfl⟩).trans le_sup_left
    · intro b hb
      exact sup_le (ih.2 fun v ⟨j, hj, e⟩ => hb ⟨j, List.mem_cons_of_mem _ hj, e⟩) (hb ⟨i, List.mem_cons_self, rfl⟩)
  | join r s hr hs =>
    constructor
    · rintro v ⟨j, hj, rfl⟩
      rcases List.mem_append.mp hj with hj | hj
      · exact (hr.1 ⟨j, hj, rfl⟩).trans le_sup_left
      · exact (hs.1 ⟨j, hj, rfl⟩).trans le_sup_right
    · intro b hb
      exact sup_le (hr.2 fun v ⟨j, hj, e⟩ => hb ⟨j, List.mem_append_left _ hj, e⟩)
        (hs.2 fun v ⟨j, hj, e⟩ => hb ⟨j, List.mem_append_right _ hj, e⟩)

lemma toInt_eq {a : ℕ} (h : a < 2 ^ 31) : toInt a = a := by
  unfold toInt
  rw [BitVec.toInt_eq_toNat_cond, BitVec.toNat_ofNat, Nat.mod_eq_of_lt (by omega), if_pos (by omega)]

lemma sumInt_eq (sizes : ℕ → ℕ) (r : Geometry.Reduction) (h : (r.iters.map sizes).sum < 2 ^ 31) :
    sumInt sizes r = some ((r.iters.map sizes).sum : ℤ) := by
  induction r with
  | init => rfl
  | iter r i ih =>
    simp only [Geometry.Reduction.iters, List.map_cons, List.sum_cons] at h ⊢
    rw [sumInt, ih (by omega), Option.bind_some, toInt_eq (by omega), addInt, if_pos (by omega), Nat.cast_add, add_comm]
  | join r s hr hs =>
    simp only [Geometry.Reduction.iters, List.map_append, List.sum_append] at h ⊢
    rw [sumInt, hr (by omega), Option.bind_some, hs (by omega), Option.bind_some, addInt, if_pos (by omega), Nat.cast_add]

/-! ## Property theorems -/

/-- **C83.** Whatever the schedule of the construction, `bounds()` is the least bounding volume of all
values. -/
theorem bounds_least (I : Input α V w) (h : I.Valid) (sched : List ℕ) (hf : I.Finished sched) :
    ∃ b, bounds I sched = some b ∧ IsLUB {v | ∃ i < I.n, v = I.vol (I.values i)} b := by
  have hst : ∀ {b : V}, (∀ a ∈ I.stored, I.vol a ≤ b) → b ∈ upperBounds {v | ∃ i < I.n, v = I.vol (I.values i)} := by
    rintro b hb v ⟨i, hi, rfl⟩
    exact hb _ (List.mem_map.mpr ⟨i, List.mem_range.mpr hi, rfl⟩)
  obtain ⟨b, hb, hle⟩ := bounds_spec I h sched hf
  refine ⟨b, hb, hst hle, ?_⟩
  intro c hc
  unfold bounds at hb
  by_cases h0 : I.n = 0
  · rw [if_pos h0, Option.some.injEq] at hb
    rw [← hb]; exact bot_le
  rw [if_neg h0] at hb
  by_cases h1 : I.n = 1
  · rw [if_pos h1] at hb
    simp only [Input.build, h1, one_ne_zero, if_false, if_true, Option.map_some, Option.some.injEq] at hb
    rw [← hb]
    exact sup_le bot_le (hc ⟨0, by omega, rfl⟩)
  rw [if_neg h1] at hb
  obtain ⟨T, hT⟩ := build_wellFormed I h (by omega)
  have hw := hT sched hf
  have hsize := build_size I sched
  cases T with
  | leaf i =>
    have := hw.1
    rw [hsize] at this
    have := congrArg List.length this
    simp [BTree.leaves] at this
    omega
  | node x y =>
    obtain ⟨ia, ib, -, hi, -, -⟩ := hw.2
    rw [Nat.sub_self] at hi
    rw [hi, Option.map_some, Option.some.injEq] at hb
    rw [← hb]
    refine vol_le (fun i => I.vol (I.values (I.perm i))) _ c ?_
    intro i hi'
    rw [hw.1, hsize] at hi'
    have : I.values (I.perm i) ∈ I.stored := h.stored_perm.mem_iff.mp (List.mem_map.mpr ⟨i, hi', rfl⟩)
    obtain ⟨j, hj, e⟩ := List.mem_map.mp this
    show I.vol (I.values (I.perm i)) ≤ c
    rw [← e]
    exact hc ⟨j, List.mem_range.mp hj, rfl⟩

/-- **C83.** Also on a machine with weak memory. -/
theorem weak_bounds_least (I : Input α V w) (h : I.Valid) (sched : List (ℕ × Option V))
    (hf : 2 ≤ I.n → ∀ t < I.n, (Construction.runW ⟨true, true⟩ I.params sched).base.thr t = .done) :
    ∃ b, boundsW I sched = some b ∧ IsLUB {v | ∃ i < I.n, v = I.vol (I.values i)} b := by
  obtain ⟨e1, e2⟩ := weak_build I h sched
  have hfin : I.Finished (sched.map Prod.fst) := by
    intro h2 t ht
    rw [← e2 h2]
    have ht' : t ≤ I.n - 1 := ht
    exact hf h2 t (by omega)
  have : boundsW I sched = bounds I (sched.map Prod.fst) := by
    unfold boundsW bounds
    rw [e1]
  rw [this]
  exact bounds_least I h _ hfin

/-- **C83.** `bounds()` of a `BruteForce` is the least bounding volume of all values, whatever the
arrangement of the reduction. -/
theorem brute_force_bounds_least (vol : ℕ → V) (n : ℕ) (r : Geometry.Reduction) (hr : ∀ i, i ∈ r.iters ↔ i < n) :
    IsLUB {v | ∃ i < n, v = vol i} (bruteBounds vol r) := by
  have := bruteBounds_isLUB vol r
  simpa only [hr] using this

/-- **C83.** On every process, `bounds()` of a distributed tree is the least bounding volume of the values
of all processes. -/
theorem distributed_bounds_least (D : DTree α V w) (h : D.Valid) (r : ℕ) (hr : r < D.P) :
    ∃ b, bounds (D.top r) (D.tsched r) = some b ∧
      IsLUB {v | ∃ t < D.P, ∃ i < (D.bottom t).n, v = (D.bottom t).vol ((D.bottom t).values i)} b := by
  obtain ⟨b, hb, hL⟩ := bounds_least (D.top r) (h.top r hr).1 (D.tsched r) (h.top r hr).2
  refine ⟨b, hb, ?_⟩
  have key : ∀ t < D.P, IsLUB {v | ∃ i < (D.bottom t).n, v = (D.bottom t).vol ((D.bottom t).values i)} ((D.top r).vol t) := by
    intro t ht
    obtain ⟨c, hc, hcL⟩ := bounds_least (D.bottom t) (h.bottom t ht).1 (D.bsched t) (h.bottom t ht).2
    show IsLUB _ ((bounds (D.bottom t) (D.bsched t)).getD ⊥)
    rw [hc]
    exact hcL
  constructor
  · rintro v ⟨t, ht, i, hi, rfl⟩
    exact ((key t ht).1 ⟨i, hi, rfl⟩).trans (hL.1 ⟨t, ht, rfl⟩)
  · intro c hc
    refine hL.2 ?_
    rintro v ⟨t, ht, rfl⟩
    exact (key t ht).2 fun v ⟨i, hi, e⟩ => hc ⟨t, ht, i, hi, e⟩

omit [SemilatticeSup V] [OrderBot V] in
/-- **C83, partial.** `size()` of a distributed tree is the number of values of all processes, for every
arrangement of the sum, if there are fewer than 2^31. Missing: the sum is computed in `int`, see
`distributed_size_overflow`. -/
theorem distributed_size_partial (D : DTree α V w) (r : Geometry.Reduction) (hr : r.iters.Perm (List.range D.P))
    (h : ((List.range D.P).map (fun t => (D.bottom t).n)).sum < 2 ^ 31) :
    D.sizeInt r = some ((List.range D.P).map (fun t => (D.bottom t).n)).sum := by
  have e : (r.iters.map (fun t => (D.bottom t).n)).sum = ((List.range D.P).map (fun t => (D.bottom t).n)).sum :=
    (hr.map _).sum_eq
  unfold DTree.sizeInt
  rw [sumInt_eq _ r (by rw [e]; exact h), e, Option.map_some, Option.some.injEq]
  generalize ((List.range D.P).map (fun t => (D.bottom t).n)).sum = s at h
  rw [BitVec.ofInt_natCast, BitVec.toNat_ofNat]
  exact Nat.mod_eq_of_lt (by omega)

omit [SemilatticeSup V] [OrderBot V] in
/-- **C83 (defect).** With 2^31 values or more (and fewer than 2^31 on every process), the sum overflows,
whatever its arrangement. -/
theorem distributed_size_overflow (D : DTree α V w) (r : Geometry.Reduction) (hr : r.iters.Perm (List.range D.P))
    (hn : ∀ t < D.P, (D.bottom t).n < 2 ^ 31)
    (h : 2 ^ 31 ≤ ((List.range D.P).map (fun t => (D.bottom t).n)).sum) :
    D.sizeInt r = none := by
  have e : (r.iters.map (fun t => (D.bottom t).n)).sum = ((List.range D.P).map (fun t => (D.bottom t).n)).sum :=
    (hr.map _).sum_eq
  have hn' : ∀ t ∈ r.iters, (D.bottom t).n < 2 ^ 31 := fun t ht => hn t (List.mem_range.mp (hr.subset ht))
  have key : ∀ q : Geometry.Reduction, (∀ t ∈ q.iters, (D.bottom t).n < 2 ^ 31) →
      ∀ a, sumInt (fun t => (D.bottom t).n) q = some a →
        a = (q.iters.map (fun t => (D.bottom t).n)).sum ∧ a < 2 ^ 31 := by
    intro q
    induction q with
    | init => intro _ a ha; simp only [sumInt, Option.some.injEq] at ha; subst ha; simp [Geometry.Reduction.iters]
    | iter q i ih =>
      intro hq a ha
      rw [sumInt] at ha
      obtain ⟨b, hb, hab⟩ := Option.bind_eq_some_iff.mp ha
      obtain ⟨hb1, hb2⟩ := ih (fun t ht => hq t (List.mem_cons_of_mem _ ht)) b hb
      have hi := hq i List.mem_cons_self
      rw [toInt_eq hi] at hab
      unfold addInt at hab
      split_ifs at hab with hc
      simp only [Option.some.injEq] at hab
      simp only [Geometry.Reduction.iters, List.map_cons, List.sum_cons]
      rw [Nat.cast_add]
      omega
    | join q s hq hs =>
      intro hqs a ha
      rw [sumInt] at ha
      obtain ⟨b, hb, hab⟩ := Option.bind_eq_some_iff.mp ha
      obtain ⟨c, hc, habc⟩ := Option.bind_eq_some_iff.mp hab
      obtain ⟨hb1, hb2⟩ := hq (fun t ht => hqs t (List.mem_append_left _ ht)) b hb
      obtain ⟨hc1, hc2⟩ := hs (fun t ht => hqs t (List.mem_append_right _ ht)) c hc
      unfold addInt at habc
      split_ifs at habc with hd
      simp only [Option.some.injEq] at habc
      simp only [Geometry.Reduction.iters, List.map_append, List.sum_append]
      rw [Nat.cast_add]
      omega
  unfold DTree.sizeInt
  rw [Option.map_eq_none_iff]
  cases hs : sumInt (fun t => (D.bottom t).n) r with
  | none => rfl
  | some a =>
    obtain ⟨h1, h2⟩ := key r hn' a hs
    rw [e] at h1
    omega

/-! ## Non-vacuity -/

/-- The bounds of the three processes of `someBottom`, on each of them. -/
example : ∃ D : DTree ℕ (Finset ℕ) 64, D.Valid ∧ ∀ r < 3, bounds (D.top r) (D.tsched r) = some {0, 1, 2, 3, 4} := by
  obtain ⟨D, hv, hP, hb⟩ := someDTree_exists
  refine ⟨D, hv, fun r hr => ?_⟩
  obtain ⟨b, e, hL⟩ := distributed_bounds_least D hv r (by omega)
  rw [e, Option.some.injEq]
  refine hL.unique ⟨?_, ?_⟩
  · rintro v ⟨t, ht, i, hi, rfl⟩
    rw [hP] at ht
    rw [hb] at hi ⊢
    have h : ∀ t < 3, ∀ i < (someBottom t).n, (someBottom t).vol ((someBottom t).values i) ⊆ {0, 1, 2, 3, 4} := by decide
    exact h t ht i hi
  · intro c hc
    have h : ∀ i < 5, ((someBottom 0).vol ((someBottom 0).values i)) ⊆ c := fun i hi =>
      hc ⟨0, by omega, i, by rw [hb]; exact hi, by rw [hb]⟩
    intro x hx
    have hx' : ∃ i < 5, x ∈ (someBottom 0).vol ((someBottom 0).values i) := by
      revert x
      decide
    obtain ⟨i, hi, hxi⟩ := hx'
    exact h i hi hxi

example : bruteBounds (fun i => ({i} : Finset ℕ)) (.join (.iter (.iter .init 2) 0) (.iter .init 1)) = {0, 1, 2} ∧
    ∀ i, i ∈ (Geometry.Reduction.join (.iter (.iter .init 2) 0) (.iter .init 1)).iters ↔ i < 3 := by
  refine ⟨by decide, fun i => ?_⟩
  simp only [Geometry.Reduction.iters, List.cons_append, List.nil_append, List.mem_cons, List.not_mem_nil, or_false]
  omega

/-- Two processes with `n` values each. -/
def twice (n : ℕ) : DTree ℕ (Finset ℕ) 64 :=
  ⟨2, fun _ => ⟨n, fun i => i, fun a => {a}, fun _ => 0, fun i => i⟩, fun _ => [], fun _ _ => 0, fun _ i => i, fun _ => []⟩

/-- 2^30 - 1 values on both processes can be counted, 2^30 cannot. -/
example : (twice (2 ^ 30 - 1)).sizeInt (.join (.iter .init 1) (.iter .init 0)) = some (2 ^ 31 - 2) ∧
    (twice (2 ^ 30)).sizeInt (.join (.iter .init 1) (.iter .init 0)) = none := by
  have hr : (Geometry.Reduction.join (.iter .init 1) (.iter .init 0)).iters.Perm (List.range 2) := by decide
  refine ⟨?_, ?_⟩
  · rw [distributed_size_partial (twice (2 ^ 30 - 1)) _ hr (by simp [twice, List.range_succ])]
    simp [twice, List.range_succ]
  · exact distributed_size_overflow (twice (2 ^ 30)) _ hr (fun t _ => by simp [twice]) (by simp [twice, List.range_succ])

end ArborX.Distributed

namespace ArborX.Euclid

open Geometry BVH Distributed

variable {D : ℕ}

lemma leafBound_least {M : ℝ} {g : Geom ℝ D} (hg : g.Valid) (hb : g.Bounded M) (C : Box ℝ D) (h : g.set ⊆ C.set) :
    (leafBound M g).set ⊆ C.set := by
  obtain ⟨B, e, -⟩ := leafBound_spec M hg
  obtain ⟨H, eH, hH, -, hat⟩ := (Box.empty M).expand_spec g hg
  have hB : B.1 = (Box.empty M).expandBox H := by
    unfold leafBound at e
    split_ifs at e with hv
    · rw [← eH]
      have := WithBot.coe_injective e
      rw [← this]
    · exact absurd e (by simp)
  rw [e]
  show B.1.set ⊆ C.set
  rw [hB]
  refine Box.le_set fun d => ?_
  obtain ⟨⟨x, hx, ex⟩, ⟨y, hy, ey⟩⟩ := hat d
  have bx := hb x hx d
  have by' := hb y hy d
  have cx := h hx d
  have cy := h hy d
  simp only [Box.expandBox, Box.empty]
  rw [← ex, ← ey]
  refine ⟨le_min ?_ cx.1, max_le ?_ cy.2⟩
  · exact cx.1.trans bx.2
  · exact by'.1.trans cy.2

/-- **C83, in Euclidean space.** `bounds()` of a tree over geometries with finite coordinates is the
smallest box that contains all of them; for a tree without values it is empty. -/
theorem bounds_geometry (S : Scene D) (hS : S.Valid) (hb : ∀ g ∈ S.geo, (toReal g).Bounded (S.M : ℝ)) (sched : List ℕ)
    (hf : S.input.Finished sched) :
    ∃ b : Bound D, bounds S.input sched = some b ∧ (∀ g ∈ S.geo, (toReal g).set ⊆ b.set) ∧
      ∀ C : Box ℝ D, (∀ g ∈ S.geo, (toReal g).set ⊆ C.set) → b.set ⊆ C.set := by
  obtain ⟨b, h1, h2⟩ := bounds_least S.input hS.input sched hf
  have hat : ∀ i < S.geo.length, S.geo[i]? = some (S.at i) := by
    intro i hi
    unfold Scene.at
    rw [List.getD_eq_getElem _ _ hi, List.getElem?_eq_getElem hi]
  refine ⟨b, h1, ?_, ?_⟩
  · intro g hg
    obtain ⟨i, hi, rfl⟩ := List.getElem_of_mem hg
    have e := hat i hi
    rw [List.getElem?_eq_getElem hi, Option.some.injEq] at e
    rw [e]
    obtain ⟨C, rfl, hC⟩ := leafBound_le (hS.at i).valid (h2.1 ⟨i, hi, rfl⟩)
    exact hC
  · intro C hC
    by_cases hne : ∃ x, x ∈ b.set
    swap
    · intro x hx; exact absurd ⟨x, hx⟩ hne
    -- then there is a value, and `C` has ordered corners
    have hn : S.geo ≠ [] := by
      rintro he
      have hb' : b ≤ ⊥ := h2.2 (by
        rintro v ⟨i, hi, -⟩
        have : i < S.geo.length := hi
        rw [he] at this; simp at this)
      obtain ⟨x, hx⟩ := hne
      exact (Bound.set_mono hb' hx).elim
    obtain ⟨g, hg⟩ := List.exists_mem_of_ne_nil _ hn
    have hCv : C.Valid := by
      obtain ⟨H, -, hH, -, hat'⟩ := (Box.empty (S.M : ℝ)).expand_spec (toReal g) (hS.regular g hg).valid
      intro d
      obtain ⟨⟨x, hx, -⟩, -⟩ := hat' d
      exact (hC g hg hx d).1.trans (hC g hg hx d).2
    have : b ≤ ((⟨C, hCv⟩ : VBox D) : Bound D) := by
      refine h2.2 ?_
      rintro v ⟨i, hi, rfl⟩
      have hi : i < S.geo.length := hi
      show leafBound (S.M : ℝ) (toReal (S.at i)) ≤ _
      obtain ⟨B, e, -⟩ := leafBound_spec (S.M : ℝ) (hS.at i).valid
      have hset := leafBound_least (hS.at i).valid (hb _ (S.at_mem hi)) C (hC _ (S.at_mem hi))
      rw [e] at hset ⊢
      exact WithBot.coe_le_coe.mpr ((VBox.le_iff _ _).mpr hset)
    exact Bound.set_mono this

lemma exampleScene_inside : ∀ g ∈ exampleScene.geo, (toReal g).set ⊆ (⟨![0, 0], ![6, 6]⟩ : Box ℝ 2).set := by
  intro g hg x hx d
  simp only [exampleScene, List.mem_cons, List.not_mem_nil, or_false] at hg
  rcases hg with rfl | rfl | rfl
  · have e : x = toRealPt ![0, 0] := hx
    subst e
    fin_cases d <;> simp [toRealPt]
  · have h := hx d
    fin_cases d <;> simp [toRealPt] at h ⊢ <;> constructor <;> linarith
  · obtain ⟨-, h⟩ := hx
    simp only [dist2, Fin.sum_univ_two, toRealPt] at h
    norm_num at h
    fin_cases d <;> simp <;> constructor <;> nlinarith [sq_nonneg (x 0 - 5), sq_nonneg (x 1 - 5)]

/-- The bounds of the point, the box and the ball of `exampleScene`. -/
example (sched : List ℕ) (hf : exampleScene.input.Finished sched) :
    ∃ b : Bound 2, bounds exampleScene.input sched = some b ∧ ![0, 0] ∈ b.set ∧ ¬ ![-1, 0] ∈ b.set := by
  obtain ⟨b, e, h1, h2⟩ := bounds_geometry exampleScene exampleScene_valid (by
    intro g hg x hx d
    have h := exampleScene_inside g hg hx d
    fin_cases d <;> simp [exampleScene] at h ⊢ <;> constructor <;> linarith) sched hf
  refine ⟨b, e, h1 _ List.mem_cons_self ?_, ?_⟩
  · show _ = toRealPt _
    funext d
    fin_cases d <;> simp [toRealPt]
  · intro h
    have := h2 _ exampleScene_inside h 0
    simp at this
    linarith

end ArborX.Euclid
