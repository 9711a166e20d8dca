import Verif.Interp.Theorems
import Verif.Euclid.Theorems
import Verif.Crs.Theorems

/-!
# Moving least squares: search of the neighbours and interpolation (C54)

Models `src/interpolation/ArborX_InterpMovingLeastSquares.hpp`: the constructor builds a tree of the source points, looks for the nearest
sources of each target, stores them in rows, and computes the coefficients; `interpolate` applies them.
-/

namespace ArborX.Interp

open Geometry MvPolynomial Euclid

variable {dim : ℕ}

/-! ## Model -/

/-- Arguments of the constructor and of the primitives it uses.
* `sources`, `targets` are the points; `k` is `num_neighbors`;
* `M`, `prec`, `red`, `perm` belong to the construction of the tree (see `Euclid.Scene`);
* `permute` is the order in which the query processes the predicates. -/
structure Mls (dim : ℕ) where
  sources : List (Pt ℚ dim)
  targets : List (Pt ℝ dim)
  k : ℕ
  M : ℚ
  prec : ℕ
  red : Reduction
  perm : ℕ → ℕ
  permute : ℕ → ℕ

/-- The source tree (lines 194-197). -/
def Mls.scene (A : Mls dim) : Scene dim := ⟨A.sources.map .point, A.M, A.prec, A.red, A.perm⟩

/-- Source point `i`. -/
def Mls.source (A : Mls dim) (i : ℕ) : Pt ℝ dim := toRealPt (A.sources.getD i 0)

/-- Target point `i`. -/
def Mls.target (A : Mls dim) (i : ℕ) : Pt ℝ dim := A.targets.getD i 0

/-- The calls of the callback for target `i` (lines 199-202, 219): `nearest(target, num_neighbors)`. -/
noncomputable def Mls.neighbors (A : Mls dim) (bsched : List ℕ) (fuel i : ℕ) : Res (List ℕ) :=
  Nearest.nearestQuery (A.scene.input.build bsched) (A.scene.nearest (.point (A.target i)) A.k) fuel

/-- What the threads of the query do: thread `t` works on target `permute t`, which the predicate carries as its data, and calls
`MLSSearchNeighborsCallback` (lines 45-53) on `primitive.index`, `primitive.value`. -/
def Mls.program (A : Mls dim) (calls : ℕ → List ℕ) (t : ℕ) : List (ℕ × (ℕ × Pt ℝ dim)) :=
  (calls (A.permute t)).map (fun source => (A.permute t, (source, A.source source)))

/-- The place `(target, count)` of the two-dimensional arrays `indices` and `source_view` (lines 204-211), which are kept as one array of
pairs: the two writes of lines 51 and 52 are one step. -/
def Mls.slot (A : Mls dim) (target count : ℕ) : Option ℕ := some (target * A.k + count)

/-- `source_tree.query(space, predicates, callback)` (line 219) under the schedule `sched`; `counter` is zero initially (line 212). -/
def Mls.search (A : Mls dim) (calls : ℕ → List ℕ) (sched : List ℕ) : Crs.State (ℕ × Pt ℝ dim) :=
  Crs.runPass A.targets.length (A.program calls) A.slot (fun _ => 0) (A.targets.length * A.k) (fun _ => none) sched

/-- Row `i` of the arrays; `none` if an entry is not initialised. -/
def rowOf {T : Type} (k : ℕ) (out : ℕ → Option T) (i : ℕ) : Option (Fin k → T) :=
  if h : ∀ j : Fin k, (out (i * k + j)).isSome then some (fun j => (out (i * k + j)).get (h j)) else none

/-- The body of `interpolate` (lines 177-180). -/
noncomputable def interpolateRow {k : ℕ} (coeffs : Fin k → ℝ) (indices : Fin k → ℕ) (values : ℕ → ℝ) : ℝ :=
  (List.finRange k).foldl (fun tmp j => tmp + coeffs j * values (indices j)) 0

/-- The value that `interpolate` computes for target `i`: constructor (lines 122-128) and `interpolate`. -/
noncomputable def Mls.approx (A : Mls dim) (eps : ℝ) (sweeps : ℕ) (F : CRBF) (deg : ℕ) (out : ℕ → Option (ℕ × Pt ℝ dim))
    (values : ℕ → ℝ) (i : ℕ) : Option ℝ :=
  (rowOf A.k out i).bind fun row =>
    (mlsCoefficients eps sweeps F deg (A.target i) (fun j => (row j).2)).map fun c =>
      interpolateRow c (fun j => (row j).1) values

/-! ## Lemmas -/

lemma foldl_add_sum {ι : Type} (l : List ι) (f : ι → ℝ) (a : ℝ) : l.foldl (fun s j => s + f j) a = a + (l.map f).sum := by
  induction l generalizing a with
  | nil => simp
  | cons x l ih => rw [List.foldl_cons, ih, List.map_cons, List.sum_cons]; ring

lemma interpolateRow_eq {k : ℕ} (c : Fin k → ℝ) (ind : Fin k → ℕ) (v : ℕ → ℝ) :
    interpolateRow c ind v = ∑ j, c j * v (ind j) := by
  unfold interpolateRow
  rw [foldl_add_sum, zero_add, ← List.sum_ofFn, List.ofFn_eq_map]

/-- What each thread inserts, seen from the target. -/
lemma inserted_program (A : Mls dim) (calls : ℕ → List ℕ) (hp : Crs.IsPerm A.targets.length A.permute) {q : ℕ}
    (hq : q < A.targets.length) :
    Crs.inserted A.targets.length (A.program calls) q = (calls q).map (fun s => (s, A.source s)) := by
  obtain ⟨t, ht, rfl⟩ := hp.surj hq
  unfold Crs.inserted
  have key : ∀ m ≤ A.targets.length, ((List.range m).flatMap (A.program calls)).filter (fun e => decide (e.1 = A.permute t)) =
      if t < m then A.program calls t else [] := by
    intro m
    induction m with
    | zero => intro _; simp
    | succ m ih =>
      intro hm
      rw [List.range_succ, List.flatMap_append, List.filter_append, ih (by omega)]
      simp only [List.flatMap_cons, List.flatMap_nil, List.append_nil]
      by_cases htm : t = m
      · subst htm
        rw [if_neg (by omega), if_pos (by omega), List.nil_append, List.filter_eq_self]
        intro e he
        unfold Mls.program at he
        obtain ⟨s, -, rfl⟩ := List.mem_map.mp he
        simp
      · have hnil : (A.program calls m).filter (fun e => decide (e.1 = A.permute t)) = [] := by
          rw [List.filter_eq_nil_iff]
          intro e he
          unfold Mls.program at he
          obtain ⟨s, -, rfl⟩ := List.mem_map.mp he
          simp only [decide_eq_true_eq]
          intro hc
          exact htm (hp.inj (by omega) (by omega) hc).symm
        rw [hnil, List.append_nil]
        by_cases h1 : t < m
        · rw [if_pos h1, if_pos (by omega)]
        · rw [if_neg h1, if_neg (by omega)]
  rw [key _ le_rfl, if_pos ht]
  unfold Mls.program
  rw [List.map_map]
  rfl

lemma inserted_none (A : Mls dim) (calls : ℕ → List ℕ) (hp : Crs.IsPerm A.targets.length A.permute) {q : ℕ}
    (hq : ¬ q < A.targets.length) : Crs.inserted A.targets.length (A.program calls) q = [] := by
  unfold Crs.inserted
  rw [List.map_eq_nil_iff, List.filter_eq_nil_iff]
  intro e he
  obtain ⟨t, ht, he⟩ := List.mem_flatMap.mp he
  unfold Mls.program at he
  obtain ⟨s, -, rfl⟩ := List.mem_map.mp he
  have := hp.lt (List.mem_range.mp ht)
  simp only [decide_eq_true_eq]
  omega

/-- The rows after the query: target `i` has its `k` neighbours, in some order, with their points. -/
theorem search_rows (A : Mls dim) (calls : ℕ → List ℕ) (hlen : ∀ i < A.targets.length, (calls i).length = A.k)
    (hp : Crs.IsPerm A.targets.length A.permute) (sched : List ℕ) (hfair : Crs.Fair A.targets.length (A.program calls) sched) :
    (A.search calls sched).fault = false ∧ ∀ i < A.targets.length, ∃ row : Fin A.k → ℕ,
      rowOf A.k (A.search calls sched).out i = some (fun j => (row j, A.source (row j))) ∧ (List.ofFn row).Perm (calls i) := by
  have hins : ∀ q, (Crs.inserted A.targets.length (A.program calls) q).length = if q < A.targets.length then A.k else 0 := by
    intro q
    by_cases hq : q < A.targets.length
    · rw [inserted_program A calls hp hq, List.length_map, hlen q hq, if_pos hq]
    · rw [inserted_none A calls hp hq, if_neg hq]; rfl
  have hfits : Crs.Fits A.targets.length (A.program calls) A.slot (fun _ => 0) (A.targets.length * A.k) := by
    constructor
    · intro q k q' k' x h1 h2 e1 e2
      rw [hins] at h1 h2
      split_ifs at h1 h2 with c1 c2
      · simp only [Mls.slot, zero_add, Option.some.injEq] at e1 e2
        have e : q * A.k + k = q' * A.k + k' := by omega
        have hq : q = q' := by
          have a := Nat.add_mul_div_right k q (by omega : 0 < A.k)
          have b := Nat.add_mul_div_right k' q' (by omega : 0 < A.k)
          rw [Nat.div_eq_of_lt h1] at a
          rw [Nat.div_eq_of_lt h2] at b
          rw [Nat.add_comm, e, Nat.add_comm, b] at a
          omega
        subst hq
        exact ⟨rfl, by omega⟩
      all_goals omega
    · intro q k x h1 e1
      rw [hins] at h1
      split_ifs at h1 with c1
      · simp only [Mls.slot, zero_add, Option.some.injEq] at e1
        have : (q + 1) * A.k ≤ A.targets.length * A.k := Nat.mul_le_mul_right _ (by omega)
        rw [Nat.add_mul, Nat.one_mul] at this
        omega
      · omega
  obtain ⟨seg, h1, -, h3, -, h5⟩ := Crs.pass_spec hfits (fun _ => none) sched (Crs.pass_terminates hfair _ _ _ _)
  refine ⟨h3, fun i hi => ?_⟩
  have hseg := h1 i
  rw [inserted_program A calls hp hi] at hseg
  have hl : (seg i).length = A.k := by rw [hseg.length_eq, List.length_map, hlen i hi]
  have hpt : ∀ v ∈ seg i, v.2 = A.source v.1 := by
    intro v hv
    obtain ⟨s, -, rfl⟩ := List.mem_map.mp (hseg.mem_iff.mp hv)
    rfl
  have hout : ∀ j : Fin A.k, (A.search calls sched).out (i * A.k + j) = some ((seg i)[(j : ℕ)]'(by rw [hl]; exact j.2)) := by
    intro j
    refine h5 i j _ _ (List.getElem?_eq_getElem (by rw [hl]; exact j.2)) ?_
    simp only [Mls.slot, zero_add]
  have hsome : ∀ j : Fin A.k, ((A.search calls sched).out (i * A.k + j)).isSome := fun j => by rw [hout j]; rfl
  refine ⟨fun j => ((seg i)[(j : ℕ)]'(by rw [hl]; exact j.2)).1, ?_, ?_⟩
  · unfold rowOf
    rw [dif_pos hsome]
    congr 1
    funext j
    have : ((A.search calls sched).out (i * A.k + j)).get (hsome j) = (seg i)[(j : ℕ)]'(by rw [hl]; exact j.2) := by
      exact Option.some_injective _ (by rw [Option.some_get, hout j])
    rw [this]
    refine Prod.ext rfl ?_
    exact hpt _ (List.getElem_mem _)
  · have e : List.ofFn (fun j : Fin A.k => ((seg i)[(j : ℕ)]'(by rw [hl]; exact j.2)).1) = (seg i).map Prod.fst := by
      refine List.ext_getElem (by simp [hl]) fun n hn1 hn2 => ?_
      simp
    rw [e]
    have := hseg.map Prod.fst
    rw [List.map_map] at this
    simpa [Function.comp_def] using this

/-! ## Theorem -/

/-- The `k` sources given determine polynomials of degree at most `deg`. -/
def Unisolvent (A : Mls dim) (deg : ℕ) (nbs : List ℕ) : Prop :=
  ∀ f : MvPolynomial (Fin dim) ℝ, f.totalDegree ≤ deg → (∀ s ∈ nbs, eval (A.source s) f = 0) → f = 0

/-- **C54.** For every construction and query schedule: the search stores for each target its `k` nearest sources, and if those determine
polynomials of degree `deg`, interpolating the values of such a polynomial gives its values at the targets, up to any error `delta`, for all
small enough tolerances and enough sweeps of the decomposition. -/
theorem mls_interpolation (A : Mls dim) (hA : A.scene.Valid) (hk : A.k ≤ A.sources.length) (hcap : Nearest.StackFits A.scene.input 64)
    (hp : Crs.IsPerm A.targets.length A.permute) (bsched : List ℕ) (hf : A.scene.input.Finished bsched) (fuel : ℕ)
    (hfuel : 2 * A.sources.length ≤ fuel) :
    ∃ calls : ℕ → List ℕ, (∀ i < A.targets.length, A.neighbors bsched fuel i = .done (calls i) ∧
        NearestOf A.scene (.point (A.target i)) A.k (calls i)) ∧
      ∀ sched, Crs.Fair A.targets.length (A.program calls) sched →
        (A.search calls sched).fault = false ∧
        ∀ i < A.targets.length, ∀ (F : CRBF) (deg : ℕ), Unisolvent A deg (calls i) → ∀ f : MvPolynomial (Fin dim) ℝ, f.totalDegree ≤ deg →
          ∀ delta > 0, ∃ eps0 > 0, ∀ eps, 0 < eps → eps < eps0 → ∃ N : ℕ, ∀ sweeps ≥ N, ∃ r,
            A.approx eps sweeps F deg (A.search calls sched).out (fun s => eval (A.source s) f) i = some r ∧
            |r - eval (A.target i) f| ≤ delta := by
  have hgl : A.scene.geo.length = A.sources.length := by simp [Mls.scene]
  have hdist : ∀ i, A.scene.HasDistance (.point (A.target i)) := by
    intro i
    refine ⟨fun B => rfl, fun g hg => ?_⟩
    obtain ⟨p, -, rfl⟩ := List.mem_map.mp hg
    rfl
  have : ∀ i, ∃ c, A.neighbors bsched fuel i = .done c ∧ NearestOf A.scene (.point (A.target i)) A.k c := fun i =>
    nearest_query_geometry A.scene hA (.point (A.target i)) trivial (hdist i) A.k hcap bsched hf fuel (by rw [hgl]; exact hfuel)
  choose calls hc using this
  refine ⟨calls, fun i _ => hc i, fun sched hfair => ?_⟩
  have hlen : ∀ i < A.targets.length, (calls i).length = A.k := by
    intro i _
    rw [(hc i).2.length, hgl]
    omega
  obtain ⟨h1, h2⟩ := search_rows A calls hlen hp sched hfair
  refine ⟨h1, fun i hi F deg huni f hfd delta hdelta => ?_⟩
  obtain ⟨row, e, hperm⟩ := h2 i hi
  obtain ⟨eps0, he0, H⟩ := mls_reproduces F deg (A.target i) (fun j => A.source (row j)) (by
    intro g hg hz
    refine huni g hg fun s hs => ?_
    have : s ∈ List.ofFn row := hperm.mem_iff.mpr hs
    obtain ⟨j, rfl⟩ := (List.mem_ofFn' row s).mp this
    exact hz j) f hfd delta hdelta
  refine ⟨eps0, he0, fun eps h0 h1 => ?_⟩
  obtain ⟨N, HN⟩ := H eps h0 h1
  refine ⟨N, fun sweeps hs => ?_⟩
  obtain ⟨c, ec, hcb⟩ := HN sweeps hs
  refine ⟨∑ j, c j * eval (A.source (row j)) f, ?_, hcb⟩
  unfold Mls.approx
  rw [e, Option.bind_some]
  dsimp only
  rw [ec, Option.map_some, interpolateRow_eq]

/-! ## Non-vacuity: three sources in the plane, two targets, polynomials of degree 1 -/

/-- The example. -/
noncomputable def exampleMls : Mls 2 where
  sources := [![0, 0], ![1, 0], ![0, 1]]
  targets := [![1 / 3, 1 / 3], ![2, 2]]
  k := 3
  M := 1000
  prec := 53
  red := .join (.iter .init 0) (.iter (.iter .init 1) 2)
  perm := fun i => [0, 2, 1].getD i 0
  permute := fun i => 1 - i

/-- Its source tree. -/
def exampleTree : Scene 2 := ⟨[.point ![0, 0], .point ![1, 0], .point ![0, 1]], 1000, 53, .join (.iter .init 0) (.iter (.iter .init 1) 2),
  fun i => [0, 2, 1].getD i 0⟩

theorem exampleMls_valid : exampleMls.scene.Valid := by
  have e : exampleMls.scene = exampleTree := rfl
  rw [e]
  refine ⟨le_rfl, by norm_num, by decide, by decide, ⟨by decide, ?_⟩, ?_⟩
  · intro i hi
    have hi' : i + 1 < 3 := hi
    have h01 : exampleTree.code 0 ≤ exampleTree.code 2 := by decide +kernel
    have h12 : exampleTree.code 2 ≤ exampleTree.code 1 := by decide +kernel
    rcases (by omega : i = 0 ∨ i = 1) with rfl | rfl
    · exact h01
    · exact h12
  · intro g hg
    simp only [exampleTree, List.mem_cons, List.not_mem_nil, or_false] at hg
    rcases hg with rfl | rfl | rfl <;> trivial

/-- The three sources determine polynomials of degree 1. -/
example (nbs : List ℕ) (h0 : 0 ∈ nbs) (h1 : 1 ∈ nbs) (h2 : 2 ∈ nbs) : Unisolvent exampleMls 1 nbs := by
  intro f hf hz
  have hexp : ∀ x : Pt ℝ 2, eval x f = coeffs 1 f ⟨0, by decide⟩ + x 0 * coeffs 1 f ⟨1, by decide⟩ + x 1 * coeffs 1 f ⟨2, by decide⟩ := by
    intro x
    rw [eval_coeffs 1 f hf]
    have e0 : ∀ d, expoAt 2 1 ⟨0, by decide⟩ d = 0 := fun d => by rw [expoAt_zero]; rfl
    have e10 : expoAt 2 1 ⟨1, by decide⟩ 0 = 1 := by decide +kernel
    have e11 : expoAt 2 1 ⟨1, by decide⟩ 1 = 0 := by decide +kernel
    have e20 : expoAt 2 1 ⟨2, by decide⟩ 0 = 0 := by decide +kernel
    have e21 : expoAt 2 1 ⟨2, by decide⟩ 1 = 1 := by decide +kernel
    have : ∀ g : Fin (basisSize 2 1) → ℝ, ∑ i, g i = g ⟨0, by decide⟩ + g ⟨1, by decide⟩ + g ⟨2, by decide⟩ :=
      fun g => Fin.sum_univ_three g
    rw [this]
    simp [e0, e10, e11, e20, e21]
  have z0 := hz 0 h0
  have z1 := hz 1 h1
  have z2 := hz 2 h2
  rw [hexp] at z0 z1 z2
  simp [Mls.source, exampleMls, toRealPt] at z0 z1 z2
  rw [z0] at z1 z2
  refine MvPolynomial.funext fun x => ?_
  rw [hexp, z0]
  simp only [zero_add] at z1 z2
  rw [z1, z2]
  simp

example : Crs.IsPerm exampleMls.targets.length exampleMls.permute := by
  show ((List.range 2).map (fun i => 1 - i)).Perm (List.range 2)
  decide

example (calls : ℕ → List ℕ) (h : ∀ i, (calls i).length = 3) :
    Crs.Fair exampleMls.targets.length (exampleMls.program calls) (List.replicate 6 0 ++ List.replicate 6 1) := by
  intro t ht
  have ht' : t < 2 := ht
  have hl : (exampleMls.program calls t).length = 3 := by
    unfold Mls.program; rw [List.length_map]; exact h _
  rw [hl]
  rcases (by omega : t = 0 ∨ t = 1) with rfl | rfl <;> decide

end ArborX.Interp
