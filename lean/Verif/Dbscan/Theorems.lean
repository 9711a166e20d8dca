import Verif.Dbscan.Model
import Verif.Dbscan.Labels
import Mathlib.Data.List.GetD
import Mathlib.Tactic.IntervalCases
import Mathlib.Tactic.Abel

/-!
# Property theorems: DBSCAN and DBSCAN*, implementation FDBSCAN (C19, C20)
-/

namespace ArborX.Dbscan

open Traversal BVH UF

/-! ## The pairs of the half traversal -/

lemma pairs_mem {α : Type} {l : List α} {p : α × α} (h : p ∈ pairs l) : p.1 ∈ l ∧ p.2 ∈ l := by
  induction l with
  | nil => simp [pairs] at h
  | cons x xs ih =>
    simp only [pairs, List.mem_append, List.mem_map] at h
    rcases h with ⟨y, hy, rfl⟩ | h
    · exact ⟨List.mem_cons_self, List.mem_cons_of_mem _ hy⟩
    · exact ⟨List.mem_cons_of_mem _ (ih h).1, List.mem_cons_of_mem _ (ih h).2⟩

lemma mem_pairs {α : Type} {l : List α} {x y : α} (hx : x ∈ l) (hy : y ∈ l) (hne : x ≠ y) :
    (x, y) ∈ pairs l ∨ (y, x) ∈ pairs l := by
  induction l with
  | nil => simp at hx
  | cons a l ih =>
    simp only [pairs, List.mem_append, List.mem_map]
    rcases List.mem_cons.mp hx with rfl | hx'
    · rcases List.mem_cons.mp hy with rfl | hy'
      · exact absurd rfl hne
      · exact Or.inl (Or.inl ⟨y, hy', rfl⟩)
    · rcases List.mem_cons.mp hy with rfl | hy'
      · exact Or.inr (Or.inl ⟨x, hx', rfl⟩)
      · rcases ih hx' hy' with h | h
        · exact Or.inl (Or.inr h)
        · exact Or.inr (Or.inr h)

section

variable {V : Type} {w : ℕ} [SemilatticeSup V] [OrderBot V]

/-- Preconditions on the inputs: those of the tree; `near` is a symmetric relation that the bounding
volumes respect, reflexive except for points that are near no point (such as points with a NaN); the iterations are distributed over the threads. -/
structure In.Valid (D : In V w) : Prop where
  tree : D.tree.Valid
  symm : ∀ i j, D.near i j = D.near j i
  refl : ∀ i j, D.near i j = true → D.near i i = true
  mono : ∀ i, Monotone D.vol (D.near i) (D.pv i)
  minPts : 2 ≤ D.minPts
  chunks : D.chunks.flatten.Perm (List.range D.n)
  serial : D.serial = true → D.chunks.length ≤ 1

omit [SemilatticeSup V] [OrderBot V] in
lemma halfPairs_pairsOf (D : In V w) (mem : Mem ℕ V) (fuel : ℕ) (l : List ℕ) (R : List (ℕ × ℕ))
    (h : halfPairs mem D.near D.pv fuel l = some R) :
    (∀ t ∈ l, (D.pairsOf mem fuel t).isSome = true) ∧
    R = l.flatMap (fun t => (D.pairsOf mem fuel t).getD []) := by
  induction l generalizing R with
  | nil => simp [halfPairs] at h; simp [h]
  | cons t l ih =>
    unfold halfPairs at h
    cases h1 : mem.leaf t with
    | none => rw [h1] at h; simp at h
    | some lf =>
      cases h2 : halfQuery mem D.near D.pv fuel t with
      | done calls =>
        cases h3 : halfPairs mem D.near D.pv fuel l with
        | none => rw [h1, h2, h3] at h; simp at h
        | some rest =>
          rw [h1, h2, h3] at h
          simp only [Option.some.injEq] at h
          obtain ⟨i1, i2⟩ := ih rest h3
          have hp : D.pairsOf mem fuel t = some (calls.map (fun b => (lf.value, b))) := by
            unfold In.pairsOf; rw [h1, h2]
          refine ⟨?_, ?_⟩
          · intro t' ht'
            rcases List.mem_cons.mp ht' with rfl | ht'
            · rw [hp]; rfl
            · exact i1 t' ht'
          · rw [List.flatMap_cons, hp, ← i2, ← h]
            rfl
      | _ => rw [h1, h2] at h; simp at h

variable (D : In V w) (hD : D.Valid) (schedB : List ℕ) (hB : D.tree.Finished schedB) (fuel : ℕ)
  (hfuel : 2 * D.n ≤ fuel)

include hD hB hfuel

/-- The pairs of all iterations. -/
lemma half_pairs_spec :
    (∀ t < D.n, (D.pairsOf (D.tree.build schedB) fuel t).isSome = true) ∧
    (∀ t < D.n, ∀ p ∈ (D.pairsOf (D.tree.build schedB) fuel t).getD [],
      p.1 < D.n ∧ p.2 < D.n ∧ D.near p.1 p.2 = true) ∧
    (∀ i < D.n, ∀ j < D.n, i ≠ j → D.near i j = true → ∃ t < D.n,
      (i, j) ∈ (D.pairsOf (D.tree.build schedB) fuel t).getD [] ∨
      (j, i) ∈ (D.pairsOf (D.tree.build schedB) fuel t).getD []) := by
  obtain ⟨R, hR, hp⟩ := half_traversal_exact D.tree hD.tree D.near D.pv hD.symm hD.mono schedB hB fuel hfuel
  have hR' : halfPairs (D.tree.build schedB) D.near D.pv fuel (List.range D.n) = some R := hR
  obtain ⟨h1, h2⟩ := halfPairs_pairsOf D _ fuel _ R hR'
  have hst : D.tree.stored = List.range D.n := by simp [Input.stored, In.tree]
  rw [hst] at hp
  refine ⟨fun t ht => h1 t (List.mem_range.mpr ht), ?_, ?_⟩
  · intro t ht p hpm
    have hpR : p ∈ R := by
      rw [h2]; exact List.mem_flatMap.mpr ⟨t, List.mem_range.mpr ht, hpm⟩
    have : s(p.1, p.2) ∈ R.map (fun p => s(p.1, p.2)) := List.mem_map_of_mem hpR
    have := hp.subset this
    obtain ⟨q, hq, he⟩ := List.mem_map.mp this
    obtain ⟨hq1, hq2⟩ := List.mem_filter.mp hq
    have hm := pairs_mem hq1
    rw [List.mem_range, List.mem_range] at hm
    rw [Sym2.eq_iff] at he
    rcases he with ⟨e1, e2⟩ | ⟨e1, e2⟩
    · rw [← e1, ← e2]; exact ⟨hm.1, hm.2, hq2⟩
    · rw [← e1, ← e2]; exact ⟨hm.2, hm.1, by rw [hD.symm]; exact hq2⟩
  · intro i hi j hj hne hn
    have hm : ∃ q ∈ (pairs (List.range D.n)).filter (fun p => D.near p.1 p.2), s(q.1, q.2) = s(i, j) := by
      rcases mem_pairs (List.mem_range.mpr hi) (List.mem_range.mpr hj) hne with h | h
      · exact ⟨(i, j), List.mem_filter.mpr ⟨h, hn⟩, rfl⟩
      · exact ⟨(j, i), List.mem_filter.mpr ⟨h, by rw [← hD.symm]; exact hn⟩, Sym2.eq_swap⟩
    obtain ⟨q, hq, he⟩ := hm
    have : s(i, j) ∈ ((pairs (List.range D.n)).filter (fun p => D.near p.1 p.2)).map
        (fun p => s(p.1, p.2)) := List.mem_map.mpr ⟨q, hq, he⟩
    have := hp.symm.subset this
    obtain ⟨p, hpm, he⟩ := List.mem_map.mp this
    rw [h2] at hpm
    obtain ⟨t, ht, hpt⟩ := List.mem_flatMap.mp hpm
    refine ⟨t, List.mem_range.mp ht, ?_⟩
    rw [Sym2.eq_iff] at he
    rcases he with ⟨e1, e2⟩ | ⟨e1, e2⟩
    · left; rw [← e1, ← e2]; exact hpt
    · right; rw [← e1, ← e2]; exact hpt

/-- The counts decide who is a core point. -/
lemma count_spec (i : ℕ) :
    ∃ calls, D.count (D.tree.build schedB) fuel i = .done calls ∧
      decide (calls.length ≥ D.minPts) = decide (Core D.n D.near D.minPts i) := by
  obtain ⟨order, hp, H⟩ := spatial_query D.tree hD.tree (D.near i) (D.pv i) (hD.mono i)
  obtain ⟨calls, h1, h2, -, h4⟩ := H schedB hB (fun h => decide (h.length ≥ D.minPts)) fuel hfuel
  refine ⟨calls, h1, ?_⟩
  have hlen := hp.length_eq
  have hst : D.tree.stored = List.range D.n := by simp [Input.stored, In.tree]
  rw [hst] at hlen
  have hle := h2.length_le
  rw [decide_eq_decide]
  unfold Core
  rw [← hlen]
  rcases h4 with h4 | h4
  · rw [h4]
  · rw [decide_eq_true_eq] at h4
    omega

lemma isCore_spec (i : ℕ) : D.isCore (D.tree.build schedB) fuel i
    = if D.minPts = 2 then true else decide (Core D.n D.near D.minPts i) := by
  unfold In.isCore
  split_ifs
  · rfl
  · obtain ⟨calls, h1, h2⟩ := count_spec D hD schedB hB fuel hfuel i
    rw [h1]
    exact h2

lemma traversals_ok : D.traversalsOk (D.tree.build schedB) fuel = true := by
  unfold In.traversalsOk
  rw [List.all_eq_true]
  intro i hi
  rw [(half_pairs_spec D hD schedB hB fuel hfuel).1 i (List.mem_range.mp hi)]
  obtain ⟨calls, h1, -⟩ := count_spec D hD schedB hB fuel hfuel i
  rw [h1]
  simp

end

/-! ## The callbacks -/

lemma safe_callbacks {n : ℕ} {near : ℕ → ℕ → Bool} (hsymm : ∀ i j, near i j = near j i) (star : Bool)
    (core : ℕ → Bool) (ps : List (ℕ × ℕ)) (h : ∀ p ∈ ps, p.1 < n ∧ p.2 < n ∧ near p.1 p.2 = true)
    (B : ℕ → ℕ → Prop) (hB : ∀ b j, star = false → near b j = true → B b j) :
    Safe n (CP n core) (Relation.EqvGen (Link n core near)) B (callbacks star core ps) := by
  induction ps with
  | nil => exact trivial
  | cons p ps ih =>
    obtain ⟨i, j⟩ := p
    have ih := ih (fun q hq => h q (List.mem_cons_of_mem _ hq))
    obtain ⟨h1, h2, h3⟩ := h (i, j) List.mem_cons_self
    dsimp only at h1 h2 h3
    unfold callbacks
    cases hi : core i <;> cases hj : core j <;> cases star <;> simp only [Bool.not_false, Bool.not_true,
      Bool.or_true, Bool.or_false, Bool.and_true, Bool.and_false, Bool.false_and, Bool.true_and, if_true, if_false,
      Bool.false_eq_true] <;> first
      | exact ih
      | exact ⟨h1, fun hc => by rw [hc.2] at hi; exact absurd hi (by simp), ⟨h2, hj⟩, hB _ _ rfl h3, ih⟩
      | exact ⟨h2, fun hc => by rw [hc.2] at hj; exact absurd hj (by simp), ⟨h1, hi⟩,
          hB _ _ rfl (by rw [hsymm]; exact h3), ih⟩
      | exact ⟨⟨h1, hi⟩, ⟨h2, hj⟩, .rel _ _ ⟨⟨h1, hi⟩, ⟨h2, hj⟩, h3⟩, ih⟩

lemma path_callbacks {star : Bool} {core : ℕ → Bool} {ps : List (ℕ × ℕ)} {l : List Ev}
    (h : Path (callbacks star core ps) l .ret) : ∀ p ∈ ps,
      (core p.1 = true → core p.2 = true → Ev.merge p.1 p.2 ∈ l) ∧
      (star = false → core p.1 = true → core p.2 = false → Ev.into p.2 p.1 ∈ l) ∧
      (star = false → core p.1 = false → core p.2 = true → Ev.into p.1 p.2 ∈ l) := by
  induction ps generalizing l with
  | nil => simp
  | cons p ps ih =>
    obtain ⟨i, j⟩ := p
    -- the operation of the first pair, and the rest
    have key : ∀ (ev : Option Ev), (∃ l', Path (callbacks star core ps) l' .ret ∧
        l = ev.toList ++ l') →
        ((core i = true → core j = true → ev = some (Ev.merge i j)) ∧
         (star = false → core i = true → core j = false → ev = some (Ev.into j i)) ∧
         (star = false → core i = false → core j = true → ev = some (Ev.into i j))) →
        ∀ p ∈ (i, j) :: ps,
      (core p.1 = true → core p.2 = true → Ev.merge p.1 p.2 ∈ l) ∧
      (star = false → core p.1 = true → core p.2 = false → Ev.into p.2 p.1 ∈ l) ∧
      (star = false → core p.1 = false → core p.2 = true → Ev.into p.1 p.2 ∈ l) := by
      rintro ev ⟨l', hl', rfl⟩ ⟨k1, k2, k3⟩ p hp
      rcases List.mem_cons.mp hp with rfl | hp
      · refine ⟨fun a b => ?_, fun s a b => ?_, fun s a b => ?_⟩
        · rw [k1 a b]; simp
        · rw [k2 s a b]; simp
        · rw [k3 s a b]; simp
      · obtain ⟨a, b, c⟩ := ih hl' p hp
        exact ⟨fun x y => List.mem_append_right _ (a x y), fun s x y => List.mem_append_right _ (b s x y),
          fun s x y => List.mem_append_right _ (c s x y)⟩
    unfold callbacks at h
    by_cases c1 : (star && (!core i || !core j)) = true
    · rw [if_pos c1] at h
      refine key none ⟨l, h, rfl⟩ ?_
      rw [Bool.and_eq_true, Bool.or_eq_true] at c1
      obtain ⟨hs, hc⟩ := c1
      refine ⟨fun a b => ?_, fun s => ?_, fun s => ?_⟩
      · rw [a, b] at hc; simp at hc
      · rw [s] at hs; simp at hs
      · rw [s] at hs; simp at hs
    · rw [if_neg c1] at h
      by_cases c2 : core i = true
      · rw [c2] at h
        simp only [Bool.not_true, Bool.false_eq_true, if_false] at h
        by_cases c3 : core j = true
        · rw [if_pos c3] at h
          rcases h.head with ⟨-, h2⟩ | ⟨i', j', k', l', h1, h2, h3⟩ | ⟨i', j', k', l', h1, -, -⟩ |
            ⟨i', j', k', r', l', h1, -, -⟩
          · simp at h2
          · simp only [Prog.merge.injEq] at h1
            obtain ⟨rfl, rfl, rfl⟩ := h1
            refine key (some (.merge i j)) ⟨l', h3, h2⟩ ⟨fun _ _ => rfl, fun _ _ a => ?_, fun _ a => ?_⟩
            · rw [c3] at a; simp at a
            · rw [c2] at a; simp at a
          · simp at h1
          · simp at h1
        · rw [if_neg c3] at h
          rcases h.head with ⟨-, h2⟩ | ⟨i', j', k', l', h1, h2, h3⟩ | ⟨i', j', k', l', h1, h2, h3⟩ |
            ⟨i', j', k', r', l', h1, -, -⟩
          · simp at h2
          · simp at h1
          · simp only [Prog.into.injEq] at h1
            obtain ⟨rfl, rfl, rfl⟩ := h1
            refine key (some (.into j i)) ⟨l', h3, h2⟩ ⟨fun _ a => absurd a c3, fun _ _ _ => rfl, fun _ a => ?_⟩
            rw [c2] at a; simp at a
          · simp at h1
      · have c2' : core i = false := by simpa using c2
        rw [c2'] at h
        simp only [Bool.not_false, if_true] at h
        by_cases c3 : core j = true
        · rw [if_pos c3] at h
          rcases h.head with ⟨-, h2⟩ | ⟨i', j', k', l', h1, h2, h3⟩ | ⟨i', j', k', l', h1, h2, h3⟩ |
            ⟨i', j', k', r', l', h1, -, -⟩
          · simp at h2
          · simp at h1
          · simp only [Prog.into.injEq] at h1
            obtain ⟨rfl, rfl, rfl⟩ := h1
            refine key (some (.into i j)) ⟨l', h3, h2⟩ ⟨fun a => absurd a c2, fun _ a => absurd a c2,
              fun _ _ _ => rfl⟩
          · simp at h1
        · rw [if_neg c3] at h
          refine key none ⟨l, h, rfl⟩ ⟨fun a => absurd a c2, fun _ a => absurd a c2, fun _ _ a => absurd a c3⟩

lemma linv_init (n : ℕ) (core : ℕ → Bool) (near B : ℕ → ℕ → Prop) :
    LInv (CP n core) (Relation.EqvGen near) B id :=
  ⟨fun _ hx => ⟨hx, le_rfl⟩, fun x _ => Relation.EqvGen.refl x, fun _ _ => Or.inl rfl⟩

lemma spec_cp (n : ℕ) (core : ℕ → Bool) (R : ℕ → ℕ → Prop) : Spec n (CP n core) (Relation.EqvGen R) :=
  ⟨Relation.EqvGen.is_equivalence _, fun _ h => h.1⟩

lemma isRet_iff (x : TS) : isRet x = true ↔ x = .idle .ret := by
  cases x with
  | idle p => cases p <;> simp [isRet]
  | _ => simp [isRet]

lemma isFault_iff (x : TS) : isFault x = true ↔ x = .fault := by
  cases x <;> simp [isFault]

lemma finish_eq {n : ℕ} {core : ℕ → Bool} {near : ℕ → ℕ → Bool} {star : Bool} {L : ℕ → ℕ}
    (S : Stage n core near star L) (special : Bool) (schedF : List ℕ) :
    finish n special core L schedF = .running ∨
    finish n special core L schedF = .labels ((List.range n).map (lab n special core L)) := by
  unfold finish
  dsimp only
  have hnf' : ((List.range n).any fun i => decide ((finalize n L schedF).thr i = .fault)) = false := by
    rw [List.any_eq_false]
    intro t ht hf
    rw [decide_eq_true_eq] at hf
    exact finalize_no_fault S.pre schedF t (List.mem_range.mp ht) hf
  rw [hnf']
  simp only [Bool.false_eq_true, if_false]
  by_cases hd : ((List.range n).all fun i => decide ((finalize n L schedF).thr i = .done)) = true
  swap
  · left
    rw [Bool.not_eq_true] at hd
    rw [hd]; rfl
  right
  rw [hd]
  simp only [Bool.not_true, Bool.false_eq_true, if_false]
  have hd' : FDone n (finalize n L schedF) := by
    intro i hi
    have := List.all_eq_true.mp hd i (List.mem_range.mpr hi)
    simpa using this
  obtain ⟨f1, f2⟩ := finalize_spec S.pre schedF hd'
  congr 1
  apply List.map_congr_left
  intro i hi
  unfold markNoise lab
  rw [f2, f1 i (List.mem_range.mp hi)]

lemma finish_terminates {n : ℕ} {core : ℕ → Bool} {near : ℕ → ℕ → Bool} {star : Bool} {L : ℕ → ℕ}
    (S : Stage n core near star L) (special : Bool) (schedF : List ℕ)
    (hF : ∀ i < n, n + 5 ≤ schedF.count i) : finish n special core L schedF ≠ .running := by
  unfold finish
  dsimp only
  have hall' : ((List.range n).all fun i => decide ((finalize n L schedF).thr i = .done)) = true := by
    rw [List.all_eq_true]
    intro i hi
    rw [decide_eq_true_eq]
    exact finalize_wait_free S.pre schedF i (List.mem_range.mp hi) (hF i (List.mem_range.mp hi))
  rw [hall']
  simp only [Bool.not_true, Bool.false_eq_true, if_false]
  split_ifs <;> simp

/-- Entry `i` of the labels. -/
def labelOf (l : List ℤ) (i : ℕ) : ℤ := l.getD i 0

lemma labelOf_map {n : ℕ} (f : ℕ → ℤ) {i : ℕ} (hi : i < n) : labelOf ((List.range n).map f) i = f i := by
  unfold labelOf
  rw [List.getD_eq_getElem _ _ (by simpa using hi)]
  simp

lemma IsDBSCAN.congr {n : ℕ} {near : ℕ → ℕ → Bool} {minPts : ℕ} {f g : ℕ → ℤ} (h : ∀ i < n, g i = f i)
    (H : IsDBSCAN n near minPts f) : IsDBSCAN n near minPts g := by
  obtain ⟨a, b, c, d⟩ := H
  refine ⟨fun i hi hc => by rw [h i hi]; exact a i hi hc,
    fun i hi j hj h1 h2 => by rw [h i hi, h j hj]; exact b i hi j hj h1 h2, ?_,
    fun i hi h1 h2 => by rw [h i hi]; exact d i hi h1 h2⟩
  intro i hi h1 h2
  obtain ⟨j, hj, h3, h4, h5⟩ := c i hi h1 h2
  exact ⟨j, hj, h3, h4, by rw [h i hi, h j hj]; exact h5⟩

lemma IsDBSCANStar.congr {n : ℕ} {near : ℕ → ℕ → Bool} {minPts : ℕ} {f g : ℕ → ℤ} (h : ∀ i < n, g i = f i)
    (H : IsDBSCANStar n near minPts f) : IsDBSCANStar n near minPts g := by
  obtain ⟨a, b, d⟩ := H
  exact ⟨fun i hi hc => by rw [h i hi]; exact a i hi hc,
    fun i hi j hj h1 h2 => by rw [h i hi, h j hj]; exact b i hi j hj h1 h2,
    fun i hi h1 => by rw [h i hi]; exact d i hi h1⟩

lemma Canonical.congr {n : ℕ} {near : ℕ → ℕ → Bool} {minPts : ℕ} {f g : ℕ → ℤ} (h : ∀ i < n, g i = f i)
    (H : Canonical n near minPts f) : Canonical n near minPts g := by
  intro i hi hc
  rw [h i hi]
  exact H i hi hc

/-- The labels are right if the union-find stage is, for both variants. -/
lemma labels_correct {n : ℕ} {core : ℕ → Bool} {near : ℕ → ℕ → Bool} {minPts : ℕ} {star : Bool} {L : ℕ → ℕ}
    (hsymm : ∀ i j, near i j = near j i) (hrefl : ∀ i j, near i j = true → near i i = true)
    (h2 : minPts = 2 → core = fun _ => true)
    (hN : minPts ≠ 2 → ∀ i < n, core i = decide (Core n near minPts i))
    (S : Stage n core near (star && !decide (minPts = 2)) L) :
    let l := (List.range n).map (lab n (decide (minPts = 2)) core L)
    (star = false → IsDBSCAN n near minPts (labelOf l)) ∧
    (star = true → IsDBSCANStar n near minPts (labelOf l)) ∧
    Canonical n near minPts (labelOf l) := by
  intro l
  by_cases e2 : minPts = 2
  · have hc := h2 e2
    subst e2
    rw [hc] at S
    obtain ⟨a, a', b⟩ := special_of_stage hsymm hrefl S
    have hl : ∀ i < n, labelOf l i = lab n true (fun _ => true) L i := by
      intro i hi
      rw [labelOf_map _ hi, hc]; rfl
    exact ⟨fun _ => a.congr hl, fun _ => a'.congr hl, b.congr hl⟩
  · have hc := hN e2
    have hl : ∀ i < n, labelOf l i = lab n false core L i := by
      intro i hi
      rw [labelOf_map _ hi, decide_eq_false e2]
    refine ⟨fun hs => ?_, fun hs => ?_, (normal_common hsymm S hc).2.2.congr hl⟩
    · exact (isDBSCAN_of_stage hsymm S hc (by rw [hs]; rfl)).congr hl
    · exact (isDBSCANStar_of_stage hsymm S hc (by rw [hs, decide_eq_false e2]; rfl)).congr hl

section

variable {V : Type} {w : ℕ} [SemilatticeSup V] [OrderBot V]
variable (D : In V w) (hD : D.Valid) (schedB : List ℕ) (hB : D.tree.Finished schedB) (fuel : ℕ)
  (hfuel : 2 * D.n ≤ fuel)

include hD in
lemma chunk_mem {c t : ℕ} (ht : t ∈ D.chunks.getD c []) : t < D.n := by
  by_cases hc : c < D.chunks.length
  · rw [List.getD_eq_getElem _ _ hc] at ht
    have : t ∈ D.chunks.flatten := List.mem_flatten.mpr ⟨_, List.getElem_mem hc, ht⟩
    exact List.mem_range.mp (hD.chunks.subset this)
  · rw [List.getD_eq_default _ _ (by omega)] at ht
    simp at ht

include hD in
lemma mem_chunk {t : ℕ} (ht : t < D.n) : ∃ c < D.chunks.length, t ∈ D.chunks.getD c [] := by
  have := hD.chunks.symm.subset (List.mem_range.mpr ht)
  obtain ⟨l, hl, htl⟩ := List.mem_flatten.mp this
  obtain ⟨c, hc, rfl⟩ := List.getElem_of_mem hl
  exact ⟨c, hc, by rw [List.getD_eq_getElem _ _ hc]; exact htl⟩

include hD hB hfuel

lemma prog_safe (c : ℕ) :
    Safe D.n (CP D.n (D.isCore (D.tree.build schedB) fuel))
      (Relation.EqvGen (Link D.n (D.isCore (D.tree.build schedB) fuel) D.near))
      (fun b j => (D.star && !decide (D.minPts = 2)) = false ∧ D.near b j = true)
      (D.prog (D.tree.build schedB) fuel c) := by
  refine safe_callbacks hD.symm _ _ _ ?_ _ (fun _ _ h1 h2 => ⟨h1, h2⟩)
  intro p hp
  obtain ⟨t, ht, hpt⟩ := List.mem_flatMap.mp hp
  exact (half_pairs_spec D hD schedB hB fuel hfuel).2.1 t (chunk_mem D hD ht) p hpt

/-- The completed operations give what the finalisation needs. -/
lemma stage_of_facts {L : ℕ → ℕ}
    (hI : LInv (CP D.n (D.isCore (D.tree.build schedB) fuel))
      (Relation.EqvGen (Link D.n (D.isCore (D.tree.build schedB) fuel) D.near))
      (fun b j => (D.star && !decide (D.minPts = 2)) = false ∧ D.near b j = true) L)
    (hF : ∀ t < D.chunks.length, ∃ l, Path (D.prog (D.tree.build schedB) fuel t) l .ret ∧
      ∀ e ∈ l, Fact (CP D.n (D.isCore (D.tree.build schedB) fuel)) L e) :
    Stage D.n (D.isCore (D.tree.build schedB) fuel) D.near (D.star && !decide (D.minPts = 2)) L := by
  -- the operations for a pair of points
  have hop : ∀ i < D.n, ∀ j < D.n, i ≠ j → D.near i j = true → ∃ l : List Ev,
      (∀ e ∈ l, Fact (CP D.n (D.isCore (D.tree.build schedB) fuel))
        L e) ∧
      ∃ p : ℕ × ℕ, (p = (i, j) ∨ p = (j, i)) ∧
      (D.isCore (D.tree.build schedB) fuel p.1 = true → D.isCore (D.tree.build schedB) fuel p.2 = true →
        Ev.merge p.1 p.2 ∈ l) ∧
      ((D.star && !decide (D.minPts = 2)) = false → D.isCore (D.tree.build schedB) fuel p.1 = true →
        D.isCore (D.tree.build schedB) fuel p.2 = false → Ev.into p.2 p.1 ∈ l) ∧
      ((D.star && !decide (D.minPts = 2)) = false → D.isCore (D.tree.build schedB) fuel p.1 = false →
        D.isCore (D.tree.build schedB) fuel p.2 = true → Ev.into p.1 p.2 ∈ l) := by
    intro i hi j hj hne hn
    obtain ⟨t, ht, hp⟩ := (half_pairs_spec D hD schedB hB fuel hfuel).2.2 i hi j hj hne hn
    obtain ⟨c, hc, htc⟩ := mem_chunk D hD ht
    obtain ⟨l, hl, hfl⟩ := hF c hc
    rcases hp with hp | hp
    · exact ⟨l, hfl, (i, j), Or.inl rfl, path_callbacks hl (i, j) (List.mem_flatMap.mpr ⟨t, htc, hp⟩)⟩
    · exact ⟨l, hfl, (j, i), Or.inr rfl, path_callbacks hl (j, i) (List.mem_flatMap.mpr ⟨t, htc, hp⟩)⟩
  refine ⟨hI, ?_, ?_⟩
  · rintro i j ⟨⟨hi, ci⟩, ⟨hj, cj⟩, hn⟩
    by_cases e : i = j
    · rw [e]
    obtain ⟨l, hfl, p, hp, h1, -, -⟩ := hop i hi j hj e hn
    rcases hp with rfl | rfl
    · exact hfl _ (h1 ci cj)
    · exact (hfl _ (h1 cj ci)).symm
  · intro hs b j hb cb ⟨hj, cj⟩ hn
    have e : b ≠ j := by rintro rfl; rw [cb] at cj; simp at cj
    obtain ⟨l, hfl, p, hp, -, h2, h3⟩ := hop b hb j hj e hn
    rcases hp with rfl | rfl
    · exact hfl _ (h3 hs cb cj)
    · exact hfl _ (h2 hs cj cb)

lemma stage_of_complete (schedU : List ℕ)
    (hU : Complete ⟨D.n, D.chunks.length, D.serial⟩
      (UF.run ⟨D.n, D.chunks.length, D.serial⟩ (D.prog (D.tree.build schedB) fuel) id schedU)) :
    Stage D.n (D.isCore (D.tree.build schedB) fuel) D.near (D.star && !decide (D.minPts = 2))
      (UF.run ⟨D.n, D.chunks.length, D.serial⟩ (D.prog (D.tree.build schedB) fuel) id schedU).L := by
  obtain ⟨hI, hF⟩ := complete_spec (P := ⟨D.n, D.chunks.length, D.serial⟩) (spec_cp D.n _ _) hD.serial
    (linv_init _ _ _ _) (fun t _ => prog_safe D hD schedB hB fuel hfuel t) schedU hU
  exact stage_of_facts D hD schedB hB fuel hfuel hI hF

/-- The outcome, when all threads of all kernels have finished, is the labels of `lab`. -/
lemma outcome_eq (schedU schedF : List ℕ) :
    D.fdbscan fuel schedB schedU schedF = .running ∨
    (∃ L, Stage D.n (D.isCore (D.tree.build schedB) fuel) D.near (D.star && !decide (D.minPts = 2)) L ∧
      D.fdbscan fuel schedB schedU schedF = .labels ((List.range D.n).map
        (lab D.n (decide (D.minPts = 2)) (D.isCore (D.tree.build schedB) fuel) L))) := by
  unfold In.fdbscan
  dsimp only
  have hm := hD.minPts
  rw [if_neg (by omega), traversals_ok D hD schedB hB fuel hfuel]
  simp only [Bool.not_true, Bool.false_eq_true, if_false]
  have hnf : ((List.range D.chunks.length).any fun t => isFault
      ((UF.run ⟨D.n, D.chunks.length, D.serial⟩ (D.prog (D.tree.build schedB) fuel) id schedU).thr t)) = false := by
    rw [List.any_eq_false]
    intro t ht hf
    rw [isFault_iff] at hf
    exact no_fault (P := ⟨D.n, D.chunks.length, D.serial⟩) (spec_cp D.n _ _) hD.serial
      (linv_init _ _ _ _) (fun t _ => prog_safe D hD schedB hB fuel hfuel t) schedU t
      (List.mem_range.mp ht) hf
  rw [hnf]
  simp only [Bool.false_eq_true, if_false]
  by_cases hc : ((List.range D.chunks.length).all fun t => isRet
      ((UF.run ⟨D.n, D.chunks.length, D.serial⟩ (D.prog (D.tree.build schedB) fuel) id schedU).thr t)) = true
  swap
  · left
    rw [Bool.not_eq_true] at hc
    rw [hc]; rfl
  rw [hc]
  simp only [Bool.not_true, Bool.false_eq_true, if_false]
  have hU : Complete ⟨D.n, D.chunks.length, D.serial⟩
      (UF.run ⟨D.n, D.chunks.length, D.serial⟩ (D.prog (D.tree.build schedB) fuel) id schedU) := by
    intro t ht
    exact (isRet_iff _).mp (List.all_eq_true.mp hc t (List.mem_range.mpr ht))
  have S := stage_of_complete D hD schedB hB fuel hfuel schedU hU
  rcases finish_eq S (decide (D.minPts = 2)) schedF with h | h
  · exact Or.inl h
  · exact Or.inr ⟨_, S, h⟩

/-! ## Property theorems -/

lemma isCore_two (h2 : D.minPts = 2) : D.isCore (D.tree.build schedB) fuel = fun _ => true := by
  funext i; rw [isCore_spec D hD schedB hB fuel hfuel, if_pos h2]

lemma isCore_many (h2 : D.minPts ≠ 2) (i : ℕ) :
    D.isCore (D.tree.build schedB) fuel i = decide (Core D.n D.near D.minPts i) := by
  rw [isCore_spec D hD schedB hB fuel hfuel, if_neg h2]

/-- **C19.** For all points, radii, `core_min_size ≥ 2`, under all schedules of the tree
construction, of the clustering kernel and of the finalisation: when the kernels have finished,
`dbscan` returns a DBSCAN clustering of the points; there is no out-of-bounds access. -/
theorem fdbscan_correct (hstar : D.star = false) (schedU schedF : List ℕ) :
    D.fdbscan fuel schedB schedU schedF = .running ∨
    ∃ l, D.fdbscan fuel schedB schedU schedF = .labels l ∧ l.length = D.n ∧
      IsDBSCAN D.n D.near D.minPts (labelOf l) ∧ Canonical D.n D.near D.minPts (labelOf l) := by
  rcases outcome_eq D hD schedB hB fuel hfuel schedU schedF with h | ⟨L, S, h⟩
  · exact Or.inl h
  right
  obtain ⟨h1, h2, h3⟩ := labels_correct hD.symm hD.refl (isCore_two D hD schedB hB fuel hfuel)
    (fun e i _ => isCore_many D hD schedB hB fuel hfuel e i) S
  exact ⟨_, h, by simp, h1 hstar, h3⟩

/-- **C20.** The same for DBSCAN*: every point that is not a core point is noise. -/
theorem fdbscan_star_correct (hstar : D.star = true) (schedU schedF : List ℕ) :
    D.fdbscan fuel schedB schedU schedF = .running ∨
    ∃ l, D.fdbscan fuel schedB schedU schedF = .labels l ∧ l.length = D.n ∧
      IsDBSCANStar D.n D.near D.minPts (labelOf l) ∧ Canonical D.n D.near D.minPts (labelOf l) := by
  rcases outcome_eq D hD schedB hB fuel hfuel schedU schedF with h | ⟨L, S, h⟩
  · exact Or.inl h
  right
  obtain ⟨h1, h2, h3⟩ := labels_correct hD.symm hD.refl (isCore_two D hD schedB hB fuel hfuel)
    (fun e i _ => isCore_many D hD schedB hB fuel hfuel e i) S
  exact ⟨_, h, by simp, h2 hstar, h3⟩

/-- **C19, C20.** `dbscan` finishes: it is enough that every thread gets a bounded number of
steps, whatever the others do. -/
theorem fdbscan_terminates (schedU schedF : List ℕ)
    (hU : ∀ c < D.chunks.length,
      cost D.n (D.prog (D.tree.build schedB) fuel c) ≤ schedU.count c)
    (hF : ∀ i < D.n, D.n + 5 ≤ schedF.count i) :
    D.fdbscan fuel schedB schedU schedF ≠ .running := by
  unfold In.fdbscan
  dsimp only
  have hm := hD.minPts
  rw [if_neg (by omega), traversals_ok D hD schedB hB fuel hfuel]
  simp only [Bool.not_true, Bool.false_eq_true, if_false]
  have hC : Complete ⟨D.n, D.chunks.length, D.serial⟩
      (UF.run ⟨D.n, D.chunks.length, D.serial⟩ (D.prog (D.tree.build schedB) fuel) id schedU) := by
    intro t ht
    exact wait_free (P := ⟨D.n, D.chunks.length, D.serial⟩) (spec_cp D.n _ _) hD.serial
      (linv_init _ _ _ _) (fun t _ => prog_safe D hD schedB hB fuel hfuel t) schedU t ht (hU t ht)
  have S := stage_of_complete D hD schedB hB fuel hfuel schedU hC
  have hall : ((List.range D.chunks.length).all fun t => isRet
      ((UF.run ⟨D.n, D.chunks.length, D.serial⟩ (D.prog (D.tree.build schedB) fuel) id schedU).thr t)) = true := by
    rw [List.all_eq_true]
    intro t ht
    exact (isRet_iff _).mpr (hC t (List.mem_range.mp ht))
  rw [hall]
  simp only [Bool.not_true, Bool.false_eq_true, if_false]
  split_ifs
  · simp
  · exact finish_terminates S _ schedF hF

end

/-- The labels of core points do not depend on any schedule. -/
theorem canonical_unique {n : ℕ} {near : ℕ → ℕ → Bool} {minPts : ℕ} {f g : ℕ → ℤ}
    (hf : Canonical n near minPts f) (hg : Canonical n near minPts g) (i : ℕ) (hi : i < n)
    (hc : Core n near minPts i) : f i = g i := by
  obtain ⟨r, h1, h2, h3, h4, h5⟩ := hf i hi hc
  obtain ⟨r', h1', h2', h3', h4', h5'⟩ := hg i hi hc
  have : r = r' := le_antisymm (h5 r' h2' h3' h4') (h5' r h2 h3 h4)
  rw [h1, h1', this]

/-- `dbscan` throws exactly if `core_min_size < 2`. -/
theorem fdbscan_throws {V : Type} {w : ℕ} [SemilatticeSup V] [OrderBot V] (D : In V w)
    (fuel : ℕ) (schedB schedU schedF : List ℕ) : D.fdbscan fuel schedB schedU schedF = .throw ↔ D.minPts < 2 := by
  unfold In.fdbscan finish
  dsimp only
  split_ifs <;> simp_all

/-! ## A concrete case -/

/-- Seven points on a line, radius 1, at least three points; two threads. -/
def exampleIn (star : Bool) : In Bool 64 where
  n := 7
  near := fun i j => decide ((([0, 1, 2, 10, 11, 12, 30] : List ℤ).getD i 0
    - ([0, 1, 2, 10, 11, 12, 30] : List ℤ).getD j 0).natAbs ≤ 1)
  pv := fun _ v => v
  vol := fun _ => true
  code := fun i => BitVec.ofNat 64 (i / 2)
  perm := id
  minPts := 3
  star := star
  chunks := [[3, 1, 5], [0, 2, 4, 6]]
  serial := false

theorem exampleIn_valid (star : Bool) : (exampleIn star).Valid where
  tree := by
    cases star <;> exact ⟨by decide, by decide +kernel, ⟨by decide, by
      unfold Construction.SortedCodes
      intro i hi
      have : i < 6 := by have : i + 1 < 7 := hi; omega
      interval_cases i <;> decide⟩, by decide +kernel⟩
  symm := by
    intro i j
    simp only [exampleIn]
    rw [decide_eq_decide, ← Int.natAbs_neg, neg_sub]
  refl := by intro i j _; simp [exampleIn]
  mono := by 
    intro i a v h _
    have h' : true ≤ v := h
    cases v
    · exact absurd h' (by decide)
    · rfl
  minPts := by simp [exampleIn]
  chunks := by cases star <;> decide
  serial := by simp [exampleIn]

/-- The hypotheses are met, and the result has two clusters with a border point each side and
one noise point; DBSCAN* keeps the two core points only. -/
example : (exampleIn false).tree.Finished ((List.replicate 20 [0, 1, 2, 3, 4, 5, 6]).flatten) ∧
    (exampleIn false).fdbscan 14 ((List.replicate 20 [0, 1, 2, 3, 4, 5, 6]).flatten)
      ((List.replicate 40 [0, 1]).flatten) ((List.replicate 12 [0, 1, 2, 3, 4, 5, 6]).flatten)
      = .labels [1, 1, 1, 4, 4, 4, -1] ∧
    (exampleIn true).fdbscan 14 ((List.replicate 20 [0, 1, 2, 3, 4, 5, 6]).flatten)
      ((List.replicate 40 [0, 1]).flatten) ((List.replicate 12 [0, 1, 2, 3, 4, 5, 6]).flatten)
      = .labels [-1, 1, -1, -1, 4, -1, -1] := by
  refine ⟨?_, by decide +kernel, by decide +kernel⟩
  intro _ t ht
  have : t ≤ 6 := ht
  have hall : ∀ t ≤ 6, TSdone ((Construction.run (exampleIn false).tree.params
      ((List.replicate 20 [0, 1, 2, 3, 4, 5, 6]).flatten)).thr t) = true := by
    intro t ht
    interval_cases t <;> decide +kernel
  have := hall t this
  revert this
  cases (Construction.run (exampleIn false).tree.params
      ((List.replicate 20 [0, 1, 2, 3, 4, 5, 6]).flatten)).thr t <;> simp [TSdone]

end ArborX.Dbscan
