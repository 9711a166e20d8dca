import Verif.Boruvka.Iter
import Verif.Mst.Spec
import Mathlib.Order.Fin.Basic

/-!
# Property theorems: minimum spanning tree (C22)
-/

namespace ArborX.Boruvka

open Mst (DirectedEdge WeightedEdge IsMst)
open Graph (Conn Connects SpanningTree)
open BVH (Input build_size)

variable {V W : Type} [LinearOrder W] [BoundedOrder W] [SemilatticeSup V] [OrderBot V] {w : ℕ}
variable {P : Points V W}

/-! ## Lemmas: the loop and the original indices -/

omit [SemilatticeSup V] [OrderBot V] in
lemma init_inv {value : ℕ → ℕ} (n : ℕ) :
    IterInv P value n ⟨fun i => (i : ℤ), fun _ => ⊥, []⟩ ∧ numReps n (fun i => (i : ℤ)) = n := by
  have hc : ∀ i, comp (fun i => (i : ℤ)) i = i := fun i => by simp [comp]
  have hnum : numReps n (fun i => (i : ℤ)) = n := by
    unfold numReps
    rw [List.filter_eq_self.mpr (by intro a _; simp [hc]), List.length_range]
  refine ⟨⟨⟨fun i _ => Int.natCast_nonneg i, fun i hi => by rw [hc]; exact hi, fun i _ => by rw [hc]⟩,
    by simpa using hnum, ?_, by simp, by simp, fun _ _ _ _ _ => bot_le⟩, hnum⟩
  intro u _ v _
  dsimp only
  rw [Nat.cast_inj]
  exact ⟨fun c => Conn.nil c, fun e => e ▸ Conn.refl _ _⟩

lemma iterate_spec (I : Input ℕ V w) (hI : I.Valid) (hn : 2 ≤ I.n) (had : P.Admissible I.vol)
    (hset : Setting P (fun i => I.values (I.perm i)) I.n) (hcap : Nearest.StackFits I P.cap)
    (schedB : List ℕ) (hf : I.Finished schedB) {ordP : List ℕ} (hoP : ordP.Perm (List.range (2 * I.n - 2)))
    {fuel : ℕ} (hfuel : 2 * I.n ≤ fuel) {par : ℕ → Option ℕ}
    (hpar : Labels.findParents (I.build schedB) ordP = some par) {sc : ℕ → Sched} (hsc : ∀ it, (sc it).Valid I.n) :
    ∀ (k it : ℕ) (s : State W), IterInv P (fun i => I.values (I.perm i)) I.n s → 2 ≤ numReps I.n s.lab →
      (iterate P (I.build schedB) par fuel sc k it s = .running ∧
        ¬ ((∀ it, (sc it).Fair I.n) ∧ numReps I.n s.lab ≤ 2 ^ k)) ∨
      (¬ Linked P (fun i => I.values (I.perm i)) I.n ∧
        (I.n < 2 ^ 31 → iterate P (I.build schedB) par fuel sc k it s = .fault)) ∨
      ∃ s', iterate P (I.build schedB) par fuel sc k it s = .ok s'.edges ∧
        IterInv P (fun i => I.values (I.perm i)) I.n s' ∧ numReps I.n s'.lab ≤ 1 := by
  intro k
  induction k with
  | zero =>
    intro it s h h2
    refine .inl ⟨rfl, fun hh => ?_⟩
    have := hh.2
    rw [pow_zero] at this
    omega
  | succ k ih =>
    intro it s h h2
    unfold iterate
    rcases iteration_spec I hI hn had hset hcap schedB hf hoP hfuel hpar (hsc it) h h2 with ⟨e, hnf⟩ | ⟨hno, e⟩ | ⟨s', e, h', hlt⟩
    · rw [e]
      exact .inl ⟨rfl, fun hh => hnf (hh.1 it)⟩
    · exact .inr (.inl ⟨hno, fun hlt => by rw [e hlt]; rfl⟩)
    · rw [e, build_size]
      simp only [Outcome.bind]
      have hcnt := h'.count
      split_ifs with hmore
      · rcases ih (it + 1) s' h' (by omega) with ⟨e', hnf⟩ | hh
        · exact .inl ⟨e', fun hh => hnf ⟨hh.1, by have := hh.2; rw [pow_succ] at this; omega⟩⟩
        · exact .inr hh
      · exact .inr (.inr ⟨s', rfl, h', by omega⟩)

omit [SemilatticeSup V] [OrderBot V] in
/-- A spanning tree of edges of finite weight connects the leaves. -/
lemma IterInv.linked {value : ℕ → ℕ} {n : ℕ} (hset : Setting P value n) {s : State W} (h : IterInv P value n s)
    (ht : SpanningTree n (pairs s.edges)) : Linked P value n := by
  rintro S ⟨a, ha, hSa⟩ ⟨b, hb, hSb⟩
  by_contra hno
  push Not at hno
  have hR : Equivalence (fun x y => S x ↔ S y) := ⟨fun _ => Iff.rfl, fun h => h.symm, fun h h' => h.trans h'⟩
  refine hSb ((Conn.min hR ?_ (ht.connects a ha b hb)).mp hSa)
  intro e he
  obtain ⟨f, hf, rfl⟩ := List.mem_map.mp he
  obtain ⟨f1, f2, -, f4, -⟩ := h.edge f hf
  have hfin := h.finite f hf
  rw [f4] at hfin
  dsimp only
  constructor
  · intro h1
    by_contra h2
    exact absurd (hno _ f1 _ f2 h1 h2) (not_le.mpr hfin)
  · intro h1
    by_contra h2
    rw [hset.symm] at hfin
    exact absurd (hno _ f2 _ f1 h1 h2) (not_le.mpr hfin)

omit [SemilatticeSup V] [OrderBot V] in
/-- With one component left, the edges are a spanning tree. -/
lemma IterInv.tree {value : ℕ → ℕ} {n : ℕ} (hn : 0 < n) {s : State W} (h : IterInv P value n s)
    (h1 : numReps n s.lab ≤ 1) : SpanningTree n (pairs s.edges) := by
  have hl := h.lbl
  have mem : ∀ i < n, comp s.lab i ∈ (List.range n).filter (fun c => comp s.lab c = c) := by
    intro i hi
    rw [List.mem_filter, List.mem_range]
    exact ⟨hl.lt i hi, by simp [hl.comp_idem hi]⟩
  have hpos : 0 < numReps n s.lab := List.length_pos_of_mem (mem 0 hn)
  have hcount := h.count
  refine ⟨?_, ?_, ?_⟩
  · intro e he
    obtain ⟨f, hf, rfl⟩ := List.mem_map.mp he
    exact ⟨(h.edge f hf).1, (h.edge f hf).2.1⟩
  · unfold pairs; rw [List.length_map]; omega
  · intro u hu v hv
    rw [h.conn u hu v hv, ← hl.comp_eq hu hv]
    have mu := mem u hu
    have mv := mem v hv
    unfold numReps at h1 hpos
    generalize (List.range n).filter (fun c => comp s.lab c = c) = L at mu mv h1 hpos
    match L, h1, hpos with
    | [x], _, _ =>
      rw [List.mem_singleton] at mu mv
      rw [mu, mv]

omit [LinearOrder W] [BoundedOrder W] [SemilatticeSup V] [OrderBot V] in
lemma finalizeEdges_eq {mem : Mem ℕ V} {value : ℕ → ℕ} {n : ℕ}
    (hleaf : ∀ i < n, ∃ lf, mem.leaf i = some lf ∧ lf.value = value i) :
    ∀ es : List (WeightedEdge W), (∀ e ∈ es, e.source < n ∧ e.target < n) →
      finalizeEdges mem es = some (es.map (fun e => ⟨value e.source, value e.target, e.weight⟩)) := by
  intro es
  induction es with
  | nil => intro _; rfl
  | cons e es ih =>
    intro h
    obtain ⟨a, ha, ha'⟩ := hleaf _ (h e List.mem_cons_self).1
    obtain ⟨b, hb, hb'⟩ := hleaf _ (h e List.mem_cons_self).2
    simp only [finalizeEdges]
    rw [ha, hb, ih (fun e he => h e (List.mem_cons_of_mem _ he))]
    simp only [List.map_cons, ha', hb']

omit [LinearOrder W] [BoundedOrder W] [SemilatticeSup V] [OrderBot V] in
/-- Positions of the leaves, by original index. -/
lemma exists_inverse (I : Input ℕ V w) (hI : I.Valid) (hval : ∀ p < I.n, I.values p = p) :
    ∃ inv : ℕ → ℕ, (∀ p < I.n, inv p < I.n ∧ I.values (I.perm (inv p)) = p) ∧
      (∀ i < I.n, I.values (I.perm i) < I.n ∧ inv (I.values (I.perm i)) = i) := by
  classical
  have hp := hI.sorted.perm
  have surj : ∀ p < I.n, ∃ i < I.n, I.perm i = p := by
    intro p hp'
    obtain ⟨i, hi, e⟩ := List.mem_map.mp (hp.symm.subset (List.mem_range.mpr hp'))
    exact ⟨i, List.mem_range.mp hi, e⟩
  have inj : ∀ i < I.n, ∀ j < I.n, I.perm i = I.perm j → i = j := by
    have hnd : ((List.range I.n).map I.perm).Nodup := hp.nodup_iff.mpr List.nodup_range
    intro i hi j hj e
    exact List.inj_on_of_nodup_map hnd (List.mem_range.mpr hi) (List.mem_range.mpr hj) e
  refine ⟨fun p => if h : ∃ i < I.n, I.perm i = p then h.choose else 0, fun p hp' => ?_, fun i hi => ?_⟩
  · have h := surj p hp'
    dsimp only
    rw [dif_pos h]
    obtain ⟨h1, h2⟩ := h.choose_spec
    exact ⟨h1, by rw [h2, hval p hp']⟩
  · have hlt := hI.perm_lt hi
    rw [hval _ hlt]
    have h : ∃ i' < I.n, I.perm i' = I.perm i := ⟨i, hi, rfl⟩
    refine ⟨hlt, ?_⟩
    dsimp only
    rw [dif_pos h]
    obtain ⟨h1, h2⟩ := h.choose_spec
    exact inj _ h1 _ hi h2

lemma conn_map {E : List (ℕ × ℕ)} (f : ℕ → ℕ) {u v : ℕ} (c : Conn E u v) :
    Conn (E.map (fun e => (f e.1, f e.2))) (f u) (f v) :=
  Conn.min (R := fun a b => Conn (E.map (fun e => (f e.1, f e.2))) (f a) (f b))
    ⟨fun _ => Conn.refl _ _, Conn.symm, Conn.trans⟩
    (fun e he => Conn.edge (List.mem_map.mpr ⟨e, he, rfl⟩)) c

omit [SemilatticeSup V] [OrderBot V] in
/-- The result in terms of the original indices. -/
lemma IterInv.isMst (I : Input ℕ V w) (hI : I.Valid) (hn : 0 < I.n) (hval : ∀ p < I.n, I.values p = p)
    (hset : Setting P (fun i => I.values (I.perm i)) I.n) {s : State W}
    (h : IterInv P (fun i => I.values (I.perm i)) I.n s) (h1 : numReps I.n s.lab ≤ 1) :
    IsMst I.n P.weight (s.edges.map
      (fun e => ⟨I.values (I.perm e.source), I.values (I.perm e.target), e.weight⟩)) := by
  obtain ⟨inv, hi1, hi2⟩ := exists_inverse I hI hval
  set value := fun i => I.values (I.perm i) with hv
  have ht := h.tree hn h1
  have epairs : (s.edges.map (fun e => (⟨value e.source, value e.target, e.weight⟩ : WeightedEdge W))).map
      (fun e => (e.source, e.target)) = (pairs s.edges).map (fun e => (value e.1, value e.2)) := by
    unfold pairs
    rw [List.map_map, List.map_map]
    rfl
  refine ⟨?_, ?_, ?_⟩
  · intro e he
    obtain ⟨f, hf, rfl⟩ := List.mem_map.mp he
    obtain ⟨f1, f2, f3, f4, -⟩ := h.edge f hf
    refine ⟨fun e => f3 ?_, f4⟩
    dsimp only at e
    rw [← (hi2 _ f1).2, ← (hi2 _ f2).2]
    exact congrArg inv e
  · change SpanningTree I.n ((s.edges.map (fun e => (⟨value e.source, value e.target, e.weight⟩ : WeightedEdge W))).map
      (fun e => (e.source, e.target)))
    rw [epairs]
    refine ⟨?_, by rw [List.length_map]; exact ht.length, ?_⟩
    · intro e he
      obtain ⟨f, hf, rfl⟩ := List.mem_map.mp he
      exact ⟨(hi2 _ (ht.range f hf).1).1, (hi2 _ (ht.range f hf).2).1⟩
    · intro u hu v hv
      have := conn_map value (ht.connects (inv u) (hi1 u hu).1 (inv v) (hi1 v hv).1)
      rw [show value (inv u) = u from (hi1 u hu).2, show value (inv v) = v from (hi1 v hv).2] at this
      exact this
  · intro T hT hc K _ _ _ val hm h0
    have hT' : ∀ e ∈ T.map (fun e => (inv e.1, inv e.2)), e.1 < I.n ∧ e.2 < I.n := by
      intro e he
      obtain ⟨f, hf, rfl⟩ := List.mem_map.mp he
      exact ⟨(hi1 _ (hT f hf).1).1, (hi1 _ (hT f hf).2).1⟩
    have hc' : Connects I.n (T.map (fun e => (inv e.1, inv e.2))) := by
      intro u hu v hv
      have := conn_map inv (hc (value u) (hi2 u hu).1 (value v) (hi2 v hv).1)
      rw [show inv (value u) = u from (hi2 u hu).2, show inv (value v) = v from (hi2 v hv).2] at this
      exact this
    have hopt := Graph.light_tree_optimal (ekey_edgeKey (P := P) (value := value) hset.symm)
      (fun e => P.weight (value e.1) (value e.2)) (fun e f => ekey_weight) ht
      (by
        intro e he
        obtain ⟨f, hf, rfl⟩ := List.mem_map.mp he
        exact (h.edge f hf).2.2.2.2) hT' hc' val hm h0
    have e1 : (pairs s.edges).map (fun e => val (P.weight (value e.1) (value e.2)))
        = (s.edges.map (fun e => (⟨value e.source, value e.target, e.weight⟩ : WeightedEdge W))).map
          (fun e => val e.weight) := by
      unfold pairs
      rw [List.map_map, List.map_map]
      apply List.map_congr_left
      intro e he
      simp only [Function.comp]
      rw [(h.edge e he).2.2.2.1]
    have e2 : (T.map (fun e => (inv e.1, inv e.2))).map (fun e => val (P.weight (value e.1) (value e.2)))
        = T.map (fun e => val (P.weight e.1 e.2)) := by
      rw [List.map_map]
      apply List.map_congr_left
      intro e he
      simp only [Function.comp]
      rw [show value (inv e.1) = e.1 from (hi1 _ (hT e he).1).2, show value (inv e.2) = e.2 from (hi1 _ (hT e he).2).2]
    rw [e1, e2] at hopt
    exact hopt

omit [SemilatticeSup V] [OrderBot V] in
lemma linked_of (P : Points V W) (I : Input ℕ V w) (hI : I.Valid)
    (hval : ∀ p < I.n, I.values p = p)
    (hfin : ∀ p < I.n, ∀ q < I.n, p ≠ q → P.weight p q < ⊤) : Linked P (fun i => I.values (I.perm i)) I.n := by
  rintro S ⟨a, ha, hSa⟩ ⟨b, hb, hSb⟩
  refine ⟨a, ha, b, hb, hSa, hSb, ?_⟩
  obtain ⟨inv, -, h2⟩ := exists_inverse I hI hval
  exact hfin _ (h2 a ha).1 _ (h2 b hb).1
    (fun e => hSb (by rw [show b = a by rw [← (h2 a ha).2, ← (h2 b hb).2]; exact (congrArg inv e).symm]; exact hSa))

/-- The result of the constructor is what the invariant of the loop says about the last iteration. -/
lemma mst_run_linked (P : Points V W) (I : Input ℕ V w) (hI : I.Valid) (hn : 2 ≤ I.n) (hbig : I.n ≤ 2 ^ 31)
    (hbox : ∀ p q v, I.vol q ≤ v → P.dv p v ≤ P.dp p q)
    (hmetric : ∀ p q, P.dp p q ≤ P.weight p q)
    (hsymm : ∀ p q, P.weight p q = P.weight q p)
    (hcap : Nearest.StackFits I P.cap)
    (schedB : List ℕ) (hf : I.Finished schedB)
    (ordP : List ℕ) (hoP : ordP.Perm (List.range (2 * I.n - 2)))
    (sc : ℕ → Sched) (hsc : ∀ it, (sc it).Valid I.n) (fuel : ℕ) (hfuel : 2 * I.n ≤ fuel) (iters : ℕ) :
    (mst P I schedB ordP sc fuel iters = .running ∧ ¬ ((∀ it, (sc it).Fair I.n) ∧ I.n ≤ 2 ^ iters)) ∨
    (¬ Linked P (fun i => I.values (I.perm i)) I.n ∧ (I.n < 2 ^ 31 → mst P I schedB ordP sc fuel iters = .fault)) ∨
    ∃ s : State W, mst P I schedB ordP sc fuel iters = .ok (s.edges.map
        (fun e => ⟨I.values (I.perm e.source), I.values (I.perm e.target), e.weight⟩)) ∧
      IterInv P (fun i => I.values (I.perm i)) I.n s ∧ numReps I.n s.lab ≤ 1 := by
  have hset : Setting P (fun i => I.values (I.perm i)) I.n := ⟨hbig, hsymm⟩
  obtain ⟨par, hpar, -⟩ := Labels.findParents_correct I hI hn schedB hf ordP hoP
  obtain ⟨T, hT⟩ := BVH.build_wellFormed I hI hn
  have hwf := hT schedB hf
  have hsz := build_size I schedB
  have hleaf : ∀ i < I.n, ∃ lf, (I.build schedB).leaf i = some lf ∧ lf.value = I.values (I.perm i) := by
    intro i hi
    obtain ⟨r, hr⟩ := Nearest.layout_leaf T _ _ hwf.2 i (by rw [hwf.1, hsz]; exact List.mem_range.mpr hi)
    exact ⟨_, hr, rfl⟩
  obtain ⟨h0, hnum⟩ := init_inv (P := P) (value := fun i => I.values (I.perm i)) I.n
  unfold mst
  rw [if_neg (by omega)]
  dsimp only
  rw [hpar]
  dsimp only
  rcases iterate_spec I hI hn ⟨hbox, hmetric⟩ hset hcap schedB hf hoP hfuel hpar hsc iters 0 _ h0
    (by rw [hnum]; exact hn) with ⟨e, hnf⟩ | ⟨hno, e⟩ | ⟨s', e, h', h1⟩
  · rw [e]
    exact .inl ⟨rfl, fun hh => hnf ⟨hh.1, by dsimp only; rw [hnum]; exact hh.2⟩⟩
  · exact .inr (.inl ⟨hno, fun hlt => by rw [e hlt]; rfl⟩)
  · rw [e]
    simp only [Outcome.bind]
    rw [finalizeEdges_eq hleaf _ (fun e he => ⟨(h'.edge e he).1, (h'.edge e he).2.1⟩)]
    exact .inr (.inr ⟨s', rfl, h', h1⟩)

/-- The same if all weights are finite. -/
lemma mst_run (P : Points V W) (I : Input ℕ V w) (hI : I.Valid) (hn : 2 ≤ I.n) (hbig : I.n ≤ 2 ^ 31)
    (hval : ∀ p < I.n, I.values p = p)
    (hbox : ∀ p q v, I.vol q ≤ v → P.dv p v ≤ P.dp p q)
    (hmetric : ∀ p q, P.dp p q ≤ P.weight p q)
    (hsymm : ∀ p q, P.weight p q = P.weight q p)
    (hfin : ∀ p < I.n, ∀ q < I.n, p ≠ q → P.weight p q < ⊤)
    (hcap : Nearest.StackFits I P.cap)
    (schedB : List ℕ) (hf : I.Finished schedB)
    (ordP : List ℕ) (hoP : ordP.Perm (List.range (2 * I.n - 2)))
    (sc : ℕ → Sched) (hsc : ∀ it, (sc it).Valid I.n) (fuel : ℕ) (hfuel : 2 * I.n ≤ fuel) (iters : ℕ) :
    (mst P I schedB ordP sc fuel iters = .running ∧ ¬ ((∀ it, (sc it).Fair I.n) ∧ I.n ≤ 2 ^ iters)) ∨
    ∃ s : State W, mst P I schedB ordP sc fuel iters = .ok (s.edges.map
        (fun e => ⟨I.values (I.perm e.source), I.values (I.perm e.target), e.weight⟩)) ∧
      IterInv P (fun i => I.values (I.perm i)) I.n s ∧ numReps I.n s.lab ≤ 1 := by
  rcases mst_run_linked P I hI hn hbig hbox hmetric hsymm hcap schedB hf ordP hoP sc hsc fuel hfuel iters with h | h | h
  · exact .inl h
  · exact absurd (linked_of P I hI hval hfin) h.1
  · exact .inr h

/-! ## Property theorems -/

/-- **C22 (partial).** Points `0, …, n - 1`, `2 ≤ n ≤ 2 ^ 31`, with symmetric weights below
infinity; a box is never farther than a point in it, and the weight of two points (their distance,
or mutual reachability distance) never below their distance. Under every interleaving of the
threads of every kernel of every iteration, on both code paths (shared radii with lower bounds, or
private radii), `MinimumSpanningTree` never accesses memory out of bounds and never throws, and if
it returns, then a minimum spanning tree, whatever ties there are. If every thread gets enough
steps, it returns after at most `log₂ n` iterations (rounded up). A plain load that races with stores may
return any value the location has held since the kernel started.

Partial: assumes that the fixed stack of 64 entries is large enough for the tree
(`Nearest.StackFits`, see `mst_height_partial`); exact arithmetic. -/
theorem mst_correct_partial (P : Points V W) (I : Input ℕ V w) (hI : I.Valid) (hn : 2 ≤ I.n) (hbig : I.n ≤ 2 ^ 31)
    (hval : ∀ p < I.n, I.values p = p)
    (hbox : ∀ p q v, I.vol q ≤ v → P.dv p v ≤ P.dp p q)
    (hmetric : ∀ p q, P.dp p q ≤ P.weight p q)
    (hsymm : ∀ p q, P.weight p q = P.weight q p)
    (hfin : ∀ p < I.n, ∀ q < I.n, p ≠ q → P.weight p q < ⊤)
    (hcap : Nearest.StackFits I P.cap)
    (schedB : List ℕ) (hf : I.Finished schedB)
    (ordP : List ℕ) (hoP : ordP.Perm (List.range (2 * I.n - 2)))
    (sc : ℕ → Sched) (hsc : ∀ it, (sc it).Valid I.n) (fuel : ℕ) (hfuel : 2 * I.n ≤ fuel) (iters : ℕ) :
    (mst P I schedB ordP sc fuel iters = .running ∨
      ∃ E, mst P I schedB ordP sc fuel iters = .ok E ∧ IsMst I.n P.weight E) ∧
    ((∀ it, (sc it).Fair I.n) → I.n ≤ 2 ^ iters → mst P I schedB ordP sc fuel iters ≠ .running) := by
  rcases mst_run P I hI hn hbig hval hbox hmetric hsymm hfin hcap schedB hf ordP hoP sc hsc fuel hfuel iters with
    ⟨e, hnf⟩ | ⟨s, e, h, h1⟩
  · exact ⟨.inl e, fun a b => absurd ⟨a, b⟩ hnf⟩
  · rw [e]
    exact ⟨.inr ⟨_, rfl, h.isMst I hI (by omega) hval ⟨hbig, hsymm⟩ h1⟩, by simp⟩

/-- **C22 (partial).** The assumption on the stack holds for the library's stack of 64 entries up
to 129 points, for `n ≤ 2 ^ K` points whose codes are below `2 ^ c` if `K + c ≤ 64`, and for codes below
`2 ^ c` none of which is shared by more than `2 t + 3` (or `2 ^ t + 1`) points if `c + t < 64`. -/
theorem mst_height_partial (I : Input ℕ V w) (hI : I.Valid) (hn : 2 ≤ I.n)
    (h : I.n ≤ 129 ∨ (∃ K c, I.n ≤ 2 ^ K ∧ c < w ∧ K + c ≤ 64 ∧ ∀ i < I.n, (I.code i).toNat < 2 ^ c) ∨
      ∃ c t, c < w ∧ c + t < 64 ∧ (∀ i < I.n, (I.code i).toNat < 2 ^ c) ∧
        ∀ i < I.n, (List.range I.n).countP (fun j => decide (I.code j = I.code i)) ≤ max (2 * t + 3) (2 ^ t + 1)) :
    Nearest.StackFits I 64 := by
  intro T hT
  rcases h with h | ⟨K, c, h1, h2, h3, h4⟩ | ⟨c, g, h1, h2, h3, h4⟩
  · exact Nearest.stack_suffices_small I (by omega) (by omega) T hT
  · have hp : 1 ≤ K + c := by
      by_contra h0
      rw [show K = 0 by omega] at h1
      omega
    have := Nearest.stack_suffices_codes I hI h1 h2 h4 hp T hT
    omega
  · have := Nearest.stack_suffices_groups I hI h1 h3 h4 T hT
    omega

omit [BoundedOrder W] [LinearOrder W] [SemilatticeSup V] [OrderBot V] in
/-- **C22 (small inputs).** Fewer than two points: an exception (one point: the assertion in
`findParents`; no point: the allocation of `n - 1` edges). -/
theorem mst_small [LinearOrder W] [BoundedOrder W] [SemilatticeSup V] [OrderBot V] (P : Points V W)
    (I : Input ℕ V w) (hn : I.n < 2) (schedB ordP : List ℕ) (sc : ℕ → Sched)
    (fuel iters : ℕ) : mst P I schedB ordP sc fuel iters = .throw := by
  unfold mst
  rw [if_pos hn]

/-! ## C22 (defect): the stack of the search can overflow -/

section Overflow

open Nearest (spineCode spine spine_cart spine_first)

/-- Distances of the 130 points of `Nearest.spineCode` on a line, and their mutual reachability
distances for `k = 130`: the core distance of `p` is the larger of its distances to both ends. A
volume is the smallest position in it. -/
def spinePoints (shared : Bool) : Points (WithTop ℕ)ᵒᵈ (WithTop ℕ) where
  dp := fun p q => ((spineCode p - spineCode q + (spineCode q - spineCode p) : ℕ) : WithTop ℕ)
  dv := fun p v => (OrderDual.ofDual v).map (fun m => m - spineCode p)
  metric := fun p q d => max d (max ((max (spineCode p) (2 ^ 62 - spineCode p) : ℕ) : WithTop ℕ)
    ((max (spineCode q) (2 ^ 62 - spineCode q) : ℕ) : WithTop ℕ))
  cap := 64
  shared := shared

/-- The tree of these points. -/
def spineTree : Input ℕ (WithTop ℕ)ᵒᵈ 64 where
  n := 130
  values := fun i => i
  vol := fun p => OrderDual.toDual ((spineCode p : ℕ) : WithTop ℕ)
  code := fun i => BitVec.ofNat 64 (spineCode i)
  perm := fun i => i

theorem spineTree_valid : spineTree.Valid where
  width := by decide
  fits := by decide +kernel
  sorted := ⟨by decide +kernel, Nearest.spineInput_valid.sorted.sorted⟩
  top := Nearest.spineInput_valid.top

lemma spinePoints_admissible (b : Bool) : (spinePoints b).Admissible spineTree.vol where
  box := by
    intro p q v h
    have h : OrderDual.ofDual v ≤ ((spineCode q : ℕ) : WithTop ℕ) := h
    change (OrderDual.ofDual v).map _ ≤ (_ : WithTop ℕ)
    obtain ⟨m, hm⟩ := WithTop.ne_top_iff_exists.mp (ne_top_of_le_ne_top (WithTop.coe_ne_top) h)
    rw [← hm] at h ⊢
    rw [WithTop.map_coe]
    have h : m ≤ spineCode q := WithTop.coe_le_coe.mp h
    have h' : m - spineCode p ≤ spineCode p - spineCode q + (spineCode q - spineCode p) := by omega
    exact WithTop.coe_le_coe.mpr h'
  metric := fun p q => le_max_left _ _

lemma spinePoints_zero (b : Bool) (q : ℕ) : ((2 ^ 62 : ℕ) : WithTop ℕ) ≤ (spinePoints b).weight 0 q :=
  le_trans (WithTop.coe_le_coe.mpr (by simp [spineCode])) (le_trans (le_max_left _ _) (le_max_right _ _))

lemma spine_loop (b : Bool) {mem : Mem ℕ (WithTop ℕ)ᵒᵈ} {lab : ℕ → ℤ}
    (hlab : ∀ S id r, Layout mem (fun i => i) spineTree.vol S id r →
      (∃ i ∈ S.leaves, ∃ j ∈ S.leaves, i ≠ j) → lab 0 ≠ lab id)
    {radius : WithTop ℕ} (hr : ((2 ^ 62 : ℕ) : WithTop ℕ) ≤ radius) (best : DirectedEdge (WithTop ℕ)) (j : ℕ) :
    j ≤ 63 → ∀ id rope, Layout mem (fun i => i) spineTree.vol (spine j) id rope →
    ∀ dn stack, dn ≤ radius → stack.length + 1 ≤ 64 → 64 < stack.length + (j + 1) + 1 →
    ∀ fuel, loop (spinePoints b) mem lab 0 0 (lab 0) (fuel + (j + 1)) id dn stack best radius = .fault := by
  have had := spinePoints_admissible b
  have hz : ∀ T : BTree, Nearest.isNode T = true → ∀ k, k ∈ T.leaves →
      distT (spinePoints b) (fun i => i) spineTree.vol 0 T ≤ (spineCode k : WithTop ℕ) := by
    intro T hT k hk
    cases T with
    | leaf _ => simp [Nearest.isNode] at hT
    | node x y =>
      refine (had.box 0 k _ (Traversal.BTree.le_vol _ _ _ hk)).trans ?_
      exact WithTop.coe_le_coe.mpr (by simp [spineCode])
  have hcode : ∀ j ≤ 62, ((spineCode (4 + 2 * j) : ℕ) : WithTop ℕ) ≤ radius := by
    intro j hj
    refine le_trans (WithTop.coe_le_coe.mpr ?_) hr
    unfold spineCode
    rw [if_neg (by omega), show (4 + 2 * j - 4) / 2 = j by omega]
    exact Nat.pow_le_pow_right (by norm_num) hj
  have off : ∀ S id r, Layout mem (fun i => i) spineTree.vol S id r → Nearest.isNode S = true →
      (∃ i ∈ S.leaves, ∃ j ∈ S.leaves, i ≠ j) →
      distT (spinePoints b) (fun i => i) spineTree.vol 0 S ≤ radius →
      offer (spinePoints b) mem lab 0 0 (lab 0) id (distT (spinePoints b) (fun i => i) spineTree.vol 0 S) best radius
        = some (best, radius, true) := by
    intro S id r hS hn h2 hd
    unfold offer
    rw [if_pos ⟨hlab S id r hS h2, hd⟩, if_neg (Nearest.layout_internal hS hn)]
  -- one level: a left child containing point 0, a right child with a point in reach
  have level : ∀ A B : BTree, Nearest.isNode A = true → Nearest.isNode B = true → 0 ∈ A.leaves →
      (∃ i ∈ A.leaves, ∃ j ∈ A.leaves, i ≠ j) → (∃ i ∈ B.leaves, ∃ j ∈ B.leaves, i ≠ j) →
      (∃ k ∈ B.leaves, ((spineCode k : ℕ) : WithTop ℕ) ≤ radius) →
      ∀ id rope, Layout mem (fun i => i) spineTree.vol (.node A B) id rope →
      ∀ dn stack, dn ≤ radius → stack.length + 1 ≤ 64 → ∀ fuel,
      (¬ stack.length + 1 < 64 → loop (spinePoints b) mem lab 0 0 (lab 0) (fuel + 1) id dn stack best radius = .fault) ∧
      (stack.length + 1 < 64 → ∃ ia ra dA e, Layout mem (fun i => i) spineTree.vol A ia ra ∧ dA ≤ radius ∧
        loop (spinePoints b) mem lab 0 0 (lab 0) (fuel + 1) id dn stack best radius
          = loop (spinePoints b) mem lab 0 0 (lab 0) fuel ia dA (e :: stack) best radius) := by
    intro A B hA hB h0 hA2 hB2 ⟨k, hk, hkr⟩ id rope hT dn stack hdn h1 fuel
    obtain ⟨ia, ib, hch, hla, hlb⟩ := Nearest.layout_children hT
    have dA : distT (spinePoints b) (fun i => i) spineTree.vol 0 A ≤ 0 := hz A hA 0 h0
    have hle := dA.trans (zero_le (a := distT (spinePoints b) (fun i => i) spineTree.vol 0 B))
    have hdB := (hz B hB k hk).trans hkr
    have ea := off A ia _ hla hA hA2 (dA.trans zero_le)
    have eb := off B ib _ hlb hB hB2 hdB
    have key : loop (spinePoints b) mem lab 0 0 (lab 0) (fuel + 1) id dn stack best radius
        = if stack.length + 1 < (spinePoints b).cap then
            loop (spinePoints b) mem lab 0 0 (lab 0) fuel ia (distT (spinePoints b) (fun i => i) spineTree.vol 0 A)
              ((ib, distT (spinePoints b) (fun i => i) spineTree.vol 0 B) :: stack) best radius
          else .fault := by
      rw [loop.eq_def]; dsimp only; rw [if_pos hdn, hch]
      dsimp only
      rw [layout_dist _ hla, layout_dist _ hlb]
      dsimp only
      rw [ea]; dsimp only; rw [eb]
      simp only [Bool.not_true, Bool.false_eq_true, if_false, hle,
        decide_true, Bool.or_false, Bool.and_self, if_true]
    have hcap : (spinePoints b).cap = 64 := rfl
    rw [hcap] at key
    refine ⟨fun hc => by rw [key, if_neg hc], fun hc => ⟨ia, _, _, _, hla, dA.trans zero_le, by rw [key, if_pos hc]⟩⟩
  have h1s : ∀ j, 1 ∈ (spine j).leaves := by
    intro j
    induction j with
    | zero => simp [spine, BTree.leaves]
    | succ j ih => simp [spine, BTree.leaves, ih]
  induction j with
  | zero =>
    intro _ id rope hT dn stack hdn h1 h2 fuel
    refine (level _ _ rfl rfl (by simp [BTree.leaves]) ⟨0, by simp [BTree.leaves], 1, by simp [BTree.leaves], by decide⟩
      ⟨2, by simp [BTree.leaves], 3, by simp [BTree.leaves], by decide⟩ ⟨2, by simp [BTree.leaves], ?_⟩ id rope hT dn stack hdn h1 fuel).1 (by omega)
    exact le_trans (WithTop.coe_le_coe.mpr (by simp [spineCode])) hr
  | succ j ih =>
    intro hj id rope hT dn stack hdn h1 h2 fuel
    have hn : Nearest.isNode (spine j) = true := by cases j <;> rfl
    obtain ⟨l1, l2⟩ := level _ _ hn rfl (spine_first j) ⟨0, spine_first j, 1, h1s j, by decide⟩
      ⟨4 + 2 * j, by simp [BTree.leaves], 5 + 2 * j, by simp [BTree.leaves], by omega⟩ ⟨4 + 2 * j, by simp [BTree.leaves], hcode j (by omega)⟩
      id rope hT dn stack hdn h1 (fuel + (j + 1))
    rw [← Nat.add_assoc]
    by_cases hc : stack.length + 1 < 64
    · obtain ⟨ia, ra, dA, e, hla, hdA, hl⟩ := l2 hc
      rw [hl]
      exact ih (by omega) ia ra hla dA (e :: stack) hdA (by simp; omega) (by simp; omega) fuel
    · exact l1 hc

/-- **C22 (defect).** The assumption on the height cannot be dropped: on 130 points on a line with
mutual reachability distances for `k = 130`, `MinimumSpanningTree` writes past the end of the
stack of its search in the first iteration, on both code paths, under all schedules. -/
theorem mst_stack_overflow (b : Bool) (schedB : List ℕ) (hf : spineTree.Finished schedB)
    (ordP : List ℕ) (hoP : ordP.Perm (List.range (2 * spineTree.n - 2))) (sc : ℕ → Sched)
    (hsc : ∀ it, (sc it).Valid spineTree.n) (hfair : ∀ it, (sc it).Fair spineTree.n)
    (fuel iters : ℕ) (hfuel : 64 ≤ fuel) (hit : 1 ≤ iters) :
    mst (spinePoints b) spineTree schedB ordP sc fuel iters = .fault := by
  have hn : 2 ≤ spineTree.n := by decide
  have hsz := build_size spineTree schedB
  obtain ⟨T, hcart, hT⟩ := BVH.build_cartesian spineTree spineTree_valid hn
  have hTs : T = spine 63 := hcart.unique (spine_cart 63 le_rfl)
  subst hTs
  obtain ⟨hl, hlay⟩ := hT schedB hf
  have hlay : Layout (spineTree.build schedB) (fun i => i) spineTree.vol (spine 63) (spineTree.build schedB).size none := hlay
  have hv : ∀ i < spineTree.n, ((i : ℕ) : ℤ) ≠ -1 ∧ ((i : ℕ) : ℤ) ≠ -2 := by intro i _; omega
  obtain ⟨par, hpar, hred⟩ := Labels.reduceLabels_correct spineTree spineTree_valid hn schedB hf ordP hoP
    (fun i => (i : ℤ)) hv
  obtain ⟨par', hpar', hwait⟩ := Labels.reduceLabels_wait_free spineTree spineTree_valid hn schedB hf ordP hoP
    (fun i => (i : ℤ)) hv
  rw [hpar, Option.some.injEq] at hpar'
  subst hpar'
  have hdone : ∀ t < spineTree.n, (Labels.wrun spineTree.n par (fun i => (i : ℤ)) (sc 0).reduce).thr t = .done :=
    fun t ht => hwait _ t ht ((hfair 0).reduce t ht)
  obtain ⟨hnf, hlabs⟩ := hred (sc 0).reduce
  have hlabs := hlabs hdone
  unfold mst
  rw [if_neg (by decide)]
  dsimp only
  rw [hpar]
  dsimp only
  obtain ⟨k, rfl⟩ : ∃ k, iters = k + 1 := ⟨iters - 1, by omega⟩
  have hch : choose (spinePoints b) (spineTree.build schedB) par fuel (sc 0) ⟨fun i => (i : ℤ), fun _ => ⊥, []⟩ = .fault := by
    unfold choose
    dsimp only
    rw [hsz]
    generalize hredd : Labels.wrun spineTree.n par (fun i => (i : ℤ)) (sc 0).reduce = red at *
    rw [if_neg (by
      rw [List.any_eq_true]
      rintro ⟨t, h1, h2⟩
      exact hnf t (List.mem_range.mp h1) (of_decide_eq_true h2))]
    rw [if_neg (by
      rw [Bool.not_eq_true', ← Bool.not_eq_true, List.all_eq_true, not_not]
      intro t ht
      exact decide_eq_true (hdone t (List.mem_range.mp ht)))]
    have hleafL : ∀ i < spineTree.n, ∃ r, (spineTree.build schedB).leaf i = some ⟨r, i⟩ := by
      intro i hi
      exact Nearest.layout_leaf _ _ _ hlay i (by rw [hl, hsz]; exact List.mem_range.mpr hi)
    have hlf : ∀ i < spineTree.n, red.lab i = (i : ℤ) := by
      intro i hi
      obtain ⟨r, hr⟩ := hleafL i hi
      exact (hlabs (.leaf i) i r ⟨rfl, by rw [hsz]; exact hi, hr⟩).1 (i : ℤ) (by simp [BTree.leaves])
    have hcomp : ∀ i < spineTree.n, comp red.lab i = i := by
      intro i hi; unfold comp; rw [hlf i hi]; simp
    have hl' : Labelling spineTree.n red.lab :=
      ⟨fun i hi => by rw [hlf i hi]; exact Int.natCast_nonneg i, fun i hi => by rw [hcomp i hi]; exact hi,
        fun i hi => by rw [hcomp i hi]⟩
    have hset : Setting (spinePoints b) (fun i => i) spineTree.n := by
      refine ⟨by decide, fun p q => ?_⟩
      unfold Points.weight spinePoints
      dsimp only
      rw [max_comm (((max (spineCode p) _ : ℕ)) : WithTop ℕ), Nat.add_comm]
    obtain ⟨radii, er, hr⟩ := resetRadii_spec (mem := spineTree.build schedB) (value := fun i => i) (P := spinePoints b)
      (n := spineTree.n) (lab := red.lab) (fun i hi => by
        obtain ⟨r, hr⟩ := hleafL i hi
        exact ⟨_, hr, rfl⟩) hset hl' (ord := (sc 0).radii) (fun k hk => List.mem_range.mp ((hsc 0).radii.subset hk))
    rw [er]
    dsimp only
    have h0 : ((2 ^ 62 : ℕ) : WithTop ℕ) ≤ radii 0 := by
      obtain ⟨i, j, hb⟩ := Best.exists (P := spinePoints b) (value := fun i => i) (n := spineTree.n) (lab := red.lab) (c := 0)
        ⟨0, by decide, 1, by decide, hcomp 0 (by decide), by rw [hcomp 1 (by decide)]; decide, by
          unfold Points.weight spinePoints
          dsimp only
          rw [max_lt_iff, max_lt_iff]
          exact ⟨WithTop.coe_lt_top _, WithTop.coe_lt_top _, WithTop.coe_lt_top _⟩⟩
      refine le_trans ?_ (hr 0 i j hb)
      have : i = 0 := by rw [← hb.inside, hcomp i hb.ilt]
      rw [this]
      exact spinePoints_zero b j
    have hsearch : search (spinePoints b) (spineTree.build schedB) red.lab fuel 0 (radii (comp red.lab 0)) = .fault := by
      rw [hcomp 0 (by decide)]
      unfold search
      obtain ⟨r, hr0⟩ := hleafL 0 (by decide)
      rw [hr0]
      dsimp only
      obtain ⟨f, rfl⟩ : ∃ f, fuel = f + (63 + 1) := ⟨fuel - 64, by omega⟩
      refine spine_loop b ?_ h0 _ 63 le_rfl _ _ hlay _ _ bot_le (by decide) (by decide) f
      intro S id rr hS ⟨i, hi, j, hj, hij⟩
      have hij : ((i : ℕ) : ℤ) ≠ (j : ℤ) := fun e => hij (Nat.cast_inj.mp e)
      rw [(hlabs S id rr hS).2 i hi j hj hij, hlf 0 (by decide)]
      decide
    have hnone : (if (spinePoints b).shared then searchSerial (spinePoints b) (spineTree.build schedB) red.lab (fun _ => ⊥) fuel radii
        else searchPar (spinePoints b) (spineTree.build schedB) red.lab fuel radii) = none := by
      split_ifs
      · unfold searchSerial
        rw [hsz]
        have : List.range spineTree.n = 0 :: (List.range (spineTree.n - 1)).map Nat.succ := by
          rw [← List.range_succ_eq_map]; rfl
        rw [this, List.foldl_cons, Option.bind_some]
        have e : serialStep (spinePoints b) (spineTree.build schedB) red.lab (fun _ => ⊥) fuel (radii, fun _ => none) 0 = none := by
          unfold serialStep
          dsimp only
          rw [if_pos bot_le, hsearch]
        rw [e]
        generalize (List.range (spineTree.n - 1)).map Nat.succ = L
        have : ∀ L : List ℕ, L.foldl (fun o i => o.bind (fun s => serialStep (spinePoints b) (spineTree.build schedB) red.lab (fun _ => ⊥) fuel s i)) none = none := by
          intro L; induction L with
          | nil => rfl
          | cons x L ih => rw [List.foldl_cons]; exact ih
        rw [this]; rfl
      · unfold searchPar
        rw [if_neg]
        rw [List.all_eq_true]
        intro hh
        have := hh 0 (List.mem_range.mpr (by rw [hsz]; decide))
        rw [hsearch] at this
        exact absurd this (by simp)
    rw [hnone]
  unfold iterate iteration
  rw [hch]
  rfl

end Overflow

/-! ## Non-vacuity -/

/-- Schedules that meet the assumptions exist for every number of points: one thread after the
other. -/
theorem exists_sched (n : ℕ) : ∃ sc : Sched, sc.Valid n ∧ sc.Fair n := by
  have key : ∀ m t, t < n → m ≤ ((List.range n).flatMap (fun t => List.replicate m t)).count t := by
    intro m t ht
    rw [List.count_flatMap]
    have hm : t ∈ List.range n := List.mem_range.mpr ht
    have := List.single_le_sum (l := (List.range n).map (List.count t ∘ fun t => List.replicate m t))
      (fun _ _ => Nat.zero_le _) _ (List.mem_map.mpr ⟨t, hm, rfl⟩)
    simpa using this
  let f := fun m => (List.range n).flatMap (fun t => List.replicate m t)
  let g := fun m => (f m).map (fun t => (t, 0))
  have key' : ∀ m t, t < n → m ≤ ((g m).map (·.1)).count t := by
    intro m t ht
    have e : (g m).map (·.1) = f m := by
      show ((f m).map (fun t => (t, 0))).map (·.1) = f m
      rw [List.map_map]; exact List.map_id _
    rw [e]; exact key m t ht
  exact ⟨⟨g (3 * n), List.range _, g 2, g 2, List.range n, g (2 * n + 4)⟩, ⟨List.Perm.refl _, List.Perm.refl _⟩,
    ⟨fun t ht => key' _ t ht, fun t ht => key' _ t ht, fun t ht => key' _ t ht, fun t ht => key' _ t ht⟩⟩

open Traversal (exampleInput exampleInput_valid)

/-- Distances of the five values of `Traversal.exampleInput` as numbers on a line. -/
def examplePoints (shared : Bool) : Points (Finset ℕ) (WithTop ℕ) where
  dp := fun p q => ((p - q + (q - p) : ℕ) : WithTop ℕ)
  dv := fun p v => v.inf (fun q => ((p - q + (q - p) : ℕ) : WithTop ℕ))
  metric := fun _ _ d => d
  cap := 64
  shared := shared

example (b : Bool) : ∃ schedB ordP sc fuel iters E,
    mst (examplePoints b) exampleInput schedB ordP sc fuel iters = .ok E ∧ IsMst 5 (examplePoints b).weight E := by
  obtain ⟨schedB, hB⟩ := Construction.exists_complete exampleInput.params (exampleInput_valid.keys (by decide))
  obtain ⟨sc, h1, h2⟩ := exists_sched exampleInput.n
  obtain ⟨h, h'⟩ := mst_correct_partial (examplePoints b) exampleInput exampleInput_valid (by decide) (by decide)
    (fun _ _ => rfl) (fun p q v h => Finset.inf_le
      (show q ∈ v from (show ({q} : Finset ℕ) ⊆ v from h) (Finset.mem_singleton_self q))) (fun _ _ => le_rfl)
    (fun p q => by simp only [Points.weight, examplePoints]; rw [Nat.add_comm])
    (fun p _ q _ _ => WithTop.coe_lt_top _)
    (mst_height_partial exampleInput exampleInput_valid (by decide) (.inl (by decide))) schedB (fun _ => hB)
    (List.range (2 * exampleInput.n - 2)) (List.Perm.refl _) (fun _ => sc) (fun _ => h1) (2 * exampleInput.n) le_rfl 4
  rcases h with h | ⟨E, h, hE⟩
  · exact absurd h (h' (fun _ => h2) (by decide))
  · exact ⟨_, _, _, _, _, E, h, hE⟩

example : ∃ schedB, spineTree.Finished schedB := by
  obtain ⟨s, hs⟩ := Construction.exists_complete spineTree.params (spineTree_valid.keys (by decide))
  exact ⟨s, fun _ => hs⟩

end ArborX.Boruvka
