import Verif.Boruvka.Isolated
import Verif.Labels.Theorems
import Verif.Nearest.Theorems
import Mathlib.Data.List.Perm.Basic

/-!
# One iteration of Borůvka's algorithm (lemmas)
-/

namespace ArborX.Boruvka

open Function (update)
open Mst (DirectedEdge WeightedEdge)
open Graph (Conn LightEdge)

variable {V W : Type} [LinearOrder W] [BoundedOrder W] [SemilatticeSup V]
variable {P : Points V W} {value : ℕ → ℕ} {n : ℕ} {lab : ℕ → ℤ} {out : ℕ → DirectedEdge W}

omit [SemilatticeSup V] in
lemma cand_ends (hset : Setting P value n) {i j : ℕ} (hi : i < n) (hj : j < n) :
    (cand P value i j).source = i ∧ (cand P value i j).target = j ∧
      (cand P value i j).weight = P.weight (value i) (value j) :=
  Mst.directed_edge_roundtrip i j (lt_of_lt_of_le hi hset.big) (lt_of_lt_of_le hj hset.big) _

omit [SemilatticeSup V] in
/-- The edges of the components form chains. -/
lemma chain (hset : Setting P value n) (hl : Labelling n lab)
    (hbest : ∀ c, Rep n lab c → ∃ i j, Best P value n lab c i j)
    (hout : ∀ c i j, Best P value n lab c i j → out c = cand P value i j) :
    Chain n (Rep n lab) (nbr lab out) (fun c => ekey P value ((out c).source, (out c).target)) := by
  have hk := ekey_edgeKey (P := P) (value := value) hset.symm
  have get : ∀ c, Rep n lab c → ∃ i j, Best P value n lab c i j ∧ (out c).source = i ∧ (out c).target = j := by
    intro c hc
    obtain ⟨i, j, hb⟩ := hbest c hc
    obtain ⟨e1, e2, -⟩ := cand_ends hset hb.ilt hb.jlt
    exact ⟨i, j, hb, by rw [hout c i j hb]; exact e1, by rw [hout c i j hb]; exact e2⟩
  have closed : ∀ c, Rep n lab c → Rep n lab (nbr lab out c) := by
    intro c hc
    obtain ⟨i, j, hb, -, e⟩ := get c hc
    unfold nbr
    rw [e]
    exact ⟨hl.lt j hb.jlt, hl.comp_idem hb.jlt⟩
  refine ⟨fun c hc => hc.1, closed, ?_, ?_, ?_⟩
  · intro c hc
    obtain ⟨i, j, hb, -, e⟩ := get c hc
    unfold nbr
    rw [e]
    exact hb.outside
  · intro c hc
    obtain ⟨i, j, hb, e1, e2⟩ := get c hc
    obtain ⟨i', j', hb', e1', e2'⟩ := get _ (closed c hc)
    have hd : nbr lab out c = comp lab j := by unfold nbr; rw [e2]
    rw [e1, e2, e1', e2', hk.symm i j]
    exact hb'.min j hb.jlt i hb.ilt hd.symm (by rw [hd, hb.inside]; exact hb.outside.symm)
  · intro c hc hne
    obtain ⟨i, j, hb, e1, e2⟩ := get c hc
    obtain ⟨i', j', hb', e1', e2'⟩ := get _ (closed c hc)
    have hd : nbr lab out c = comp lab j := by unfold nbr; rw [e2]
    have hdc : nbr lab out (nbr lab out c) = comp lab j' := by
      rw [← e2']; rfl
    rw [e1, e2, e1', e2']
    have hle : ekey P value (i', j') ≤ ekey P value (i, j) := by
      rw [hk.symm i j]
      exact hb'.min j hb.jlt i hb.ilt hd.symm (by rw [hd, hb.inside]; exact hb.outside.symm)
    refine lt_of_le_of_ne hle (fun he => ?_)
    rcases hk.inj _ _ _ _ he with ⟨a, b⟩ | ⟨a, b⟩
    · have := hb'.inside
      rw [a, hb.inside, hd] at this
      exact hb.outside this.symm
    · apply hne
      rw [hdc, b, hb.inside]

/-- Number of components. -/
def numReps (n : ℕ) (lab : ℕ → ℤ) : ℕ := ((List.range n).filter (fun c => comp lab c = c)).length

/-- Number of components at which the walk stops. -/
def numFixed (n : ℕ) (lab : ℕ → ℤ) (N : ℕ → ℕ) : ℕ :=
  ((List.range n).filter (fun c => comp lab c = c ∧ nextOf N c = c)).length

/-- The components that contribute an edge. -/
def moving (lab : ℕ → ℤ) (N : ℕ → ℕ) (i : ℕ) : Bool := comp lab i = i ∧ nextOf N i ≠ i

lemma count_split (n : ℕ) (lab : ℕ → ℤ) (N : ℕ → ℕ) :
    numReps n lab = numFixed n lab N + ((List.range n).filter (moving lab N)).length := by
  unfold numReps numFixed moving
  generalize List.range n = L
  induction L with
  | nil => rfl
  | cons a L ih =>
    simp only [List.filter_cons]
    by_cases h1 : comp lab a = a <;> by_cases h2 : nextOf N a = a <;> simp [h1, h2] at ih ⊢ <;> omega

/-- The walks stop in at most half of the components. -/
lemma fixed_half {κ : Type} [LinearOrder κ] {n : ℕ} {lab : ℕ → ℤ} {N : ℕ → ℕ} {key : ℕ → κ}
    (hc : Chain n (Rep n lab) N key) : numFixed n lab N ≤ ((List.range n).filter (moving lab N)).length := by
  unfold numFixed
  have hfix : ∀ c ∈ (List.range n).filter (fun c => comp lab c = c ∧ nextOf N c = c), Rep n lab c ∧ nextOf N c = c := by
    intro c hcm
    rw [List.mem_filter, List.mem_range, decide_eq_true_eq] at hcm
    exact ⟨⟨hcm.1, hcm.2.1⟩, hcm.2.2⟩
  rw [← List.length_map (f := N)]
  refine (List.subperm_of_subset (List.Nodup.map_on ?_ (List.nodup_range.filter _)) ?_).length_le
  · intro c hcm d hdm e
    obtain ⟨h1, h2⟩ := hfix c hcm
    obtain ⟨h3, h4⟩ := hfix d hdm
    rw [← (hc.fixed h1 h2).1, ← (hc.fixed h3 h4).1, e]
  · intro x hx
    obtain ⟨c, hcm, rfl⟩ := List.mem_map.mp hx
    obtain ⟨h1, h2⟩ := hfix c hcm
    obtain ⟨h3, h4⟩ := hc.fixed h1 h2
    have hr := hc.closed c h1
    rw [List.mem_filter, List.mem_range]
    refine ⟨hr.1, ?_⟩
    unfold moving
    rw [decide_eq_true_eq]
    refine ⟨hr.2, fun hf => ?_⟩
    have := (hc.fixed hr hf).2
    omega

/-- The edge appended for component `i`. -/
def newEdge (out : ℕ → DirectedEdge W) (i : ℕ) : WeightedEdge W := ⟨(out i).source, (out i).target, (out i).weight⟩

omit [BoundedOrder W] [LinearOrder W] in
lemma append_spec (hl : Labelling n lab) (ht : ∀ c, Rep n lab c → (out c).target < n)
    (hcl : ∀ c, Rep n lab c → Rep n lab (nbr lab out c)) :
    ∀ (ord : List ℕ) (edges : List (WeightedEdge W)), (∀ i ∈ ord, i < n) →
      edges.length + (ord.filter (moving lab (nbr lab out))).length ≤ n - 1 →
      append n lab out edges ord = some (edges ++ (ord.filter (moving lab (nbr lab out))).map (newEdge out)) := by
  intro ord
  unfold append
  induction ord with
  | nil => intro edges _ _; simp
  | cons i ord ih =>
    intro edges ho hlen
    have hi := ho i List.mem_cons_self
    have ho' : ∀ i ∈ ord, i < n := fun i hi => ho i (List.mem_cons_of_mem _ hi)
    rw [List.foldl_cons, Option.bind_some]
    have hrep : (i : ℤ) = lab i ↔ comp lab i = i := by
      have := hl.cast hi
      constructor
      · intro e; rw [← e] at this; exact Nat.cast_inj.mp this
      · intro e; rw [e] at this; exact this
    by_cases hr : comp lab i = i
    · have e1 := ht i ⟨hi, hr⟩
      have e2 := ht _ (hcl i ⟨hi, hr⟩)
      have en : nextComp n lab out i = some (nextOf (nbr lab out) i) := by
        unfold nextComp
        dsimp only
        rw [if_neg (by omega)]
        have e2' : (out (comp lab (out i).target)).target < n := e2
        rw [if_neg (by omega)]
        rfl
      by_cases hf : nextOf (nbr lab out) i = i
      · have em : moving lab (nbr lab out) i = false := by simp [moving, hf]
        rw [List.filter_cons, em] at hlen ⊢
        have es : appendStep n lab out edges i = some edges := by
          unfold appendStep
          rw [if_neg (not_not.mpr (hrep.mpr hr)), en]
          dsimp only
          rw [if_pos hf]
        rw [es]
        exact ih edges ho' hlen
      · have em : moving lab (nbr lab out) i = true := by simp [moving, hf, hr]
        rw [List.filter_cons, em, if_pos rfl] at hlen ⊢
        rw [List.length_cons] at hlen
        have es : appendStep n lab out edges i = some (edges ++ [newEdge out i]) := by
          unfold appendStep
          rw [if_neg (not_not.mpr (hrep.mpr hr)), en]
          dsimp only
          rw [if_neg hf, if_pos (by omega)]
          rfl
        rw [es, ih _ ho' (by rw [List.length_append, List.length_singleton]; omega)]
        rw [List.map_cons, List.append_assoc]
        rfl
    · have em : moving lab (nbr lab out) i = false := by simp [moving, hr]
      rw [List.filter_cons, em] at hlen ⊢
      have es : appendStep n lab out edges i = some edges := by
        unfold appendStep
        rw [if_pos (hrep.not.mpr hr)]
      rw [es]
      exact ih edges ho' hlen

/-- The pairs of vertices of weighted edges. -/
def pairs (E : List (WeightedEdge W)) : List (ℕ × ℕ) := E.map (fun e => (e.source, e.target))

/-- What holds between iterations. -/
structure IterInv (P : Points V W) (value : ℕ → ℕ) (n : ℕ) (s : State W) : Prop where
  lbl : Labelling n s.lab
  count : numReps n s.lab + s.edges.length = n
  conn : ∀ u < n, ∀ v < n, (Conn (pairs s.edges) u v ↔ s.lab u = s.lab v)
  edge : ∀ e ∈ s.edges, e.source < n ∧ e.target < n ∧ e.source ≠ e.target ∧
    e.weight = P.weight (value e.source) (value e.target) ∧ LightEdge n (ekey P value) (e.source, e.target)
  finite : ∀ e ∈ s.edges, e.weight < ⊤
  low : ∀ i < n, ∀ j < n, s.lab i ≠ s.lab j → s.lower i ≤ P.weight (value i) (value j)

omit [SemilatticeSup V] in
/-- The effect of merging on the invariant. -/
lemma IterInv.merge (hset : Setting P value n) (hn : 0 < n) {s : State W} (h : IterInv P value n s)
    (hbest : ∀ c, Rep n s.lab c → ∃ i j, Best P value n s.lab c i j)
    (hout : ∀ c i j, Best P value n s.lab c i j → out c = cand P value i j)
    {ord : List ℕ} (ho : ord.Perm (List.range n)) {lab' : ℕ → ℤ}
    (hlab' : ∀ i < n, lab' i = (fin n (nbr s.lab out) (comp s.lab i) : ℕ)) {lower' : ℕ → W}
    (hlow' : ∀ i < n, lower' i ≤ max (s.lower i) (out (comp s.lab i)).weight) :
    append n s.lab out s.edges ord
      = some (s.edges ++ (ord.filter (moving s.lab (nbr s.lab out))).map (newEdge out)) ∧
    IterInv P value n
      ⟨lab', lower', s.edges ++ (ord.filter (moving s.lab (nbr s.lab out))).map (newEdge out)⟩ ∧
    s.edges.length < (s.edges ++ (ord.filter (moving s.lab (nbr s.lab out))).map (newEdge out)).length ∧
    2 * numReps n lab' ≤ numReps n s.lab := by
  have hl := h.lbl
  have hc := chain hset hl hbest hout
  set N := nbr s.lab out with hN
  have get : ∀ c, Rep n s.lab c → ∃ i j, Best P value n s.lab c i j ∧ (out c).source = i ∧ (out c).target = j ∧
      (out c).weight = P.weight (value i) (value j) := by
    intro c hc
    obtain ⟨i, j, hb⟩ := hbest c hc
    obtain ⟨e1, e2, e3⟩ := cand_ends hset hb.ilt hb.jlt
    exact ⟨i, j, hb, by rw [hout c i j hb]; exact e1, by rw [hout c i j hb]; exact e2, by rw [hout c i j hb]; exact e3⟩
  have repOf : ∀ i < n, Rep n s.lab (comp s.lab i) := fun i hi => ⟨hl.lt i hi, hl.comp_idem hi⟩
  -- numbers
  have hlenf : (ord.filter (moving s.lab N)).length = ((List.range n).filter (moving s.lab N)).length :=
    (ho.filter _).length_eq
  have hsplit := count_split n s.lab N
  have hr0 := repOf 0 hn
  have hfixpos : 0 < numFixed n s.lab N := by
    unfold numFixed
    apply List.length_pos_of_mem (a := fin n N (comp s.lab 0))
    rw [List.mem_filter, List.mem_range]
    have := hc.fin_rep hr0
    exact ⟨this.1, by simp [this.2, hc.fin_fixed hr0]⟩
  have hmovpos : 0 < ((List.range n).filter (moving s.lab N)).length := by
    have hr1 := hc.closed _ hr0
    by_cases hf : nextOf N (comp s.lab 0) = comp s.lab 0
    · apply List.length_pos_of_mem (a := N (comp s.lab 0))
      rw [List.mem_filter, List.mem_range]
      refine ⟨hr1.1, ?_⟩
      unfold moving
      rw [decide_eq_true_eq]
      refine ⟨hr1.2, fun hf' => ?_⟩
      obtain ⟨a1, a2⟩ := hc.fixed hr0 hf
      obtain ⟨b1, b2⟩ := hc.fixed hr1 hf'
      rw [a1] at b2
      omega
    · apply List.length_pos_of_mem (a := comp s.lab 0)
      rw [List.mem_filter, List.mem_range]
      refine ⟨hr0.1, ?_⟩
      unfold moving
      rw [decide_eq_true_eq]
      exact ⟨hr0.2, hf⟩
  have hcount := h.count
  have happ : append n s.lab out s.edges ord
      = some (s.edges ++ (ord.filter (moving s.lab N)).map (newEdge out)) := by
    apply append_spec hl _ hc.closed ord s.edges
    · intro i hi; exact List.mem_range.mp (ho.subset hi)
    · rw [← hN]; omega
    · intro c hc
      obtain ⟨i, j, hb, -, e, -⟩ := get c hc
      rw [e]; exact hb.jlt
  -- labels
  have hcomp' : ∀ i < n, comp lab' i = fin n N (comp s.lab i) := by
    intro i hi
    unfold comp at *
    rw [hlab' i hi]
    simp
  have finfin : ∀ c, Rep n s.lab c → fin n N (comp s.lab (fin n N c)) = fin n N c := by
    intro c hcr
    rw [(hc.fin_rep hcr).2]
    exact Chain.fin_of_fixed (hc.fin_fixed hcr)
  have hl' : Labelling n lab' := by
    refine ⟨fun i hi => ?_, fun i hi => ?_, fun i hi => ?_⟩
    · rw [hlab' i hi]; exact Int.natCast_nonneg _
    · rw [hcomp' i hi]; exact (hc.fin_rep (repOf i hi)).1
    · rw [hcomp' i hi, hlab' _ (hc.fin_rep (repOf i hi)).1, hlab' i hi, finfin _ (repOf i hi)]
  have hreps : numReps n lab' = numFixed n s.lab N := by
    unfold numReps numFixed
    congr 1
    apply List.filter_congr
    intro c hcm
    have hcn := List.mem_range.mp hcm
    rw [Bool.eq_iff_iff, decide_eq_true_eq, decide_eq_true_eq, hcomp' c hcn]
    constructor
    · intro e
      have h1 := hc.fin_rep (repOf c hcn)
      have h2 := hc.fin_fixed (repOf c hcn)
      rw [e] at h1 h2
      exact ⟨h1.2, h2⟩
    · rintro ⟨e1, e2⟩
      rw [e1]
      exact Chain.fin_of_fixed e2
  -- new edges
  have hnew : ∀ e ∈ (ord.filter (moving s.lab N)).map (newEdge out), ∃ c i j, Rep n s.lab c ∧
      Best P value n s.lab c i j ∧ e = ⟨i, j, P.weight (value i) (value j)⟩ ∧ nextOf N c = comp s.lab j := by
    intro e he
    obtain ⟨c, hcm, rfl⟩ := List.mem_map.mp he
    obtain ⟨h1, h2⟩ := List.mem_filter.mp hcm
    have hcn : c < n := List.mem_range.mp (ho.subset h1)
    unfold moving at h2
    rw [decide_eq_true_eq] at h2
    obtain ⟨i, j, hb, e1, e2, e3⟩ := get c ⟨hcn, h2.1⟩
    refine ⟨c, i, j, ⟨hcn, h2.1⟩, hb, ?_, ?_⟩
    · unfold newEdge; rw [e1, e2, e3]
    · rw [(hc.next_lt ⟨hcn, h2.1⟩ h2.2).1, hN]
      unfold nbr
      rw [e2]
  have old_new : ∀ i < n, ∀ j < n, s.lab i = s.lab j → lab' i = lab' j := by
    intro i hi j hj e
    rw [hlab' i hi, hlab' j hj, (hl.comp_eq hi hj).mpr e]
  refine ⟨happ, ⟨hl', ?_, ?_, ?_, ?_, ?_⟩, ?_, ?_⟩
  · rw [hreps]
    dsimp only
    rw [List.length_append, List.length_map]
    omega
  · intro u hu v hv
    dsimp only
    constructor
    · intro cn
      have hR : Equivalence (fun a b => a = b ∨ (a < n ∧ b < n ∧ lab' a = lab' b)) := by
        refine ⟨fun _ => .inl rfl, ?_, ?_⟩
        · rintro a b (e | ⟨x, y, z⟩)
          · exact .inl e.symm
          · exact .inr ⟨y, x, z.symm⟩
        · rintro a b c (e | ⟨x, y, z⟩) (e' | ⟨x', y', z'⟩)
          · exact .inl (e.trans e')
          · exact .inr ⟨by omega, y', by rw [e]; exact z'⟩
          · exact .inr ⟨x, by omega, by rw [← e']; exact z⟩
          · exact .inr ⟨x, y', z.trans z'⟩
      have hedge : ∀ e ∈ pairs (s.edges ++ (ord.filter (moving s.lab N)).map (newEdge out)),
          e.1 = e.2 ∨ (e.1 < n ∧ e.2 < n ∧ lab' e.1 = lab' e.2) := by
        intro e he
        right
        unfold pairs at he
        rw [List.map_append, List.mem_append] at he
        rcases he with he | he
        · obtain ⟨f, hf, rfl⟩ := List.mem_map.mp he
          obtain ⟨f1, f2, -⟩ := h.edge f hf
          refine ⟨f1, f2, old_new _ f1 _ f2 ?_⟩
          exact (h.conn _ f1 _ f2).mp (Conn.edge he)
        · obtain ⟨f, hf, rfl⟩ := List.mem_map.mp he
          obtain ⟨c, i, j, hcr, hb, rfl, hnx⟩ := hnew f hf
          dsimp only
          refine ⟨hb.ilt, hb.jlt, ?_⟩
          rw [hlab' i hb.ilt, hlab' j hb.jlt, hb.inside, ← hnx, hc.fin_next hcr]
      rcases Conn.min hR hedge cn with e | e
      · rw [e]
      · exact e.2.2
    · intro e
      have mono : ∀ {a b}, Conn (pairs s.edges) a b →
          Conn (pairs (s.edges ++ (ord.filter (moving s.lab N)).map (newEdge out))) a b := by
        intro a b cc
        refine Conn.mono ?_ cc
        unfold pairs
        rw [List.map_append]
        exact List.subset_append_left _ _
      have toRep : ∀ a < n, Conn (pairs s.edges) a (comp s.lab a) := by
        intro a ha
        exact (h.conn a ha _ (hl.lt a ha)).mpr (hl.idem a ha).symm
      have stepc : ∀ c, Rep n s.lab c →
          Conn (pairs (s.edges ++ (ord.filter (moving s.lab N)).map (newEdge out))) c (nextOf N c) := by
        intro c hcr
        by_cases hf : nextOf N c = c
        · rw [hf]; exact Conn.refl _ _
        · obtain ⟨i, j, hb, e1, e2, e3⟩ := get c hcr
          have hnx : nextOf N c = comp s.lab j := by
            rw [(hc.next_lt hcr hf).1, hN]; unfold nbr; rw [e2]
          rw [hnx]
          have c1 := mono (toRep i hb.ilt)
          rw [hb.inside] at c1
          have c2 := mono (toRep j hb.jlt)
          refine c1.symm.trans (Conn.trans (Conn.edge ?_) c2)
          unfold pairs
          rw [List.map_append, List.map_map]
          apply List.mem_append_right
          refine List.mem_map.mpr ⟨c, List.mem_filter.mpr ⟨ho.symm.subset (List.mem_range.mpr hcr.1), ?_⟩, ?_⟩
          · unfold moving; rw [decide_eq_true_eq]; exact ⟨hcr.2, hf⟩
          · simp only [Function.comp, newEdge, e1, e2]
      have toFin : ∀ c, Rep n s.lab c →
          Conn (pairs (s.edges ++ (ord.filter (moving s.lab N)).map (newEdge out))) c (fin n N c) := by
        intro c hcr
        have : ∀ k, Conn (pairs (s.edges ++ (ord.filter (moving s.lab N)).map (newEdge out))) c ((nextOf N)^[k] c) := by
          intro k
          induction k with
          | zero => exact Conn.refl _ _
          | succ k ih =>
            rw [Function.iterate_succ_apply']
            exact ih.trans (stepc _ (hc.iter_rep hcr k))
        exact this n
      rw [hlab' u hu, hlab' v hv, Nat.cast_inj] at e
      have c1 := (mono (toRep u hu)).trans (toFin _ (repOf u hu))
      have c2 := (mono (toRep v hv)).trans (toFin _ (repOf v hv))
      rw [e] at c1
      exact c1.trans c2.symm
  · intro e he
    dsimp only at he
    rcases List.mem_append.mp he with he | he
    · exact h.edge e he
    · obtain ⟨c, i, j, hcr, hb, rfl, -⟩ := hnew e he
      refine ⟨hb.ilt, hb.jlt, hb.ne, rfl, fun x => comp s.lab x = c, hb.inside, hb.outside, ?_⟩
      intro a ha b hb' ca cb
      exact hb.min a ha b hb' ca cb
  · intro e he
    dsimp only at he
    rcases List.mem_append.mp he with he | he
    · exact h.finite e he
    · obtain ⟨c, i, j, hcr, hb, rfl, -⟩ := hnew e he
      exact hb.finite
  · intro i hi j hj hne
    dsimp only at hne ⊢
    have hne' : s.lab i ≠ s.lab j := fun e => hne (old_new i hi j hj e)
    refine (hlow' i hi).trans (max_le (h.low i hi j hj hne') ?_)
    obtain ⟨i', j', hb, e1, e2, e3⟩ := get _ (repOf i hi)
    rw [e3]
    exact hb.weight_le hi hj rfl (fun e => hne' ((hl.comp_eq hj hi).mp e).symm)
  · rw [List.length_append, List.length_map]
    omega
  · have := fixed_half hc
    omega

/-- What Kokkos guarantees about the schedules of one iteration on `n` points: each iteration of a
`parallel_for` is executed once. -/
structure Sched.Valid (n : ℕ) (sc : Sched) : Prop where
  radii : sc.radii.Perm (List.range (2 * (n - 1)))
  uni : sc.uni.Perm (List.range n)

/-- Every thread is given enough steps. -/
structure Sched.Fair (n : ℕ) (sc : Sched) : Prop where
  reduce : ∀ t < n, 3 * n ≤ (sc.reduce.map (·.1)).count t
  tail : ∀ t < n, 2 ≤ (sc.tail.map (·.1)).count t
  retr : ∀ t < n, 2 ≤ (sc.retr.map (·.1)).count t
  upd : ∀ t < n, 2 * n + 4 ≤ (sc.upd.map (·.1)).count t

omit [SemilatticeSup V] in
lemma other_of_two (h2 : 2 ≤ numReps n lab) (c : ℕ) : ∃ b < n, comp lab b ≠ c := by
  by_contra hno
  push Not at hno
  have : ∀ d ∈ (List.range n).filter (fun c => comp lab c = c), d = c := by
    intro d hd
    obtain ⟨h1, h3⟩ := List.mem_filter.mp hd
    rw [decide_eq_true_eq] at h3
    rw [← h3]
    exact hno d (List.mem_range.mp h1)
  have hnd : ((List.range n).filter (fun c => comp lab c = c)).Nodup := List.Nodup.filter _ List.nodup_range
  unfold numReps at h2
  generalize (List.range n).filter (fun c => comp lab c = c) = L at this hnd h2
  match L, h2 with
  | a :: b :: L, _ =>
    have e1 := this a (by simp)
    have e2 := this b (by simp)
    rw [e1, e2] at hnd
    simp at hnd

omit [SemilatticeSup V] in
lemma best_of_two (hlink : Linked P value n) (h2 : 2 ≤ numReps n lab) {c : ℕ} (hc : Rep n lab c) :
    ∃ i j, Best P value n lab c i j := by
  apply Best.exists
  obtain ⟨b, hb, hbc⟩ := other_of_two h2 c
  exact hlink (fun i => comp lab i = c) ⟨c, hc.1, hc.2⟩ ⟨b, hb, hbc⟩

lemma layout_lt {mem : Mem ℕ V} {vol : ℕ → V} (S : BTree) : ∀ id r, Layout mem value vol S id r →
    ∀ j ∈ S.leaves, j < mem.size := by
  induction S with
  | leaf k =>
    rintro id r ⟨rfl, hlt, -⟩ j hj
    simp only [BTree.leaves, List.mem_singleton] at hj
    rw [hj]; exact hlt
  | node a b iha ihb =>
    rintro id r ⟨ia, ib, -, -, ha, hb⟩ j hj
    simp only [BTree.leaves, List.mem_append] at hj
    rcases hj with hj | hj
    · exact iha _ _ ha j hj
    · exact ihb _ _ hb j hj

variable {w : ℕ} [OrderBot V]

open BVH in
/-- The edges chosen in one iteration. -/
lemma choose_spec (I : Input ℕ V w) (hI : I.Valid) (hn : 2 ≤ I.n) (had : P.Admissible I.vol)
    (hset : Setting P (fun i => I.values (I.perm i)) I.n) (hcap : Nearest.StackFits I P.cap)
    (schedB : List ℕ) (hf : I.Finished schedB) {ordP : List ℕ} (hoP : ordP.Perm (List.range (2 * I.n - 2)))
    {fuel : ℕ} (hfuel : 2 * I.n ≤ fuel) {par : ℕ → Option ℕ}
    (hpar : Labels.findParents (I.build schedB) ordP = some par) {sc : Sched} (hsc : sc.Valid I.n) {s : State W}
    (hinv : IterInv P (fun i => I.values (I.perm i)) I.n s) :
    (choose P (I.build schedB) par fuel sc s = .running ∧ ¬ sc.Fair I.n) ∨
    ∃ r, choose P (I.build schedB) par fuel sc s = .ok r ∧ (∀ i < I.n, r.lab i = s.lab i) ∧
      (∀ c i j, Best P (fun i => I.values (I.perm i)) I.n r.lab c i j →
        r.out c = cand P (fun i => I.values (I.perm i)) i j) ∧
      (∀ i < I.n, r.lower i ≤ max (s.lower i) (r.out (comp r.lab i)).weight) ∧
      (∀ c, Rep I.n r.lab c → Isolated P (fun i => I.values (I.perm i)) I.n r.lab c → (r.out c).key = BitVec.allOnes 64) := by
  set value := fun i => I.values (I.perm i) with hval
  have hsz := build_size I schedB
  have hv : ∀ i < I.n, s.lab i ≠ -1 ∧ s.lab i ≠ -2 := by
    intro i hi
    have := hinv.lbl.nonneg i hi
    exact ⟨by omega, by omega⟩
  obtain ⟨T, hT, hcart⟩ : ∃ T, WellFormed (I.build schedB) value I.vol T ∧ Nearest.need T < P.cap := by
    obtain ⟨T, h1, hT⟩ := build_cartesian I hI hn
    exact ⟨T, hT schedB hf, hcap T h1⟩
  have hleaves : ∀ i < I.n, Layout (I.build schedB) value I.vol (.leaf i) i ((I.build schedB).leaf i |>.map (·.rope) |>.getD none) := by
    intro i hi
    obtain ⟨r, hr⟩ := Nearest.layout_leaf T _ _ hT.2 i (by rw [hT.1, hsz]; exact List.mem_range.mpr hi)
    refine ⟨rfl, by rw [hsz]; exact hi, ?_⟩
    rw [hr]; rfl
  have hleaf : ∀ i < I.n, ∃ lf, (I.build schedB).leaf i = some lf ∧ lf.value = value i := by
    intro i hi
    obtain ⟨r, hr⟩ := Nearest.layout_leaf T _ _ hT.2 i (by rw [hT.1, hsz]; exact List.mem_range.mpr hi)
    exact ⟨_, hr, rfl⟩
  -- labels of the nodes
  obtain ⟨par', hp1, hred⟩ := Labels.reduceLabels_correct I hI hn schedB hf ordP hoP s.lab hv
  obtain ⟨par'', hp2, hwait⟩ := Labels.reduceLabels_wait_free I hI hn schedB hf ordP hoP s.lab hv
  rw [hpar, Option.some.injEq] at hp1 hp2
  subst hp1
  subst hp2
  obtain ⟨hnf, hlabs⟩ := hred sc.reduce
  have hwait := hwait sc.reduce
  unfold choose
  dsimp only
  rw [hsz]
  set red := Labels.wrun I.n par s.lab sc.reduce with hredd
  rw [if_neg (by
    rw [List.any_eq_true]
    rintro ⟨t, h1, h2⟩
    exact hnf t (List.mem_range.mp h1) (of_decide_eq_true h2))]
  by_cases hdone : ∀ t < I.n, red.thr t = .done
  swap
  · rw [if_pos]
    · refine .inl ⟨rfl, fun hfair => hdone (fun t ht => hwait t ht (hfair.reduce t ht))⟩
    · rw [Bool.not_eq_true', ← Bool.not_eq_true, List.all_eq_true]
      intro hh
      exact hdone (fun t ht => of_decide_eq_true (hh t (List.mem_range.mpr ht)))
  rw [if_neg (by
    rw [Bool.not_eq_true', ← Bool.not_eq_true, List.all_eq_true, not_not]
    intro t ht
    exact decide_eq_true (hdone t (List.mem_range.mp ht)))]
  have hlabs := hlabs hdone
  have hlf : ∀ i < I.n, red.lab i = s.lab i := by
    intro i hi
    exact (hlabs _ i _ (hleaves i hi)).1 (s.lab i) (by simp [BTree.leaves])
  have hlok : ∀ i < I.n, LabelsOk (I.build schedB) value I.vol red.lab i := by
    intro i hi S id r hS heq j hj
    have hj' : j < I.n := by
      rw [← hsz]
      exact layout_lt S id r hS j hj
    rw [hlf i hi] at heq ⊢
    rw [hlf j hj']
    by_contra hne
    by_cases hall : ∀ k ∈ S.leaves, s.lab k = s.lab j
    · exact hne (heq.trans ((hlabs S id r hS).1 _ hall))
    · push Not at hall
      obtain ⟨k, hk, hkj⟩ := hall
      rw [(hlabs S id r hS).2 k hk j hj hkj] at heq
      exact (hv i hi).1 heq
  -- the labels of the leaves are the old ones
  have hcomp : ∀ i < I.n, comp red.lab i = comp s.lab i := by
    intro i hi; unfold comp; rw [hlf i hi]
  have hl : Labelling I.n red.lab := by
    have hl0 := hinv.lbl
    refine ⟨fun i hi => by rw [hlf i hi]; exact hl0.nonneg i hi, fun i hi => by rw [hcomp i hi]; exact hl0.lt i hi,
      fun i hi => ?_⟩
    rw [hcomp i hi, hlf i hi, hlf _ (hl0.lt i hi)]
    exact hl0.idem i hi
  have hreps : numReps I.n red.lab = numReps I.n s.lab := by
    unfold numReps
    congr 1
    apply List.filter_congr
    intro c hc
    rw [hcomp c (List.mem_range.mp hc)]
  have hinv' : IterInv P value I.n ⟨red.lab, s.lower, s.edges⟩ := by
    refine ⟨hl, ?_, ?_, hinv.edge, hinv.finite, ?_⟩
    · dsimp only; rw [hreps]; exact hinv.count
    · intro u hu v hv'
      dsimp only
      rw [hlf u hu, hlf v hv']
      exact hinv.conn u hu v hv'
    · intro i hi j hj
      dsimp only
      rw [hlf i hi, hlf j hj]
      exact hinv.low i hi j hj
  -- radii
  obtain ⟨radii, er, hr⟩ := resetRadii_spec (mem := I.build schedB) hleaf hset hl (ord := sc.radii)
    (fun k hk => List.mem_range.mp (hsc.radii.subset hk))
  rw [er]
  dsimp only
  -- searches
  obtain ⟨best, es, hfound⟩ : ∃ best, (if P.shared then searchSerial P (I.build schedB) red.lab s.lower fuel radii
      else searchPar P (I.build schedB) red.lab fuel radii) = some best ∧ Found P value I.n red.lab best := by
    have hn' : 2 ≤ (I.build schedB).size := hsz.symm ▸ hn
    have hfuel' : 2 * (I.build schedB).size ≤ fuel := hsz.symm ▸ hfuel
    have hset' : Setting P value (I.build schedB).size := hsz.symm ▸ hset
    have hlok' : ∀ i < (I.build schedB).size, LabelsOk (I.build schedB) value I.vol red.lab i := hsz.symm ▸ hlok
    have hl' : Labelling (I.build schedB).size red.lab := hsz.symm ▸ hl
    rw [← hsz] at hr ⊢
    have hlo := hinv'.low
    rw [← hsz] at hlo
    split_ifs
    · exact searchSerial_spec hT hn' had hcart hfuel' hlok' hset' hl' hr hlo
    · exact searchPar_spec hT hn' had hcart hfuel' hlok' hset' hl' hr
  rw [es]
  dsimp only
  obtain ⟨htl, htf⟩ := tail_spec hl hfound sc.tail
  set tl := tail I.n red.lab best sc.tail with htld
  by_cases hdone2 : ∀ t < I.n, tl.thr t = .done
  swap
  · rw [if_pos]
    · refine .inl ⟨rfl, fun hfair => hdone2 (fun t ht => htf t ht (hfair.tail t ht))⟩
    · rw [Bool.not_eq_true', ← Bool.not_eq_true, List.all_eq_true]
      intro hh
      exact hdone2 (fun t ht => of_decide_eq_true (hh t (List.mem_range.mpr ht)))
  rw [if_neg (by
    rw [Bool.not_eq_true', ← Bool.not_eq_true, List.all_eq_true, not_not]
    intro t ht
    exact decide_eq_true (hdone2 t (List.mem_range.mp ht)))]
  have hwg : Weighed P value I.n red.lab tl.weights tl.out := by
    refine ⟨?_, ?_, ?_⟩
    · intro t ht
      rcases htl.out t ht with e | e
      · exact .inl e
      · exact hfound.out t ht _ e
    · intro c i j hb; exact (htl.fin c i j hb (hdone2 i hb.ilt)).1
    · intro c i j hb; exact (htl.fin c i j hb (hdone2 i hb.ilt)).2
  obtain ⟨-, hrf⟩ := retrieve_spec hset hl hwg sc.retr
  have hrb := fun hd => fun c i j hb => retrieve_best hset hl hwg sc.retr hd (c := c) (i := i) (j := j) hb
  set rt := retrieve I.n red.lab tl.weights tl.out sc.retr with hrtd
  by_cases hdone3 : ∀ t < I.n, rt.thr t = .done
  swap
  · rw [if_pos]
    · refine .inl ⟨rfl, fun hfair => hdone3 (fun t ht => hrf t ht (hfair.retr t ht))⟩
    · rw [Bool.not_eq_true', ← Bool.not_eq_true, List.all_eq_true]
      intro hh
      exact hdone3 (fun t ht => of_decide_eq_true (hh t (List.mem_range.mpr ht)))
  rw [if_neg (by
    rw [Bool.not_eq_true', ← Bool.not_eq_true, List.all_eq_true, not_not]
    intro t ht
    exact decide_eq_true (hdone3 t (List.mem_range.mp ht)))]
  refine .inr ⟨_, rfl, hlf, hrb hdone3, fun i hi => ?_, ?_⟩
  · dsimp only
    split_ifs
    · exact le_rfl
    · exact le_max_left _ _
  · intro c hc hiso
    refine retrieve_isolated hl (c := c) (fun a ha hac => ?_) sc.retr c hc.1 hc.2
    rw [htld, tail_isolated (c := c) (fun b hb hbc e he => ?_) sc.tail a ha hac]
    · rfl
    · rcases hfound.out b hb e he with rfl | ⟨j, hj, hne, rfl⟩
      · rfl
      · refine hiso b hb j hj hbc (fun e => hne ?_)
        exact (hl.comp_eq hb hj).mp (hbc.trans e.symm)

omit [SemilatticeSup V] [OrderBot V] in
/-- The invariant does not depend on the labels of the internal nodes. -/
lemma IterInv.relabel {s : State W} (hinv : IterInv P value n s) {lab : ℕ → ℤ} (hlf : ∀ i < n, lab i = s.lab i) :
    IterInv P value n ⟨lab, s.lower, s.edges⟩ ∧ numReps n lab = numReps n s.lab := by
  have hcomp : ∀ i < n, comp lab i = comp s.lab i := by
    intro i hi; unfold comp; rw [hlf i hi]
  have hl : Labelling n lab := by
    have hl0 := hinv.lbl
    refine ⟨fun i hi => by rw [hlf i hi]; exact hl0.nonneg i hi, fun i hi => by rw [hcomp i hi]; exact hl0.lt i hi,
      fun i hi => ?_⟩
    rw [hcomp i hi, hlf i hi, hlf _ (hl0.lt i hi)]
    exact hl0.idem i hi
  have hreps : numReps n lab = numReps n s.lab := by
    unfold numReps
    congr 1
    apply List.filter_congr
    intro c hc
    rw [hcomp c (List.mem_range.mp hc)]
  refine ⟨⟨hl, ?_, ?_, hinv.edge, hinv.finite, ?_⟩, hreps⟩
  · dsimp only; rw [hreps]; exact hinv.count
  · intro u hu v hv'
    dsimp only
    rw [hlf u hu, hlf v hv']
    exact hinv.conn u hu v hv'
  · intro i hi j hj
    dsimp only
    rw [hlf i hi, hlf j hj]
    exact hinv.low i hi j hj

omit [SemilatticeSup V] [OrderBot V] in
/-- The components after an iteration. -/
lemma merge_spec (hset : Setting P value n) {r : Chosen W} (hl : Labelling n r.lab)
    (hbest : ∀ c, Rep n r.lab c → ∃ i j, Best P value n r.lab c i j)
    (hrb : ∀ c i j, Best P value n r.lab c i j → r.out c = cand P value i j) (sc : Sched)
    (edges : List (WeightedEdge W)) :
    (merge n sc r edges = .running ∧ ¬ sc.Fair n) ∨
    ∃ lab', merge n sc r edges = .ok ⟨lab', r.lower, edges⟩ ∧
      ∀ i < n, lab' i = (fin n (nbr r.lab r.out) (comp r.lab i) : ℕ) := by
  have hch := chain hset hl hbest hrb
  have htg : ∀ c, Rep n r.lab c → (r.out c).target < n := by
    intro c hc
    obtain ⟨i, j, hb⟩ := hbest c hc
    rw [hrb c i j hb, (cand_ends hset hb.ilt hb.jlt).2.1]
    exact hb.jlt
  obtain ⟨hui, huf⟩ := updateLabels_spec hl hch htg sc.upd
  unfold merge
  dsimp only
  set up := updateLabels n r.lab r.out sc.upd with hupd
  rw [if_neg (by
    rw [List.any_eq_true]
    rintro ⟨t, h1, h2⟩
    have := hui.ok t (List.mem_range.mp h1)
    rw [of_decide_eq_true h2] at this
    exact this)]
  by_cases hdone4 : ∀ t < n, up.thr t = .done
  swap
  · rw [if_pos]
    · refine .inl ⟨rfl, fun hfair => hdone4 (fun t ht => huf t ht (hfair.upd t ht))⟩
    · rw [Bool.not_eq_true', ← Bool.not_eq_true, List.all_eq_true]
      intro hh
      exact hdone4 (fun t ht => of_decide_eq_true (hh t (List.mem_range.mpr ht)))
  rw [if_neg (by
    rw [Bool.not_eq_true', ← Bool.not_eq_true, List.all_eq_true, not_not]
    intro t ht
    exact decide_eq_true (hdone4 t (List.mem_range.mp ht)))]
  exact .inr ⟨_, rfl, fun i hi => hui.new i hi (hdone4 i hi)⟩

open BVH in
/-- One iteration. -/
lemma iteration_spec (I : Input ℕ V w) (hI : I.Valid) (hn : 2 ≤ I.n) (had : P.Admissible I.vol)
    (hset : Setting P (fun i => I.values (I.perm i)) I.n) (hcap : Nearest.StackFits I P.cap)
    (schedB : List ℕ) (hf : I.Finished schedB) {ordP : List ℕ} (hoP : ordP.Perm (List.range (2 * I.n - 2)))
    {fuel : ℕ} (hfuel : 2 * I.n ≤ fuel) {par : ℕ → Option ℕ}
    (hpar : Labels.findParents (I.build schedB) ordP = some par) {sc : Sched} (hsc : sc.Valid I.n) {s : State W}
    (hinv : IterInv P (fun i => I.values (I.perm i)) I.n s) (h2 : 2 ≤ numReps I.n s.lab) :
    (iteration P (I.build schedB) par fuel sc s = .running ∧ ¬ sc.Fair I.n) ∨
    (¬ Linked P (fun i => I.values (I.perm i)) I.n ∧
      (I.n < 2 ^ 31 → iteration P (I.build schedB) par fuel sc s = .fault)) ∨
    ∃ s', iteration P (I.build schedB) par fuel sc s = .ok s' ∧
      IterInv P (fun i => I.values (I.perm i)) I.n s' ∧ 2 * numReps I.n s'.lab ≤ numReps I.n s.lab := by
  rcases choose_spec I hI hn had hset hcap schedB hf hoP hfuel hpar hsc hinv with ⟨e, hnf⟩ | ⟨r, e, hlf, hrb, hlow, hall⟩
  · left
    unfold iteration
    rw [e]
    exact ⟨rfl, hnf⟩
  obtain ⟨hinv', hreps⟩ := hinv.relabel hlf
  by_cases hex : ∃ c, Rep I.n r.lab c ∧ Isolated P (fun i => I.values (I.perm i)) I.n r.lab c
  · obtain ⟨c, hc, hiso⟩ := hex
    refine .inr (.inl ⟨fun hlink => ?_, fun hlt => ?_⟩)
    · obtain ⟨b, hb, hbc⟩ := other_of_two (by rw [hreps]; exact h2) c
      obtain ⟨x, hx, y, hy, h1, h2, hlt⟩ := hlink (fun i => comp r.lab i = c) ⟨c, hc.1, hc.2⟩ ⟨b, hb, hbc⟩
      exact hlt.ne (hiso x hx y hy h1 h2)
    unfold iteration
    rw [e]
    simp only [Outcome.bind]
    have hlc : r.lab c = c := by
      have := hinv'.lbl.cast hc.1
      rw [hc.2] at this
      exact this.symm
    rw [build_size, append_none hlc (by
      unfold nextComp
      dsimp only
      rw [if_pos (by rw [target_allOnes (hall c hc hiso)]; omega)]) (hsc.uni.symm.subset (List.mem_range.mpr hc.1)) _]
  have hbest : ∀ c, Rep I.n r.lab c → ∃ i j, Best P (fun i => I.values (I.perm i)) I.n r.lab c i j := by
    intro c hc
    apply Best.exists
    by_contra hno
    push Not at hno
    exact hex ⟨c, hc, fun a ha b hb h1 h2 => top_le_iff.mp (hno a ha b hb h1 h2)⟩
  have happ := (hinv'.merge (lab' := fun i => (fin I.n (nbr r.lab r.out) (comp r.lab i) : ℕ)) (lower' := s.lower) hset
    (by omega) hbest hrb hsc.uni (fun _ _ => rfl) (fun _ _ => le_max_left _ _)).1
  unfold iteration
  rw [e]
  simp only [Outcome.bind]
  rw [build_size, happ]
  dsimp only
  rcases merge_spec hset hinv'.lbl hbest hrb sc
    (s.edges ++ (sc.uni.filter (moving r.lab (nbr r.lab r.out))).map (newEdge r.out)) with ⟨em, hnf⟩ | ⟨lab', em, hlab'⟩
  · rw [em]
    exact .inl ⟨rfl, hnf⟩
  · rw [em]
    refine .inr (.inr ?_)
    obtain ⟨-, m1, -, m3⟩ := hinv'.merge hset (by omega) hbest hrb hsc.uni hlab' hlow
    exact ⟨_, rfl, m1, m3.trans hreps.le⟩

end ArborX.Boruvka
