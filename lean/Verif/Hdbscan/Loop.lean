import Verif.Hdbscan.Hist

/-!
# The loop in mode `HDBSCAN` (lemmas)
-/

namespace ArborX.Hdbscan

open Function (update)
open Boruvka
open Mst (DirectedEdge WeightedEdge)
open Graph (Conn SpanningTree)
open BVH (Input build_size)

variable {V W : Type} [LinearOrder W] [BoundedOrder W] [SemilatticeSup V]
variable {P : Points V W} {value : ℕ → ℕ} {n : ℕ}

lemma numReps_pos {lab : ℕ → ℤ} (hl : Labelling n lab) (hn : 0 < n) : 0 < numReps n lab := by
  unfold numReps
  apply List.length_pos_of_mem (a := comp lab 0)
  rw [List.mem_filter, List.mem_range]
  exact ⟨hl.lt 0 hn, by simp [hl.comp_idem hn]⟩

omit [SemilatticeSup V] in
/-- The mapping after both kernels: every component has its shortest outgoing edge. -/
lemma mapping_spec (hset : Setting P value n) {lab : ℕ → ℤ} {out : ℕ → DirectedEdge W} (hl : Labelling n lab)
    (hbest : ∀ c, Rep n lab c → ∃ i j, Best P value n lab c i j)
    (hout : ∀ c i j, Best P value n lab c i j → out c = cand P value i j)
    {ord ordB : List ℕ} (ho : ord.Perm (List.range n)) (hoB : ordB.Perm (List.range n))
    (E : List (WeightedEdge W)) (map : ℕ → Option ℕ)
    (hlen : E.length + (ord.filter (moving lab (nbr lab out))).length ≤ n - 1) :
    ∃ map' map'', mapEdges n lab out E map ord =
        some (E ++ (ord.filter (moving lab (nbr lab out))).map (newEdge out), map') ∧
      biEdges n lab out map' ordB = some map'' ∧
      (∀ c, Rep n lab c → ∃ a, map'' c = some a ∧ E.length ≤ a ∧
        a < (E ++ (ord.filter (moving lab (nbr lab out))).map (newEdge out)).length ∧
        ∃ i j, Best P value n lab c i j ∧
          ((srcAt (E ++ (ord.filter (moving lab (nbr lab out))).map (newEdge out)) a = i ∧
            tgtAt (E ++ (ord.filter (moving lab (nbr lab out))).map (newEdge out)) a = j) ∨
          (srcAt (E ++ (ord.filter (moving lab (nbr lab out))).map (newEdge out)) a = j ∧
            tgtAt (E ++ (ord.filter (moving lab (nbr lab out))).map (newEdge out)) a = i))) ∧
      (∀ a, E.length ≤ a → a < (E ++ (ord.filter (moving lab (nbr lab out))).map (newEdge out)).length →
        map'' (comp lab (srcAt (E ++ (ord.filter (moving lab (nbr lab out))).map (newEdge out)) a)) = some a) := by
  have hc := chain hset hl hbest hout
  set N := nbr lab out with hN
  set F := ord.filter (moving lab N) with hF
  have get : ∀ c, Rep n lab c → ∃ i j, Best P value n lab c i j ∧ (out c).source = i ∧ (out c).target = j := by
    intro c hc
    obtain ⟨i, j, hb⟩ := hbest c hc
    obtain ⟨e1, e2, -⟩ := cand_ends hset hb.ilt hb.jlt
    exact ⟨i, j, hb, by rw [hout c i j hb]; exact e1, by rw [hout c i j hb]; exact e2⟩
  have ht : ∀ c, Rep n lab c → (out c).target < n := by
    intro c hc
    obtain ⟨i, j, hb, -, e⟩ := get c hc
    rw [e]; exact hb.jlt
  have hlt : ∀ i ∈ ord, i < n := fun i hi => List.mem_range.mp (ho.subset hi)
  have hnd : ord.Nodup := ho.nodup_iff.mpr List.nodup_range
  obtain ⟨map', m1, m2, -⟩ := mapEdges_spec hl ht hc.closed ord E map hlt hnd hlen
  have memF : ∀ c, Rep n lab c → nextOf N c ≠ c → ∃ q : ℕ, F[q]? = some c := by
    intro c hcr hne
    have : c ∈ F := by
      rw [hF, List.mem_filter]
      refine ⟨ho.symm.subset (List.mem_range.mpr hcr.1), ?_⟩
      unfold moving
      rw [decide_eq_true_eq]
      exact ⟨hcr.2, hne⟩
    exact List.mem_iff_getElem?.mp this
  have Frep : ∀ {q c : ℕ}, F[q]? = some c → Rep n lab c ∧ nextOf N c ≠ c ∧ q < F.length := by
    intro q c hq
    have hm := List.mem_of_getElem? hq
    rw [hF, List.mem_filter] at hm
    have h2 := hm.2
    unfold moving at h2
    rw [decide_eq_true_eq] at h2
    refine ⟨⟨hlt c hm.1, h2.1⟩, h2.2, ?_⟩
    by_contra hge
    rw [List.getElem?_eq_none (not_lt.mp hge)] at hq
    cases hq
  have at_new : ∀ {q c : ℕ}, F[q]? = some c → edgeAt (E ++ F.map (newEdge out)) (E.length + q) = newEdge out c := by
    intro q c hq
    unfold edgeAt
    rw [List.getD_eq_getElem?_getD, List.getElem?_append_right (by omega), Nat.add_sub_cancel_left, List.getElem?_map, hq]
    rfl
  have hfix : ∀ c, Rep n lab c → nextOf N c = c → nextOf N (N c) ≠ N c := by
    intro c hcr hf hf'
    obtain ⟨a1, a2⟩ := hc.fixed hcr hf
    obtain ⟨b1, b2⟩ := hc.fixed (hc.closed c hcr) hf'
    rw [a1] at b2
    omega
  obtain ⟨map'', b1, b2, b3⟩ := biEdges_spec hl ht hc.closed hfix ordB map'
    (fun i hi => List.mem_range.mp (hoB.subset hi)) (by
      intro c hcr hf
      obtain ⟨q, hq⟩ := memF _ (hc.closed c hcr) (hfix c hcr hf)
      rw [m2 q _ hq]
      rfl)
  have hlenE : (E ++ F.map (newEdge out)).length = E.length + F.length := by
    rw [List.length_append, List.length_map]
  have hmv : ∀ {q c : ℕ}, F[q]? = some c → map'' c = some (E.length + q) := by
    intro q c hq
    rw [b3 c (fun h => (Frep hq).2.1 h.2.2)]
    exact m2 q c hq
  refine ⟨map', map'', m1, b1, ?_, ?_⟩
  · intro c hcr
    by_cases hf : nextOf N c = c
    · obtain ⟨q, hq⟩ := memF _ (hc.closed c hcr) (hfix c hcr hf)
      have hm : map'' c = some (E.length + q) := by
        rw [b2 c (hoB.symm.subset (List.mem_range.mpr hcr.1)) hcr hf]
        exact m2 q _ hq
      obtain ⟨i, j, hb, e1, e2⟩ := get c hcr
      obtain ⟨i', j', hb', e1', e2'⟩ := get _ (hc.closed c hcr)
      have hnn := (hc.fixed hcr hf).1
      have hk := ekey_edgeKey (P := P) (value := value) hset.symm
      have hNc : N c = comp lab j := by rw [hN]; unfold nbr; rw [e2]
      have hNN : comp lab j' = c := by
        rw [← e2']; exact hnn
      have h1 : ekey P value (i', j') ≤ ekey P value (i, j) := by
        rw [hk.symm i j]
        exact hb'.min j hb.jlt i hb.ilt hNc.symm (by rw [hNc, hb.inside]; exact hb.outside.symm)
      have h2 : ekey P value (i, j) ≤ ekey P value (i', j') := by
        rw [hk.symm i' j']
        exact hb.min j' hb'.jlt i' hb'.ilt hNN (by rw [hb'.inside]; exact hc.ne c hcr)
      have hij : i' = j ∧ j' = i := by
        rcases hk.inj _ _ _ _ (le_antisymm h1 h2) with ⟨a, b⟩ | ⟨a, b⟩
        · exfalso
          apply hc.ne c hcr
          rw [← hb'.inside, a, hb.inside]
        · exact ⟨a, b⟩
      refine ⟨E.length + q, hm, by omega, by rw [hlenE]; have := (Frep hq).2.2; omega, i, j, hb, .inr ?_⟩
      unfold srcAt tgtAt
      rw [at_new hq]
      exact ⟨by unfold newEdge; rw [← hij.1]; exact e1', by unfold newEdge; rw [← hij.2]; exact e2'⟩
    · obtain ⟨q, hq⟩ := memF c hcr hf
      obtain ⟨i, j, hb, e1, e2⟩ := get c hcr
      refine ⟨E.length + q, hmv hq, by omega, by rw [hlenE]; have := (Frep hq).2.2; omega, i, j, hb, .inl ?_⟩
      unfold srcAt tgtAt
      rw [at_new hq]
      exact ⟨e1, e2⟩
  · intro a h1 h2
    obtain ⟨q, rfl⟩ := Nat.exists_eq_add_of_le h1
    rw [hlenE] at h2
    have hq : F[q]? = some (F[q]'(by omega)) := List.getElem?_eq_getElem (by omega)
    obtain ⟨hr, -⟩ := Frep hq
    obtain ⟨i, j, hb, e1, e2⟩ := get _ hr
    have : comp lab (srcAt (E ++ F.map (newEdge out)) (E.length + q)) = F[q]'(by omega) := by
      unfold srcAt
      rw [at_new hq]
      unfold newEdge
      dsimp only
      rw [e1]
      exact hb.inside
    rw [this]
    exact hmv hq

/-- What holds after `k` iterations. -/
structure HInv (P : Points V W) (value : ℕ → ℕ) (n k : ℕ) (off : ℕ → ℕ) (lab : ℕ → ℕ → ℕ) (α : ℕ → ℕ → ℕ)
    (s : HState W) : Prop where
  base : IterInv P value n s.base
  hist : Hist P value n k off lab α s.base.edges
  last : off k = s.base.edges.length
  stop : s.stop = off k
  start : s.start = off (k - 1)
  lab_last : ∀ v < n, lab k v = comp s.base.lab v
  sided : SidedOk P value k off lab α s.base.edges s.sided
  par : 0 < k → ∀ v < n, s.par (value v + (n - 1)) = some (α 0 v : ℤ)

omit [SemilatticeSup V] in
/-- The history of one more iteration. -/
lemma HInv.extend {k : ℕ} {off : ℕ → ℕ} {lab α : ℕ → ℕ → ℕ} {s : HState W} (h : HInv P value n k off lab α s)
    {F : List (WeightedEdge W)} (hF : 0 < F.length) {map : ℕ → Option ℕ} {lab' : ℕ → ℤ} {lower' : ℕ → W}
    {rlab : ℕ → ℤ} (hrl : ∀ i < n, comp rlab i = comp s.base.lab i) (hl : Labelling n rlab)
    (hb : IterInv P value n ⟨lab', lower', s.base.edges ++ F⟩)
    (hmap : ∀ c, Rep n rlab c → ∃ a, map c = some a ∧ s.base.edges.length ≤ a ∧ a < (s.base.edges ++ F).length ∧
        ∃ i j, Best P value n rlab c i j ∧
          ((srcAt (s.base.edges ++ F) a = i ∧ tgtAt (s.base.edges ++ F) a = j) ∨
          (srcAt (s.base.edges ++ F) a = j ∧ tgtAt (s.base.edges ++ F) a = i)))
    (honto : ∀ a, s.base.edges.length ≤ a → a < (s.base.edges ++ F).length →
        map (comp rlab (srcAt (s.base.edges ++ F) a)) = some a) :
    Hist P value n (k + 1) (update off (k + 1) (s.base.edges ++ F).length) (update lab (k + 1) (comp lab'))
      (update α k (fun c => (map c).getD 0)) (s.base.edges ++ F) := by
  have hA := h.hist.append F
  set E := s.base.edges with hE
  set E' := E ++ F with hE'
  have hlen : E'.length = E.length + F.length := List.length_append
  have hlast : off k = E.length := h.last
  have rep : ∀ v < n, Rep n rlab (comp rlab v) := fun v hv => ⟨hl.lt v hv, hl.comp_idem hv⟩
  have hoff : ∀ j ≤ k, update off (k + 1) E'.length j = off j := fun j hj =>
    Function.update_of_ne (by omega) _ _
  have hlab : ∀ j ≤ k, update lab (k + 1) (comp lab') j = lab j := fun j hj =>
    Function.update_of_ne (by omega) _ _
  have hα : ∀ j < k, update α k (fun c => (map c).getD 0) j = α j := fun j hj =>
    Function.update_of_ne (by omega) _ _
  have hαk : update α k (fun c => (map c).getD 0) k = fun c => (map c).getD 0 := Function.update_self _ _ _
  have hlabk : ∀ v < n, lab k v = comp rlab v := fun v hv => by rw [h.lab_last v hv, hrl v hv]
  refine ⟨?_, ?_, ?_, ?_, ?_, ?_, ?_, ?_⟩
  · rw [hoff 0 (by omega)]; exact hA.off_zero
  · intro j hj
    rcases Nat.lt_succ_iff_lt_or_eq.mp hj with hj | rfl
    · rw [hoff j (by omega), hoff (j + 1) (by omega)]; exact hA.off_lt j hj
    · rw [hoff j le_rfl, Function.update_self, hlast, hlen]; omega
  · rw [Function.update_self]
  · intro v hv
    rw [hlab 0 (by omega)]; exact hA.lab_zero v hv
  · intro j hj u hu v hv
    rcases Nat.le_succ_iff.mp hj with hj | rfl
    · rw [hoff j hj, hlab j hj]; exact hA.conn j hj u hu v hv
    · rw [Function.update_self, Function.update_self, List.take_length]
      rw [hb.conn u hu v hv, hb.lbl.comp_eq hu hv]
  · intro j hj v hv
    rcases Nat.lt_succ_iff_lt_or_eq.mp hj with hj | rfl
    · rw [hoff j (by omega), hoff (j + 1) (by omega), hlab j (by omega), hα j hj]; exact hA.alpha_mem j hj v hv
    · rw [hoff j le_rfl, hlab j le_rfl, hαk, Function.update_self, hlabk v hv, h.last]
      obtain ⟨a, e, h1, h2, -⟩ := hmap _ (rep v hv)
      dsimp only
      rw [e]
      exact ⟨h1, h2⟩
  · intro j hj v hv
    rcases Nat.lt_succ_iff_lt_or_eq.mp hj with hj | rfl
    · rw [hlab j (by omega), hα j hj]; exact hA.alpha_best j hj v hv
    · rw [hlab j le_rfl, hαk, hlabk v hv]
      obtain ⟨a, e, -, -, x, y, hxy, hends⟩ := hmap _ (rep v hv)
      dsimp only
      rw [e]
      refine ⟨x, hxy.ilt, y, hxy.jlt, hends, ?_, ?_, ?_⟩
      · rw [hlabk x hxy.ilt]; exact hxy.inside
      · rw [hlabk y hxy.jlt]; exact hxy.outside
      · intro p hp q hq h1 h2
        rw [hlabk p hp] at h1
        rw [hlabk q hq] at h2
        exact hxy.min p hp q hq h1 h2
  · intro j hj e h1 h2
    rcases Nat.lt_succ_iff_lt_or_eq.mp hj with hj | rfl
    · rw [hoff j (by omega)] at h1
      rw [hoff (j + 1) (by omega)] at h2
      rw [hlab j (by omega), hα j hj]; exact hA.onto j hj e h1 h2
    · rw [hoff j le_rfl, h.last] at h1
      rw [Function.update_self] at h2
      have hs : srcAt E' e < n := (hb.edge _ (edgeAt_mem h2)).1
      rw [hlab j le_rfl, hαk, hlabk _ hs]
      dsimp only
      rw [honto e h1 h2]
      rfl

omit [SemilatticeSup V] in
/-- `updateSidedParents`. -/
lemma HInv.sided_step {k : ℕ} {off : ℕ → ℕ} {lab α : ℕ → ℕ → ℕ} {s : HState W} (h : HInv P value n k off lab α s)
    (hbig : n ≤ 2 ^ 30) (hk : 0 < k)
    {F : List (WeightedEdge W)} {map : ℕ → Option ℕ} {lab' : ℕ → ℤ} {lower' : ℕ → W}
    {rlab : ℕ → ℤ} (hrl : ∀ i < n, comp rlab i = comp s.base.lab i)
    (hb : IterInv P value n ⟨lab', lower', s.base.edges ++ F⟩)
    (hs : ∀ c, Rep n rlab c → (map c).isSome) (hl : Labelling n rlab)
    (H : Hist P value n (k + 1) (update off (k + 1) (s.base.edges ++ F).length) (update lab (k + 1) (comp lab'))
      (update α k (fun c => (map c).getD 0)) (s.base.edges ++ F)) :
    ∃ sided', updateSided n rlab (s.base.edges ++ F) map s.sided s.start s.stop = some sided' ∧
      SidedOk P value (k + 1) (update off (k + 1) (s.base.edges ++ F).length) (update lab (k + 1) (comp lab'))
        (update α k (fun c => (map c).getD 0)) (s.base.edges ++ F) sided' := by
  set E := s.base.edges with hE
  set E' := E ++ F with hE'
  have hlen : E'.length = E.length + F.length := List.length_append
  have hlast : off k = E.length := h.last
  have hlen' : E'.length ≤ n - 1 := by
    have h1 := hb.count
    dsimp only at h1
    by_cases hn : 0 < n
    · have := numReps_pos hb.lbl hn
      dsimp only at this
      omega
    · omega
  have hoff : ∀ j ≤ k, update off (k + 1) E'.length j = off j := fun j hj =>
    Function.update_of_ne (by omega) _ _
  have hlab : ∀ j ≤ k, update lab (k + 1) (comp lab') j = lab j := fun j hj =>
    Function.update_of_ne (by omega) _ _
  have hα : ∀ j < k, update α k (fun c => (map c).getD 0) j = α j := fun j hj =>
    Function.update_of_ne (by omega) _ _
  have hαk : update α k (fun c => (map c).getD 0) k = fun c => (map c).getD 0 := Function.update_self _ _ _
  have hlabk : ∀ v < n, lab k v = comp rlab v := fun v hv => by rw [h.lab_last v hv, hrl v hv]
  have val : ∀ e, off (k - 1) ≤ e → e < off k → sidedParent n rlab E' map e =
      some (sidedVal P value (update lab (k + 1) (comp lab')) (update α k (fun c => (map c).getD 0)) E' (k - 1) e) := by
    intro e h1 h2
    have he : e < E'.length := by omega
    obtain ⟨f1, f2, -, f4, -⟩ := hb.edge _ (edgeAt_mem he)
    change (edgeAt E' e).source < n at f1
    have f1' : srcAt E' e < n := f1
    have hrep : Rep n rlab (comp rlab (edgeAt E' e).source) := ⟨hl.lt _ f1, hl.comp_idem f1⟩
    obtain ⟨a, ha⟩ := Option.isSome_iff_exists.mp (hs _ hrep)
    have hkk : k - 1 + 1 = k := by omega
    have hαe : update α k (fun c => (map c).getD 0) k (lab k (srcAt E' e)) = a := by
      rw [hαk, hlabk _ f1']
      dsimp only
      change (map (comp rlab (edgeAt E' e).source)).getD 0 = a
      rw [ha]; rfl
    have hmem := H.alpha_mem k (by omega) (srcAt E' e) f1
    rw [hlab k le_rfl, hαe, Function.update_self] at hmem
    obtain ⟨g1, g2, -, g4, -⟩ := hb.edge _ (edgeAt_mem hmem.2)
    have g1' : srcAt E' a < n := g1
    unfold sidedParent sidedVal
    rw [edgeAt_get he]
    dsimp only
    rw [if_neg (by omega), ha]
    dsimp only
    rw [edgeAt_get hmem.2, hkk, hlab k le_rfl, hαe]
    dsimp only
    have hlt := lt_iff (P := P) (value := value) f4 g4
    have hkey : ∀ x, keyAt P value E' x = ekey P value ((edgeAt E' x).source, (edgeAt E' x).target) := fun _ => rfl
    rw [hkey e, hkey a]
    have hside : (comp rlab (edgeAt E' a).source = comp rlab (edgeAt E' e).source) ↔
        (lab k (srcAt E' a) = lab k (srcAt E' e)) := by
      rw [hlabk _ f1', hlabk _ g1']; rfl
    by_cases hh : (edgeAt E' e).lt (edgeAt E' a) = true
    · rw [if_pos hh, if_pos (hlt.mp hh)]
      have h31 : (2 : ℕ) ^ 31 = 2 * 2 ^ 30 := by norm_num
      by_cases hsd : comp rlab (edgeAt E' a).source = comp rlab (edgeAt E' e).source
      · rw [if_pos hsd, if_pos (hside.mp hsd), if_pos (by omega)]
      · rw [if_neg hsd, if_neg (hside.not.mp hsd), if_pos (by omega)]
    · rw [if_neg hh, if_neg (hlt.not.mp hh)]
  refine ⟨_, by
    unfold updateSided
    rw [if_pos]
    rw [List.all_eq_true]
    intro e he
    rw [List.mem_range'_1, h.start, h.stop] at he
    rw [val e he.1 (by have := h.hist.off_mono (by omega : k - 1 ≤ k) le_rfl; omega)]
    rfl, ?_⟩
  intro j hj e h1 h2
  rw [hoff j (by omega)] at h1
  rw [hoff (j + 1) (by omega)] at h2
  rw [h.start, h.stop]
  rcases Nat.lt_succ_iff_lt_or_eq.mp (by omega : j < k - 1 + 1) with hj' | rfl
  · have hle := h.hist.off_mono (by omega : j + 1 ≤ k - 1) (by omega)
    dsimp only
    rw [if_neg (by omega), h.sided j (by omega) e h1 h2]
    have hlt : e < E.length := by
      have := h.hist.off_mono (by omega : j + 1 ≤ k) le_rfl
      omega
    have hsrc : srcAt E e < n := (h.base.edge _ (edgeAt_mem hlt)).1
    have hmem := (h.hist.alpha_mem (j + 1) (by omega) (srcAt E e) hsrc).2
    have hm : α (j + 1) (lab (j + 1) (srcAt E e)) < E.length := by
      have := h.hist.off_mono (by omega : j + 1 + 1 ≤ k) le_rfl
      omega
    unfold sidedVal
    obtain ⟨k1, k2⟩ := keyAt_append (P := P) (value := value) (F := F) hlt
    obtain ⟨k3, k4⟩ := keyAt_append (P := P) (value := value) (F := F) hm
    rw [hlab (j + 1) (by omega), hα (j + 1) (by omega), k1, k2, k3, k4]
  · rw [show k - 1 + 1 = k by omega] at h2
    dsimp only
    rw [if_pos ⟨h1, h2⟩]
    exact val e h1 h2

variable {w : ℕ} [OrderBot V]

/-- What Kokkos guarantees about the schedules of one iteration. -/
structure HSched.Valid (n : ℕ) (sc : HSched) : Prop where
  base : sc.toSched.Valid n
  bi : sc.bi.Perm (List.range n)
  vert : sc.vert.Perm (List.range n)

omit [LinearOrder W] [BoundedOrder W] [SemilatticeSup V] [OrderBot V] in
lemma mapEdges_none {lab : ℕ → ℤ} {out : ℕ → DirectedEdge W} {a : ℕ} (hlab : lab a = a) (h : nextComp n lab out a = none)
    {ord : List ℕ} (ha : a ∈ ord) {edges : List (WeightedEdge W)} {map : ℕ → Option ℕ} :
    mapEdges n lab out edges map ord = none := by
  have hnone : ∀ ord : List ℕ, ord.foldl (fun o i => o.bind (fun s => mapStep n lab out s i)) none = none := by
    intro ord
    induction ord with
    | nil => rfl
    | cons x ord ih => rw [List.foldl_cons]; exact ih
  have key : ∀ (ord : List ℕ) (o : Option (List (WeightedEdge W) × (ℕ → Option ℕ))), a ∈ ord →
      ord.foldl (fun o i => o.bind (fun s => mapStep n lab out s i)) o = none := by
    intro ord
    induction ord with
    | nil => intro o h; cases h
    | cons x ord ih =>
      intro o hm
      rw [List.foldl_cons]
      rcases List.mem_cons.mp hm with rfl | hm
      · have : (o.bind fun s => mapStep n lab out s a) = none := by
          cases o with
          | none => rfl
          | some es =>
            rw [Option.bind_some]
            unfold mapStep
            rw [if_neg (by rw [hlab]; simp), h]
        rw [this]; exact hnone ord
      · exact ih _ hm
  exact key ord _ ha

/-- One iteration. -/
lemma hIteration_spec (I : Input ℕ V w) (hI : I.Valid) (hn : 2 ≤ I.n) (had : P.Admissible I.vol)
    (hset : Setting P (fun i => I.values (I.perm i)) I.n) (hbig : I.n ≤ 2 ^ 30) (hcap : Nearest.StackFits I P.cap)
    (hval : ∀ i < I.n, I.values (I.perm i) < I.n)
    (hinj : ∀ i < I.n, ∀ j < I.n, I.values (I.perm i) = I.values (I.perm j) → i = j)
    (schedB : List ℕ) (hf : I.Finished schedB) {ordP : List ℕ} (hoP : ordP.Perm (List.range (2 * I.n - 2)))
    {fuel : ℕ} (hfuel : 2 * I.n ≤ fuel) {par : ℕ → Option ℕ}
    (hpar : Labels.findParents (I.build schedB) ordP = some par) {sc : HSched} (hsc : sc.Valid I.n) {s : HState W}
    {k : ℕ} {off : ℕ → ℕ} {lab α : ℕ → ℕ → ℕ} (h : HInv P (fun i => I.values (I.perm i)) I.n k off lab α s)
    (h2 : 2 ≤ numReps I.n s.base.lab) :
    (hIteration P (I.build schedB) par fuel sc k s = .running ∧ ¬ sc.toSched.Fair I.n) ∨
    (¬ Linked P (fun i => I.values (I.perm i)) I.n ∧ hIteration P (I.build schedB) par fuel sc k s = .fault) ∨
    ∃ s' off' lab' α', hIteration P (I.build schedB) par fuel sc k s = .ok s' ∧
      HInv P (fun i => I.values (I.perm i)) I.n (k + 1) off' lab' α' s' ∧
      2 * numReps I.n s'.base.lab ≤ numReps I.n s.base.lab := by
  set value := fun i => I.values (I.perm i) with hvd
  have hinv := h.base
  have hsz := build_size I schedB
  rcases choose_spec I hI hn had hset hcap schedB hf hoP hfuel hpar hsc.base hinv with ⟨e, hnf⟩ | ⟨r, e, hlf, hrb, hlow, hall⟩
  · left
    unfold hIteration
    rw [e]
    exact ⟨rfl, hnf⟩
  obtain ⟨hinv', hreps⟩ := hinv.relabel hlf
  have hl : Labelling I.n r.lab := hinv'.lbl
  by_cases hex : ∃ c, Rep I.n r.lab c ∧ Isolated P value I.n r.lab c
  · obtain ⟨c, hc, hiso⟩ := hex
    refine .inr (.inl ⟨fun hlink => ?_, ?_⟩)
    · obtain ⟨b, hb, hbc⟩ := other_of_two (by rw [hreps]; exact h2) c
      obtain ⟨x, hx, y, hy, h1, h2, hlt⟩ := hlink (fun i => comp r.lab i = c) ⟨c, hc.1, hc.2⟩ ⟨b, hb, hbc⟩
      exact hlt.ne (hiso x hx y hy h1 h2)
    · unfold hIteration
      rw [e]
      simp only [Outcome.bind]
      have hlc : r.lab c = c := by
        have := hl.cast hc.1
        rw [hc.2] at this
        exact this.symm
      rw [hsz, mapEdges_none hlc (by
        unfold nextComp
        dsimp only
        rw [if_pos (by rw [target_allOnes (hall c hc hiso)]; omega)]) (hsc.base.uni.symm.subset (List.mem_range.mpr hc.1))]
  have hbest : ∀ c, Rep I.n r.lab c → ∃ i j, Best P value I.n r.lab c i j := by
    intro c hc
    apply Best.exists
    by_contra hno
    push Not at hno
    exact hex ⟨c, hc, fun a ha b hb h1 h2 => top_le_iff.mp (hno a ha b hb h1 h2)⟩
  set F := (sc.uni.filter (moving r.lab (nbr r.lab r.out))).map (newEdge r.out) with hFd
  have hmerge := fun (lab' : ℕ → ℤ) (hlab' : ∀ i < I.n, lab' i = (fin I.n (nbr r.lab r.out) (comp r.lab i) : ℕ)) =>
    (hinv'.merge (lab' := lab') (lower' := r.lower) hset (by omega) hbest hrb hsc.base.uni hlab' hlow).2
  have hrl : ∀ i < I.n, comp r.lab i = comp s.base.lab i := by
    intro i hi; unfold comp; rw [hlf i hi]
  obtain ⟨hb0, hlt0, -⟩ := hmerge (fun i => (fin I.n (nbr r.lab r.out) (comp r.lab i) : ℕ)) (fun _ _ => rfl)
  dsimp only at hlt0
  have hlen : s.base.edges.length + (sc.uni.filter (moving r.lab (nbr r.lab r.out))).length ≤ I.n - 1 := by
    have h1 := hb0.count
    have h3 := numReps_pos hb0.lbl (by omega)
    dsimp only at h1 h3
    rw [List.length_append, List.length_map] at h1
    omega
  obtain ⟨map', map'', m1, m2, m3, m4⟩ := mapping_spec hset hl hbest hrb hsc.base.uni hsc.bi s.base.edges s.map hlen
  rw [← hFd] at m1 m3 m4
  have hFpos : 0 < F.length := by
    have h1 : s.base.edges.length < (s.base.edges ++ F).length := hlt0
    rw [List.length_append] at h1; omega
  have hsome : ∀ c, Rep I.n r.lab c → (map'' c).isSome := by
    intro c hc
    obtain ⟨a, ha, -⟩ := m3 c hc
    rw [ha]; rfl
  have hleaf : ∀ i < I.n, ∃ lf, (I.build schedB).leaf i = some lf ∧ lf.value = value i := by
    intro i hi
    obtain ⟨T, hT⟩ := BVH.build_wellFormed I hI hn
    have hwf := hT schedB hf
    obtain ⟨r, hr⟩ := Nearest.layout_leaf T _ _ hwf.2 i (by rw [hwf.1, hsz]; exact List.mem_range.mpr hi)
    exact ⟨_, hr, rfl⟩
  unfold hIteration
  rw [e]
  simp only [Outcome.bind]
  rw [hsz, m1]
  dsimp only
  rw [m2]
  dsimp only
  -- parents
  have hlink : ∃ sided' par', linkStep (I.build schedB) r (s.base.edges ++ F) map'' sc.vert k s = some (sided', par') ∧
      ∀ lab', IterInv P value I.n ⟨lab', r.lower, s.base.edges ++ F⟩ →
        Hist P value I.n (k + 1) (update off (k + 1) (s.base.edges ++ F).length) (update lab (k + 1) (comp lab'))
          (update α k (fun c => (map'' c).getD 0)) (s.base.edges ++ F) →
        SidedOk P value (k + 1) (update off (k + 1) (s.base.edges ++ F).length) (update lab (k + 1) (comp lab'))
          (update α k (fun c => (map'' c).getD 0)) (s.base.edges ++ F) sided' ∧
        ∀ v < I.n, par' (value v + (I.n - 1)) = some ((update α k (fun c => (map'' c).getD 0) 0 v : ℕ) : ℤ) := by
    unfold linkStep
    by_cases hk : 0 < k
    · rw [if_pos (by omega), hsz]
      obtain ⟨sided', s1, -⟩ := h.sided_step hbig hk hrl hb0 hsome hl (h.extend hFpos hrl hl hb0 m3 m4)
      rw [s1]
      refine ⟨sided', s.par, rfl, fun lab' hb hH => ⟨?_, ?_⟩⟩
      · obtain ⟨sided'', s2, s3⟩ := h.sided_step hbig hk hrl hb hsome hl hH
        rw [s1, Option.some.injEq] at s2
        subst s2
        exact s3
      · intro v hv
        rw [Function.update_of_ne (by omega)]
        exact h.par hk v hv
    · have hk0 : k = 0 := by omega
      subst hk0
      rw [if_neg (by omega)]
      have hlab0 : ∀ v < I.n, comp r.lab v = v := by
        intro v hv
        rw [hrl v hv, ← h.lab_last v hv]
        exact h.hist.lab_zero v hv
      obtain ⟨par', p1, p2⟩ := vertParents_spec (mem := I.build schedB) (value := value) (out := r.out) (lab := r.lab)
        (map := map'') (α := fun c => (map'' c).getD 0) (by rw [hsz]; exact hn) (by rw [hsz]; exact hleaf)
        (by rw [hsz]; exact hval) (by rw [hsz]; exact hinj)
        (by
          rw [hsz]
          intro i hi
          obtain ⟨a, ha⟩ := Option.isSome_iff_exists.mp (hsome i ⟨hi, hlab0 i hi⟩)
          rw [ha]; rfl)
        (by
          rw [hsz]
          intro c hc
          obtain ⟨i, j, hb⟩ := hbest c ⟨hc, hlab0 c hc⟩
          have hi := hb.inside
          have he : (r.out c).source = i := by
            rw [hrb c i j hb, (cand_ends hset hb.ilt hb.jlt).1]
          rw [he]
          exact ⟨hb.ilt, hi⟩)
        (ord := sc.vert) (by rw [hsz]; exact hsc.vert) s.par
      rw [p1]
      refine ⟨s.sided, par', rfl, fun lab' hb hH => ⟨fun j hj => by omega, ?_⟩⟩
      intro v hv
      rw [hsz] at p2
      rw [p2 v hv, Function.update_self]
  obtain ⟨sided', par', l1, l2⟩ := hlink
  rw [l1]
  dsimp only
  rcases merge_spec hset hl hbest hrb sc.toSched (s.base.edges ++ F) with ⟨em, hnf⟩ | ⟨lab', em, hlab'⟩
  · rw [em]
    exact .inl ⟨rfl, hnf⟩
  · rw [em]
    obtain ⟨hb, -, hlt⟩ := hmerge lab' hlab'
    have hH := h.extend hFpos hrl hl hb m3 m4
    obtain ⟨hS, hP⟩ := l2 lab' hb hH
    refine .inr (.inr ⟨_, _, _, _, rfl, ⟨hb, hH, ?_, ?_, ?_, ?_, hS, fun _ => hP⟩, hlt.trans hreps.le⟩)
    · rw [Function.update_self]
    · rw [Function.update_self]
    · dsimp only
      rw [Nat.add_sub_cancel, Function.update_of_ne (by omega)]
      exact h.stop
    · intro v hv
      rw [Function.update_self]

/-- The loop. -/
lemma hIterate_spec (I : Input ℕ V w) (hI : I.Valid) (hn : 2 ≤ I.n) (had : P.Admissible I.vol)
    (hset : Setting P (fun i => I.values (I.perm i)) I.n) (hbig : I.n ≤ 2 ^ 30) (hcap : Nearest.StackFits I P.cap)
    (hval : ∀ i < I.n, I.values (I.perm i) < I.n)
    (hinj : ∀ i < I.n, ∀ j < I.n, I.values (I.perm i) = I.values (I.perm j) → i = j)
    (schedB : List ℕ) (hf : I.Finished schedB) {ordP : List ℕ} (hoP : ordP.Perm (List.range (2 * I.n - 2)))
    {fuel : ℕ} (hfuel : 2 * I.n ≤ fuel) {par : ℕ → Option ℕ}
    (hpar : Labels.findParents (I.build schedB) ordP = some par) {sc : ℕ → HSched} (hsc : ∀ it, (sc it).Valid I.n) :
    ∀ (d k : ℕ) (s : HState W) (off : ℕ → ℕ) (lab α : ℕ → ℕ → ℕ),
      HInv P (fun i => I.values (I.perm i)) I.n k off lab α s → 2 ≤ numReps I.n s.base.lab →
      (hIterate P (I.build schedB) par fuel sc d k s = .running ∧
        ¬ ((∀ it, (sc it).toSched.Fair I.n) ∧ numReps I.n s.base.lab ≤ 2 ^ d)) ∨
      (¬ Linked P (fun i => I.values (I.perm i)) I.n ∧ hIterate P (I.build schedB) par fuel sc d k s = .fault) ∨
      ∃ s' L off' lab' α', hIterate P (I.build schedB) par fuel sc d k s = .ok s' ∧ 0 < L ∧
        HInv P (fun i => I.values (I.perm i)) I.n L off' lab' α' s' ∧ numReps I.n s'.base.lab ≤ 1 := by
  intro d
  induction d with
  | zero =>
    intro k s off lab α h h2
    refine .inl ⟨rfl, fun hh => ?_⟩
    have := hh.2
    rw [pow_zero] at this
    omega
  | succ d ih =>
    intro k s off lab α h h2
    unfold hIterate
    rcases hIteration_spec I hI hn had hset hbig hcap hval hinj schedB hf hoP hfuel hpar (hsc k) h h2 with
      ⟨e, hnf⟩ | ⟨hno, e⟩ | ⟨s', off', lab', α', e, h', hlt⟩
    · rw [e]
      exact .inl ⟨rfl, fun hh => hnf (hh.1 k)⟩
    · rw [e]
      exact .inr (.inl ⟨hno, rfl⟩)
    · rw [e, build_size]
      simp only [Outcome.bind]
      have hcnt := h'.base.count
      split_ifs with hmore
      · rcases ih (k + 1) s' _ _ _ h' (by omega) with ⟨e', hnf⟩ | hh
        · exact .inl ⟨e', fun hh => hnf ⟨hh.1, by have := hh.2; rw [pow_succ] at this; omega⟩⟩
        · exact .inr hh
      · exact .inr (.inr ⟨s', k + 1, _, _, _, rfl, by omega, h', by omega⟩)

end ArborX.Hdbscan
