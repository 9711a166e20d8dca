import Verif.Hdbscan.Order
import Verif.Hdbscan.Linkage
import Verif.Boruvka.Core

/-!
# Property theorems: HDBSCAN (C60)
-/

namespace ArborX.Hdbscan

open Function (update)
open Boruvka
open Mst (DirectedEdge WeightedEdge IsMst IsCore mutualReach)
open Graph (Conn Connects SpanningTree)
open Dendrogram (Above)
open BVH (Input build_size)
open Perm (IsPerm IsSort)

variable {V W : Type} [LinearOrder W] [BoundedOrder W]

/-! ## Lemmas -/

omit [BoundedOrder W] in
lemma isMst_perm {n : ℕ} {dist : ℕ → ℕ → W} {E E' : List (WeightedEdge W)} (h : IsMst n dist E) (p : E'.Perm E) :
    IsMst n dist E' where
  weights := fun e he => h.weights e (p.subset he)
  tree := Dendrogram.spanning_perm h.tree (p.map _)
  minimal := by
    intro T hT hc K _ _ _ val hv h0
    rw [(p.map (fun e => val e.weight)).sum_eq]
    exact h.minimal T hT hc K val hv h0

lemma map_range_edgeAt (E : List (WeightedEdge W)) : (List.range E.length).map (edgeAt E) = E := by
  refine List.ext_getElem? (fun i => ?_)
  rw [List.getElem?_map]
  by_cases hi : i < E.length
  · rw [List.getElem?_range hi, edgeAt_get hi]; rfl
  · rw [List.getElem?_eq_none (by rw [List.length_range]; omega), List.getElem?_eq_none (by omega)]; rfl

lemma perm_edgeAt {E : List (WeightedEdge W)} {τ : ℕ → ℕ} (h : IsPerm E.length τ) :
    ((List.range E.length).map (fun x => edgeAt E (τ x))).Perm E := by
  have := h.map (edgeAt E)
  rw [List.map_map] at this
  refine List.Perm.trans this ?_
  rw [map_range_edgeAt]

section Laid

variable {P : Points V W} {value : ℕ → ℕ} {n : ℕ}
variable {E : List (WeightedEdge W)} {L : ℕ} {off : ℕ → ℕ} {lab α : ℕ → ℕ → ℕ}

/-- The clusters in terms of the indices of the user. -/
lemma lk_iff (hr : ∀ e < E.length, srcAt E e < n ∧ tgtAt E e < n) {inv : ℕ → ℕ} (hinv : ∀ i < n, inv (value i) = i)
    (h : W) {u v : ℕ} (hu : u < n) (hv : v < n) :
    Lk E.length (srcAt E) (tgtAt E) (fun e => (edgeAt E e).weight ≤ h) u v ↔
      Conn (((E.map (fun e => (⟨value e.source, value e.target, e.weight⟩ : WeightedEdge W))).filter
        (fun e => e.weight ≤ h)).map (fun e => (e.source, e.target))) (value u) (value v) := by
  set F := (((E.map (fun e => (⟨value e.source, value e.target, e.weight⟩ : WeightedEdge W))).filter
        (fun e => e.weight ≤ h)).map (fun e => (e.source, e.target))) with hF
  have hmem : ∀ a b, (a, b) ∈ F ↔ ∃ e < E.length, (edgeAt E e).weight ≤ h ∧ value (srcAt E e) = a ∧ value (tgtAt E e) = b := by
    intro a b
    rw [hF, List.mem_map]
    constructor
    · rintro ⟨f, hf, hab⟩
      obtain ⟨hf, hle⟩ := List.mem_filter.mp hf
      obtain ⟨g, hg, rfl⟩ := List.mem_map.mp hf
      obtain ⟨e, he⟩ := List.getElem?_of_mem hg
      have hlt : e < E.length := by
        by_contra hlt
        rw [List.getElem?_eq_none (by omega)] at he
        cases he
      rw [edgeAt_get hlt, Option.some.injEq] at he
      refine ⟨e, hlt, ?_, ?_, ?_⟩
      · rw [he]; exact of_decide_eq_true hle
      · unfold srcAt; rw [he]; exact (Prod.ext_iff.mp hab).1
      · unfold tgtAt; rw [he]; exact (Prod.ext_iff.mp hab).2
    · rintro ⟨e, he, hle, rfl, rfl⟩
      exact ⟨_, List.mem_filter.mpr ⟨List.mem_map.mpr ⟨_, edgeAt_mem he, rfl⟩, decide_eq_true hle⟩, rfl⟩
  constructor
  · intro c
    clear hu hv
    induction c with
    | rel a b hab =>
      obtain ⟨e, he, hle, rfl, rfl⟩ := hab
      exact Conn.edge ((hmem _ _).mpr ⟨e, he, hle, rfl, rfl⟩)
    | refl a => exact Conn.refl _ _
    | symm a b _ ih => exact ih.symm
    | trans a b c _ _ ih1 ih2 => exact ih1.trans ih2
  · intro c
    have key : ∀ a b, Conn F a b → Lk E.length (srcAt E) (tgtAt E) (fun e => (edgeAt E e).weight ≤ h) (inv a) (inv b) := by
      intro a b c
      refine Conn.min (R := fun a b => Lk E.length (srcAt E) (tgtAt E) (fun e => (edgeAt E e).weight ≤ h) (inv a) (inv b))
        ⟨fun _ => Lk.refl _ _, fun h => h.symm, fun h h' => h.trans h'⟩ ?_ c
      intro e he
      obtain ⟨f, hf, hle, h1, h2⟩ := (hmem e.1 e.2).mp he
      rw [← h1, ← h2, hinv _ (hr f hf).1, hinv _ (hr f hf).2]
      exact Lk.edge (p := fun e => (edgeAt E e).weight ≤ h) hf hle
    have := key _ _ c
    rwa [hinv u hu, hinv v hv] at this

lemma laid_dendrogram {H : Levels n E.length (srcAt E) (tgtAt E) (keyAt P value E) L off lab α} {cid : ℕ → ℤ} {τ rev : ℕ → ℕ}
    {par : ℕ → Option ℤ} (D : Laid H (fun e => (edgeAt E e).weight) cid τ rev value par)
    (hM : IsMst n P.weight (E.map (fun e => ⟨value e.source, value e.target, e.weight⟩)))
    {heights : ℕ → Option W} (hh : ∀ x < E.length, heights x = some (edgeAt E (τ x)).weight) :
    IsDendrogram n P.weight par heights := by
  have hn := D.size
  have hpos := D.pos
  have hvert : ∀ x, E.length ≤ x → x < 2 * n - 1 → ∃ v < n, x = E.length + value v := by
    intro x h1 h2
    obtain ⟨v, hv, e⟩ := IsPerm.surj D.vertices (show x - E.length < n by omega)
    exact ⟨v, hv, by omega⟩
  obtain ⟨inv, hinv⟩ : ∃ inv : ℕ → ℕ, ∀ i < n, inv (value i) = i := by
    classical
    refine ⟨fun p => if h : ∃ i < n, value i = p then h.choose else 0, fun i hi => ?_⟩
    have h : ∃ j < n, value j = value i := ⟨i, hi, rfl⟩
    dsimp only
    rw [dif_pos h]
    exact IsPerm.inj D.vertices h.choose_spec.1 hi h.choose_spec.2
  have hm1 : n - 1 = E.length := by omega
  have hm2 : n - 2 = E.length - 1 := by omega
  refine ⟨?_, ?_, ?_, ?_, ?_, ?_, ?_⟩
  · intro e he
    have hτ := (D.perm e (by omega)).1
    have hmem := List.mem_map_of_mem (f := fun e : WeightedEdge W => (⟨value e.source, value e.target, e.weight⟩ : WeightedEdge W)) (edgeAt_mem hτ)
    have hr := hM.tree.range _ (List.mem_map_of_mem hmem)
    exact ⟨_, hr.1, _, hr.2, by rw [hh e (by omega), ← (hM.weights _ hmem).2]⟩
  · rw [hm2]; exact D.par_last
  · intro x hx hne
    by_cases hxm : x < E.length
    · rcases D.parent_cases hxm with ⟨h, -⟩ | ⟨a1, -, h⟩ | ⟨k, hk, ht, a1, a2, h⟩
      · omega
      · exact ⟨x + 1, by omega, h⟩
      · exact ⟨_, by rw [hm1]; exact (D.inv _ (H.alpha_lt hk (H.range _ (D.perm x hxm).1).1)).1, h⟩
    · obtain ⟨v, hv, rfl⟩ := hvert x (by omega) hx
      exact ⟨_, by rw [hm1]; exact (D.inv _ (D.alpha_zero_end hv).1).1, D.par_vertex v hv⟩
  · intro x hx
    rw [hm2]
    by_cases hxm : x < E.length
    · exact D.above_root hxm
    · obtain ⟨v, hv, rfl⟩ := hvert x (by omega) hx
      exact D.above_root_vertex hv
  · intro e he
    obtain ⟨a, ha, b, hb, hab, h⟩ := D.binary (show e < E.length by omega)
    exact ⟨a, by omega, b, by omega, hab, fun x hx => h x (by omega)⟩
  · intro c hc e he hp a b ha hb
    rw [hh c (by omega), Option.some.injEq] at ha
    rw [hh e (by omega), Option.some.injEq] at hb
    rw [← ha, ← hb]
    exact (D.height_le (show c < E.length by omega) hp).2
  · intro u hu v hv huv h
    obtain ⟨u', hu', rfl⟩ := IsPerm.surj D.vertices hu
    obtain ⟨v', hv', rfl⟩ := IsPerm.surj D.vertices hv
    rw [← mst_linked (by omega) hM h, ← lk_iff H.range hinv h hu' hv',
      D.single_linkage hu' hv' (fun e => huv (congrArg value e)) h, hm1]
    constructor
    · rintro ⟨e, he, hle, h1, h2⟩
      exact ⟨e, he, _, hle, hh e he, h1, h2⟩
    · rintro ⟨e, he, a, hle, ha, h1, h2⟩
      rw [hh e he, Option.some.injEq] at ha
      exact ⟨e, he, by rw [← ha] at hle; exact hle, h1, h2⟩

end Laid

variable [SemilatticeSup V] [OrderBot V] {w : ℕ}

/-- `bit_cast` orders the weights of pairs of points as their order: what the standard says about
finite floating-point numbers without a sign. -/
structure BitsOk (n : ℕ) (weight : ℕ → ℕ → W) (bits : W → ℕ) : Prop where
  small : ∀ p < n, ∀ q < n, bits (weight p q) < 2 ^ 31
  mono : ∀ p < n, ∀ q < n, ∀ a < n, ∀ b < n, weight p q < weight a b → bits (weight p q) < bits (weight a b)

omit [SemilatticeSup V] [OrderBot V] in
/-- The state before the first iteration. -/
lemma init_hinv {P : Points V W} {value : ℕ → ℕ} (n : ℕ) :
    HInv P value n 0 (fun _ => 0) (fun _ v => v) (fun _ _ => 0)
      (⟨⟨fun i => (i : ℤ), fun _ => ⊥, []⟩, fun _ => none, fun _ => none, fun _ => none, 0, 0⟩ : HState W) ∧
    numReps n (fun i => (i : ℤ)) = n := by
  obtain ⟨h0, hnum⟩ := init_inv (P := P) (value := value) n
  refine ⟨⟨h0, ⟨rfl, fun j hj => by omega, by simp, fun v _ => rfl, ?_, fun j hj => by omega, fun j hj => by omega,
      fun j hj => by omega⟩, rfl, rfl, rfl, ?_, fun j hj => by omega, fun h => by omega⟩, hnum⟩
  · intro j hj u hu v hv
    rw [List.take_nil]
    exact ⟨fun c => Conn.nil c, fun e => e ▸ Conn.refl _ _⟩
  · intro v hv
    simp [comp]

/-- The result of the constructor, whether or not the weights are finite. -/
lemma hmst_linked (P : Points V W) (bits : W → ℕ) (I : Input ℕ V w) (hI : I.Valid) (hn : 2 ≤ I.n)
    (hbig : I.n ≤ 2 ^ 30)
    (hval : ∀ p < I.n, I.values p = p)
    (hbox : ∀ p q v, I.vol q ≤ v → P.dv p v ≤ P.dp p q)
    (hmetric : ∀ p q, P.dp p q ≤ P.weight p q)
    (hsymm : ∀ p q, P.weight p q = P.weight q p)
    (hbits : BitsOk I.n P.weight bits)
    (hcap : Nearest.StackFits I P.cap)
    (schedB : List ℕ) (hf : I.Finished schedB)
    (ordP : List ℕ) (hoP : ordP.Perm (List.range (2 * I.n - 2)))
    (sc : ℕ → HSched) (hsc : ∀ it, (sc it).Valid I.n) (ro : Reorder W) (hro : ro.Valid (I.n - 1))
    (fuel : ℕ) (hfuel : 2 * I.n ≤ fuel) (iters : ℕ) :
    (hmst P bits I schedB ordP sc ro fuel iters = .running ∨
      (¬ Boruvka.Linked P (fun i => I.values (I.perm i)) I.n ∧ hmst P bits I schedB ordP sc ro fuel iters = .fault) ∨
      ∃ o, hmst P bits I schedB ordP sc ro fuel iters = .ok o ∧ Boruvka.Linked P (fun i => I.values (I.perm i)) I.n ∧ IsMst I.n P.weight o.edges ∧
        IsDendrogram I.n P.weight o.parents o.heights ∧ ∀ e, o.heights e = (o.edges[e]?).map (·.weight)) ∧
    ((∀ it, (sc it).toSched.Fair I.n) → I.n ≤ 2 ^ iters → hmst P bits I schedB ordP sc ro fuel iters ≠ .running) := by
  obtain ⟨inv, hi1, hi2⟩ := exists_inverse I hI hval
  have hset : Setting P (fun i => I.values (I.perm i)) I.n := ⟨by omega, hsymm⟩
  obtain ⟨par, hpar, -⟩ := Labels.findParents_correct I hI hn schedB hf ordP hoP
  obtain ⟨T, hT⟩ := BVH.build_wellFormed I hI hn
  have hwf := hT schedB hf
  have hsz := build_size I schedB
  have hleaf : ∀ i < I.n, ∃ lf, (I.build schedB).leaf i = some lf ∧ lf.value = I.values (I.perm i) := by
    intro i hi
    obtain ⟨r, hr⟩ := Nearest.layout_leaf T _ _ hwf.2 i (by rw [hwf.1, hsz]; exact List.mem_range.mpr hi)
    exact ⟨_, hr, rfl⟩
  have hvalinj : ∀ i < I.n, ∀ j < I.n, I.values (I.perm i) = I.values (I.perm j) → i = j := by
    intro i hi j hj e
    rw [← (hi2 i hi).2, ← (hi2 j hj).2]; exact congrArg inv e
  obtain ⟨hinit, hnum⟩ := init_hinv (P := P) (value := fun i => I.values (I.perm i)) I.n
  unfold hmst
  rw [if_neg (by omega)]
  dsimp only
  rw [hpar]
  dsimp only
  rcases hIterate_spec I hI hn ⟨hbox, hmetric⟩ hset hbig hcap (fun i hi => (hi2 i hi).1) hvalinj schedB hf hoP hfuel hpar hsc
    iters 0 _ _ _ _ hinit (by dsimp only; rw [hnum]; exact hn) with ⟨e, hnf⟩ | ⟨hno, e⟩ | ⟨s, L, off, lab, α, e, hL, h, h1⟩
  · rw [e]
    exact ⟨.inl rfl, fun a b => absurd ⟨a, by dsimp only; rw [hnum]; exact b⟩ hnf⟩
  · rw [e]
    exact ⟨.inr (.inl ⟨hno, rfl⟩), by simp [Outcome.bind]⟩
  · rw [e]
    simp only [Outcome.bind]
    have H := h.levels hset (by omega) h1
    have ht := h.base.tree (by omega) h1
    have hlen : s.base.edges.length + 1 = I.n := by
      have := ht.length
      unfold pairs at this
      rwa [List.length_map] at this
    have hedge : ∀ e < s.base.edges.length, (edgeAt s.base.edges e).weight =
        P.weight (I.values (I.perm (srcAt s.base.edges e))) (I.values (I.perm (tgtAt s.base.edges e))) :=
      fun e he => (h.base.edge _ (edgeAt_mem he)).2.2.2.1
    have hLm : L ≤ s.base.edges.length := by
      have : ∀ j ≤ L, j ≤ off j := by
        intro j
        induction j with
        | zero => intro _; exact Nat.zero_le _
        | succ j ih => intro hj; have := ih (by omega); have := H.off_le j (by omega); omega
      have := this L le_rfl
      rwa [H.off_last] at this
    have hr := fun e (he : e < s.base.edges.length) => H.range e he
    obtain ⟨τ, rev, cid, par', e1, hτ, D⟩ := reorder_spec (bits := bits)
      (fs := fun e => if s.start ≤ e ∧ e < s.stop then some (-2) else s.sided e) (fuel := fuel)
      (value := fun i => I.values (I.perm i)) (par := s.par) (ro := ro) H hlen.symm (by omega) hbig hL hedge
      (by
        intro e he
        rw [hedge e he]
        exact hbits.small _ (hi2 _ (hr e he).1).1 _ (hi2 _ (hr e he).2).1)
      (by
        intro e he f hf' hlt
        rw [hedge e he, hedge f hf'] at hlt ⊢
        exact hbits.mono _ (hi2 _ (hr e he).1).1 _ (hi2 _ (hr e he).2).1 _ (hi2 _ (hr f hf').1).1 _ (hi2 _ (hr f hf').2).1 hlt)
      (by
        intro j hj e he he'
        have hle := H.off_mono (show j + 1 ≤ L - 1 by omega) (by omega)
        have hst := h.start
        rw [if_neg (by omega)]
        exact h.sided j hj e he he')
      (by
        intro e he he'
        have hst := h.start
        have hsp := h.stop
        rw [if_pos (by omega)])
      (by omega)
      (isPerm_of_inj (fun i hi => (hi2 i hi).1) hvalinj) (h.par hL)
      (by rw [show s.base.edges.length = I.n - 1 by omega]; exact hro)
    rw [e1]
    dsimp only
    have hperm := perm_edgeAt hτ
    rw [finalizeEdges_eq hleaf _ (fun e he => by
      have := h.base.edge e (hperm.subset he)
      exact ⟨this.1, this.2.1⟩)]
    dsimp only
    have hM := h.base.isMst I hI (by omega) hval hset h1
    refine ⟨.inr (.inr ⟨_, rfl, h.base.linked hset ht, ?_, ?_, ?_⟩), by simp⟩
    · exact isMst_perm hM (hperm.map _)
    · refine laid_dendrogram D hM ?_
      intro x hx
      dsimp only
      rw [List.getElem?_map, List.getElem?_range hx]
      rfl
    · intro e
      dsimp only
      rw [List.getElem?_map, List.getElem?_map, List.getElem?_map, Option.map_map, Option.map_map, Option.map_map]
      rfl

/-! ## Property theorems -/

/-- **C60 (partial).** Points `0, …, n - 1`, `2 ≤ n ≤ 2 ^ 30`, with symmetric weights below
infinity. Under every interleaving of the threads of every kernel of every iteration, and whatever
the library sort does with equal keys, the constructor of `MinimumSpanningTree` in the mode used by
`hdbscan` never accesses memory out of bounds and never throws, and if it returns, then the edges are
a minimum spanning tree and the parents and heights are a binary dendrogram of the single-linkage
clusters of the points. If every thread gets enough steps, it returns.

Partial: assumes that the fixed stack of 64 entries is large enough for the tree
(`Nearest.StackFits`); exact arithmetic. -/
theorem hmst_correct_partial (P : Points V W) (bits : W → ℕ) (I : Input ℕ V w) (hI : I.Valid) (hn : 2 ≤ I.n)
    (hbig : I.n ≤ 2 ^ 30)
    (hval : ∀ p < I.n, I.values p = p)
    (hbox : ∀ p q v, I.vol q ≤ v → P.dv p v ≤ P.dp p q)
    (hmetric : ∀ p q, P.dp p q ≤ P.weight p q)
    (hsymm : ∀ p q, P.weight p q = P.weight q p)
    (hfin : ∀ p < I.n, ∀ q < I.n, p ≠ q → P.weight p q < ⊤)
    (hbits : BitsOk I.n P.weight bits)
    (hcap : Nearest.StackFits I P.cap)
    (schedB : List ℕ) (hf : I.Finished schedB)
    (ordP : List ℕ) (hoP : ordP.Perm (List.range (2 * I.n - 2)))
    (sc : ℕ → HSched) (hsc : ∀ it, (sc it).Valid I.n) (ro : Reorder W) (hro : ro.Valid (I.n - 1))
    (fuel : ℕ) (hfuel : 2 * I.n ≤ fuel) (iters : ℕ) :
    (hmst P bits I schedB ordP sc ro fuel iters = .running ∨
      ∃ o, hmst P bits I schedB ordP sc ro fuel iters = .ok o ∧ IsMst I.n P.weight o.edges ∧
        IsDendrogram I.n P.weight o.parents o.heights ∧ ∀ e, o.heights e = (o.edges[e]?).map (·.weight)) ∧
    ((∀ it, (sc it).toSched.Fair I.n) → I.n ≤ 2 ^ iters → hmst P bits I schedB ordP sc ro fuel iters ≠ .running) := by
  obtain ⟨h, h'⟩ := hmst_linked P bits I hI hn hbig hval hbox hmetric hsymm hbits hcap schedB hf ordP hoP sc hsc ro hro fuel hfuel iters
  refine ⟨?_, h'⟩
  rcases h with h | h | ⟨o, h, -, ho⟩
  · exact .inl h
  · exact absurd (linked_of P I hI hval hfin) h.1
  · exact .inr ⟨o, h, ho⟩

/-- Only nodes have parents. -/
lemma correct_range {m : ℕ} (hm : 0 < m) {edge : ℕ → ℕ × ℕ} {par : ℕ → Option ℤ} (h : Dendrogram.Correct m edge par) {e x : ℕ}
    (he : e < m) (hx : par x = some (e : ℤ)) : x ≤ 2 * m := by
  classical
  let S := (Finset.range (2 * m + 1)).erase (m - 1)
  have hpar : ∀ y ∈ S, ∃ q < m, par y = some (q : ℤ) := by
    intro y hy
    rw [Finset.mem_erase, Finset.mem_range] at hy
    by_cases hym : y < m
    · obtain ⟨q, hq, hp, -⟩ := h.inner y (by omega)
      exact ⟨q, hq, hp⟩
    · obtain ⟨q, hq, hp, -⟩ := h.vertex (y - m) (by omega)
      rw [show m + (y - m) = y by omega] at hp
      exact ⟨q, hq, hp⟩
  let f : ℕ → ℕ := fun y => if h : ∃ q < m, par y = some (q : ℤ) then h.choose else 0
  have hf : ∀ y ∈ S, f y < m ∧ par y = some (f y : ℤ) := by
    intro y hy
    have hh := hpar y hy
    simp only [f, dif_pos hh]
    exact hh.choose_spec
  have hcard : S.card = 2 * m := by
    rw [Finset.card_erase_of_mem (by rw [Finset.mem_range]; omega), Finset.card_range]
    rfl
  have hsum := Finset.card_eq_sum_card_fiberwise (f := f) (s := S) (t := Finset.range m)
    (fun y hy => Finset.mem_coe.mpr (Finset.mem_range.mpr (hf y (Finset.mem_coe.mp hy)).1))
  have hsub : ∀ q < m, ∀ a b : ℕ, (∀ y, par y = some (q : ℤ) ↔ y = a ∨ y = b) → S.filter (fun y => f y = q) ⊆ {a, b} := by
    intro q hq a b hab y hy
    rw [Finset.mem_filter] at hy
    have := (hf y hy.1).2
    rw [hy.2] at this
    rw [Finset.mem_insert, Finset.mem_singleton]
    exact (hab y).mp this
  have hle : ∀ q ∈ Finset.range m, (S.filter (fun y => f y = q)).card ≤ 2 := by
    intro q hq
    obtain ⟨a, b, -, hab⟩ := h.binary q (Finset.mem_range.mp hq)
    exact (Finset.card_le_card (hsub q (Finset.mem_range.mp hq) a b hab)).trans Finset.card_le_two
  have heq : ∀ q ∈ Finset.range m, (S.filter (fun y => f y = q)).card = 2 := by
    refine (Finset.sum_eq_sum_iff_of_le hle).mp ?_
    rw [← hsum, hcard, Finset.sum_const, Finset.card_range, nsmul_eq_mul, Nat.mul_comm]
    rfl
  obtain ⟨a, b, hne, hab⟩ := h.binary e he
  have hfull : S.filter (fun y => f y = e) = {a, b} :=
    Finset.eq_of_subset_of_card_le (hsub e he a b hab) (by rw [heq e (Finset.mem_range.mpr he)]; exact Finset.card_le_two)
  have hmem : x ∈ S.filter (fun y => f y = e) := by
    rw [hfull, Finset.mem_insert, Finset.mem_singleton]
    exact (hab x).mp hx
  rw [Finset.mem_filter, Finset.mem_erase, Finset.mem_range] at hmem
  omega

/-- The dendrogram of the union-find implementation, of the edges of a minimum spanning tree. -/
theorem unionFindDendrogram_correct {n : ℕ} (hn : 2 ≤ n) {dist : ℕ → ℕ → W} {E : List (WeightedEdge W)} (hM : IsMst n dist E)
    {sortW : ℕ → (ℕ → W) → ℕ → ℕ} (hs : ∀ keys, IsSort (n - 1) keys (sortW (n - 1) keys)) :
    ∃ par heights, unionFindDendrogram E sortW = .ok (par, heights) ∧ IsDendrogram n dist par heights := by
  have hlen : E.length + 1 = n := by
    have := hM.tree.length
    rwa [List.length_map] at this
  obtain ⟨m, rfl⟩ : ∃ m, n = m + 1 := ⟨n - 1, by omega⟩
  obtain rfl : E.length = m := by omega
  simp only [Nat.add_sub_cancel] at hs
  have hE : (List.range E.length).map (fun e => E.getD e ⟨0, 0, ⊥⟩) = E := map_range_edgeAt E
  have hT : SpanningTree (E.length + 1) ((List.range E.length).map (Dendrogram.ends (fun e => E.getD e ⟨0, 0, ⊥⟩))) := by
    have := hM.tree
    rw [← hE, List.map_map, hE] at this
    exact this
  obtain ⟨par, heights, τ, hd, hτ, hh, hsrt, hc, hmono⟩ := Dendrogram.dendrogram_correct (show 0 < E.length by omega) hT (hs _)
  obtain ⟨par', heights', hd', hlink⟩ := Dendrogram.dendrogram_single_linkage (show 0 < E.length by omega) hT (hs _)
  rw [hd, Option.some.injEq, Prod.mk.injEq] at hd'
  obtain ⟨rfl, rfl⟩ := hd'
  refine ⟨par, fun e => if e < E.length then some (heights e) else none, ?_, ?_⟩
  · unfold unionFindDendrogram
    rw [hd]
  have hup : ∀ d c, c + d = E.length - 1 → Above par (E.length - 1) c := by
    intro d
    induction d using Nat.strong_induction_on with
    | _ d ih =>
      intro c hcd
      by_cases h0 : d = 0
      · obtain rfl : c = E.length - 1 := by omega
        exact .refl
      · obtain ⟨e, he, hp, hlt, -⟩ := hc.inner c (by omega)
        exact .step hp (ih (E.length - 1 - e) (by omega) e (by omega))
  have e1 : E.length + 1 - 2 = E.length - 1 := by omega
  refine ⟨?_, ?_, ?_, ?_, ?_, ?_, ?_⟩
  · intro e he
    have hmem : E.getD (τ e) ⟨0, 0, ⊥⟩ ∈ E := edgeAt_mem (IsPerm.lt hτ (show e < E.length by omega))
    have hr := hM.tree.range _ (List.mem_map_of_mem hmem)
    exact ⟨_, hr.1, _, hr.2, by rw [if_pos (by omega), hh e (by omega), ← (hM.weights _ hmem).2]⟩
  · rw [e1]; exact hc.root
  · intro x hx hne
    by_cases hxm : x < E.length
    · obtain ⟨e, he, hp, -⟩ := hc.inner x (by omega)
      exact ⟨e, by omega, hp⟩
    · obtain ⟨e, he, hp, -⟩ := hc.vertex (x - E.length) (by omega)
      rw [show E.length + (x - E.length) = x by omega] at hp
      exact ⟨e, by omega, hp⟩
  · intro x hx
    rw [e1]
    by_cases hxm : x < E.length
    · exact hup (E.length - 1 - x) x (by omega)
    · obtain ⟨e, he, hp, -⟩ := hc.vertex (x - E.length) (by omega)
      rw [show E.length + (x - E.length) = x by omega] at hp
      exact .step hp (hup (E.length - 1 - e) e (by omega))
  · intro e he
    obtain ⟨a, b, hab, h⟩ := hc.binary e (by omega)
    have hrange : ∀ x, par x = some (e : ℤ) → x < 2 * (E.length + 1) - 1 := by
      intro x hx
      have := correct_range (show 0 < E.length by omega) hc (show e < E.length by omega) hx
      omega
    exact ⟨a, hrange a ((h a).mpr (.inl rfl)), b, hrange b ((h b).mpr (.inr rfl)), hab, fun x _ => h x⟩
  · intro c hcl e he hp a b ha hb
    rw [if_pos (by omega), Option.some.injEq] at ha
    rw [if_pos (by omega), Option.some.injEq] at hb
    subst ha hb
    have hc1 : c ≠ E.length - 1 := by
      rintro rfl
      rw [hc.root] at hp
      have := Option.some.inj hp
      omega
    obtain ⟨e', he', hp', hle⟩ := hmono c (by omega)
    rw [hp] at hp'
    obtain rfl : e = e' := Int.ofNat.inj (Option.some.inj hp')
    exact hle
  · intro u hu v hv huv h
    have hfil : ((List.range E.length).filter (fun e => ((fun e => E.getD e ⟨0, 0, ⊥⟩) e).weight ≤ h)).map
        (Dendrogram.ends (fun e => E.getD e ⟨0, 0, ⊥⟩)) =
        (E.filter (fun e => e.weight ≤ h)).map (fun e => (e.source, e.target)) := by
      conv_rhs => rw [← hE]
      rw [List.filter_map, List.map_map]
      rfl
    rw [← mst_linked (by omega) hM h, ← hfil, hlink u (by omega) v (by omega) huv h]
    constructor
    · rintro ⟨e, he, hle, h1, h2⟩
      exact ⟨e, by omega, _, hle, if_pos he, h1, h2⟩
    · rintro ⟨e, he, a, hle, ha, h1, h2⟩
      rw [if_pos (by omega), Option.some.injEq] at ha
      subst ha
      exact ⟨e, by omega, hle, h1, h2⟩

omit [BoundedOrder W] in
/-- A core distance is a distance. -/
lemma core_attained {d : ℕ → ℕ → W} {n k p : ℕ} (hn : 1 ≤ n) (hk : 1 ≤ k) {r : W} (h : IsCore d n k p r) : ∃ q < n, r = d p q := by
  classical
  have hne : ((List.range n).toFinset.filter (fun q => d p q ≤ r)).Nonempty := by
    by_contra hem
    rw [Finset.not_nonempty_iff_eq_empty] at hem
    have h0 : Mst.within d n p r = 0 := by
      unfold Mst.within
      rw [List.countP_eq_zero]
      intro q hq hle
      have : q ∈ (List.range n).toFinset.filter (fun q => d p q ≤ r) := by
        rw [Finset.mem_filter, List.mem_toFinset]; exact ⟨hq, of_decide_eq_true hle⟩
      rw [hem] at this
      simp at this
    have := h.enough
    omega
  obtain ⟨q, hq, hmax⟩ := Finset.exists_max_image _ (fun q => d p q) hne
  rw [Finset.mem_filter, List.mem_toFinset, List.mem_range] at hq
  refine ⟨q, hq.1, ?_⟩
  by_contra hno
  have hlt : d p q < r := lt_of_le_of_ne hq.2 (fun e => hno e.symm)
  have h1 := h.least _ hlt
  have h2 := h.enough
  have : Mst.within d n p r ≤ Mst.within d n p (d p q) := by
    unfold Mst.within
    refine List.countP_mono_left (fun x hx hle => ?_)
    refine decide_eq_true (hmax x ?_)
    rw [Finset.mem_filter, List.mem_toFinset]
    exact ⟨hx, of_decide_eq_true hle⟩
  omega

omit [BoundedOrder W] in
/-- Mutual reachability distances are distances. -/
lemma mutual_attained {d : ℕ → ℕ → W} {n k : ℕ} (hn : 1 ≤ n) (hk : 1 ≤ k) {core : ℕ → W} (hc : ∀ p < n, IsCore d n k p (core p))
    {p q : ℕ} (hp : p < n) (hq : q < n) : ∃ a < n, ∃ b < n, mutualReach d core p q = d a b := by
  obtain ⟨x, hx, ex⟩ := core_attained hn hk (hc p hp)
  obtain ⟨y, hy, ey⟩ := core_attained hn hk (hc q hq)
  unfold mutualReach
  rcases max_choice (max (core p) (core q)) (d p q) with e | e
  · rw [e]
    rcases max_choice (core p) (core q) with e | e
    · rw [e]; exact ⟨p, hp, x, hx, ex⟩
    · rw [e]; exact ⟨q, hq, y, hy, ey⟩
  · rw [e]; exact ⟨p, hp, q, hq, rfl⟩

omit [BoundedOrder W] in
lemma BitsOk.of_attained {n : ℕ} {d weight : ℕ → ℕ → W} {bits : W → ℕ} (h : BitsOk n d bits)
    (ha : ∀ p < n, ∀ q < n, ∃ a < n, ∃ b < n, weight p q = d a b) : BitsOk n weight bits := by
  constructor
  · intro p hp q hq
    obtain ⟨a, ha', b, hb', e⟩ := ha p hp q hq
    rw [e]; exact h.small a ha' b hb'
  · intro p hp q hq x hx y hy hlt
    obtain ⟨a, ha', b, hb', e⟩ := ha p hp q hq
    obtain ⟨c, hc', f, hf', e'⟩ := ha x hx y hy
    rw [e, e'] at hlt ⊢
    exact h.mono a ha' b hb' c hc' f hf' hlt

/-- **C60 (partial).** The same for any number `k`, with the distances of the points for `k ≤ 1` and
their mutual reachability distances for `k > 1`. -/
theorem hmst_k_correct_partial (G : Geo V W) (bits : W → ℕ) (k : ℕ) (I : Input ℕ V w) (hI : I.Valid) (hn : 2 ≤ I.n) (hbig : I.n ≤ 2 ^ 30)
    (hval : ∀ p < I.n, I.values p = p) (hbox : ∀ p q v, I.vol q ≤ v → G.dv p v ≤ G.dp p q)
    (hsymm : ∀ p q, G.dp p q = G.dp q p)
    (hfin : ∀ p < I.n, ∀ q < I.n, G.dp p q < ⊤) (hbits : BitsOk I.n G.dp bits) (hcap : Nearest.StackFits I 64)
    (schedB : List ℕ) (hf : I.Finished schedB)
    (ordP : List ℕ) (hoP : ordP.Perm (List.range (2 * I.n - 2)))
    (sc : ℕ → HSched) (hsc : ∀ it, (sc it).Valid I.n) (ro : Reorder W) (hro : ro.Valid (I.n - 1))
    (fuel : ℕ) (hfuel : 2 * I.n ≤ fuel) (iters : ℕ) :
    ∃ weight : ℕ → ℕ → W,
      (k ≤ 1 → weight = G.dp) ∧
      (1 < k → ∃ core, (∀ p < I.n, IsCore G.dp I.n k p (core p)) ∧ weight = mutualReach G.dp core) ∧
      (hmstK G bits k I schedB ordP sc ro fuel iters = .running ∨
        ∃ o, hmstK G bits k I schedB ordP sc ro fuel iters = .ok o ∧ IsMst I.n weight o.edges ∧
          IsDendrogram I.n weight o.parents o.heights ∧ ∀ e, o.heights e = (o.edges[e]?).map (·.weight)) ∧
      ((∀ it, (sc it).toSched.Fair I.n) → I.n ≤ 2 ^ iters → hmstK G bits k I schedB ordP sc ro fuel iters ≠ .running) := by
  by_cases hk : 1 < k
  · have hc := core_distance_correct G I hI hn hval hbox hfin hcap schedB hf fuel hfuel k (by omega)
    have hcore : ∀ p < I.n, IsCore G.dp I.n k p (coreValue G (I.build schedB) fuel k p) := by
      intro p hp
      obtain ⟨r, e, h⟩ := hc p hp
      unfold coreValue
      rw [e]; exact h
    have hall : (List.range I.n).all (coreDone G (I.build schedB) fuel k) = true := by
      rw [List.all_eq_true]
      intro p hp
      obtain ⟨r, e, h⟩ := hc p (List.mem_range.mp hp)
      unfold coreDone
      rw [e]
    unfold hmstK
    rw [if_pos hk, if_pos hall]
    generalize coreValue G (I.build schedB) fuel k = core at hcore ⊢
    have hatt : ∀ p < I.n, ∀ q < I.n, ∃ a < I.n, ∃ b < I.n, mutualReach G.dp core p q = G.dp a b :=
      fun p hp q hq => mutual_attained (by omega) (by omega) hcore hp hq
    refine ⟨mutualReach G.dp core, fun h => by omega, fun _ => ⟨core, hcore, rfl⟩, ?_⟩
    exact hmst_correct_partial (G.points (some core)) bits I hI hn hbig hval hbox (fun p q => le_max_right _ _)
      (fun p q => (mutual_reachability G core).2.1 hsymm p q)
      (fun p hp q hq _ => by
        obtain ⟨a, ha, b, hb, e⟩ := hatt p hp q hq
        change mutualReach G.dp core p q < ⊤
        rw [e]; exact hfin a ha b hb) (hbits.of_attained hatt) hcap schedB hf ordP hoP sc hsc ro hro
      fuel hfuel iters
  · unfold hmstK
    rw [if_neg hk]
    refine ⟨G.dp, fun _ => rfl, fun h => absurd h hk, ?_⟩
    exact hmst_correct_partial (G.points none) bits I hI hn hbig hval hbox (fun p q => le_rfl) hsymm
      (fun p hp q hq _ => hfin p hp q hq) hbits hcap schedB hf ordP hoP sc hsc ro hro fuel hfuel iters

/-- **C60 (partial).** `hdbscan` on points `0, …, n - 1`, `2 ≤ n ≤ 2 ^ 30`, at finite distances, for
any `k` and both implementations, under every interleaving of the threads of all kernels and whatever the
library sort does with equal keys: no access out of bounds, no exception; if it returns, then parents and
heights are a binary dendrogram of the single-linkage clusters of the points, for their distances
(`k ≤ 1`) or for their mutual reachability distances (`k > 1`). If every thread gets enough steps, it returns.

Partial: assumes that the fixed stack of 64 entries is large enough for the tree
(`Nearest.StackFits`); exact arithmetic. -/
theorem hdbscan_correct_partial (boruvka : Bool) (G : Geo V W) (bits : W → ℕ) (k : ℕ) (I : Input ℕ V w) (hI : I.Valid) (hn : 2 ≤ I.n)
    (hbig : I.n ≤ 2 ^ 30)
    (hval : ∀ p < I.n, I.values p = p) (hbox : ∀ p q v, I.vol q ≤ v → G.dv p v ≤ G.dp p q)
    (hsymm : ∀ p q, G.dp p q = G.dp q p)
    (hfin : ∀ p < I.n, ∀ q < I.n, G.dp p q < ⊤) (hbits : BitsOk I.n G.dp bits) (hcap : Nearest.StackFits I 64)
    (schedB : List ℕ) (hf : I.Finished schedB)
    (ordP : List ℕ) (hoP : ordP.Perm (List.range (2 * I.n - 2)))
    (sc : ℕ → HSched) (hsc : ∀ it, (sc it).Valid I.n) (ro : Reorder W) (hro : ro.Valid (I.n - 1))
    (fuel : ℕ) (hfuel : 2 * I.n ≤ fuel) (iters : ℕ) :
    ∃ weight : ℕ → ℕ → W,
      (k ≤ 1 → weight = G.dp) ∧
      (1 < k → ∃ core, (∀ p < I.n, IsCore G.dp I.n k p (core p)) ∧ weight = mutualReach G.dp core) ∧
      (hdbscan boruvka G bits k I schedB ordP sc ro fuel iters = .running ∨
        ∃ parents heights, hdbscan boruvka G bits k I schedB ordP sc ro fuel iters = .ok (parents, heights) ∧
          IsDendrogram I.n weight parents heights) ∧
      ((∀ it, (sc it).toSched.Fair I.n) → I.n ≤ 2 ^ iters →
        hdbscan boruvka G bits k I schedB ordP sc ro fuel iters ≠ .running) := by
  unfold hdbscan
  cases boruvka with
  | true =>
    rw [if_pos rfl]
    obtain ⟨weight, h1, h2, h3, h4⟩ := hmst_k_correct_partial G bits k I hI hn hbig hval hbox hsymm hfin hbits hcap schedB hf
      ordP hoP sc hsc ro hro fuel hfuel iters
    refine ⟨weight, h1, h2, ?_, fun a b => ?_⟩
    · rcases h3 with h3 | ⟨o, e, -, hd, -⟩
      · rw [h3]; exact .inl rfl
      · rw [e]; exact .inr ⟨_, _, rfl, hd⟩
    · rcases h3 with h3 | ⟨o, e, -⟩
      · exact absurd h3 (h4 a b)
      · rw [e]; simp [Outcome.bind]
  | false =>
    rw [if_neg (by simp)]
    obtain ⟨weight, h1, h2, h3, h4⟩ := mst_k_correct_partial G k I hI hn (by omega) hval hbox hsymm hfin hcap schedB hf
      ordP hoP (fun it => (sc it).toSched) (fun it => (hsc it).base) fuel hfuel iters
    refine ⟨weight, h1, h2, ?_, fun a b => ?_⟩
    · rcases h3 with h3 | ⟨E, e, hM⟩
      · rw [h3]; exact .inl rfl
      · obtain ⟨par, heights, hd, hD⟩ := unionFindDendrogram_correct hn hM hro.sortW
        rw [e]
        simp only [Outcome.bind]
        exact .inr ⟨par, heights, hd, hD⟩
    · rcases h3 with h3 | ⟨E, e, hM⟩
      · exact absurd h3 (h4 a b)
      · obtain ⟨par, heights, hd, hD⟩ := unionFindDendrogram_correct hn hM hro.sortW
        rw [e]
        simp only [Outcome.bind]
        rw [hd]
        simp

/-- **C60 (small inputs).** Fewer than two points: an exception. -/
theorem hdbscan_small (boruvka : Bool) (G : Geo V W) (bits : W → ℕ) (k : ℕ) (hk : k ≤ 1) (I : Input ℕ V w) (hn : I.n < 2)
    (schedB ordP : List ℕ) (sc : ℕ → HSched) (ro : Reorder W) (fuel iters : ℕ) :
    hdbscan boruvka G bits k I schedB ordP sc ro fuel iters = .throw := by
  unfold hdbscan hmstK hmst mstK
  rw [if_neg (show ¬ 1 < k by omega), if_neg (show ¬ 1 < k by omega), if_pos hn, mst_small _ I hn]
  cases boruvka <;> rfl

/-! ## Non-vacuity -/

/-- The library sort exists, for any keys. -/
lemma exists_isSort {α : Type} [LinearOrder α] (m : ℕ) (keys : ℕ → α) : ∃ π, Perm.IsSort m keys π := by
  have hp := List.mergeSort_perm (List.range m) (fun a b => decide (keys a ≤ keys b))
  have hs := List.pairwise_mergeSort (le := fun a b => decide (keys a ≤ keys b))
    (fun a b c h1 h2 => by simp only [decide_eq_true_eq] at *; exact h1.trans h2)
    (fun a b => by simp only [Bool.or_eq_true, decide_eq_true_eq]; exact le_total _ _) (List.range m)
  generalize (List.range m).mergeSort (fun a b => decide (keys a ≤ keys b)) = l at hp hs
  have hl : l.length = m := by simpa using hp.length_eq
  have hmap : (List.range m).map (fun i => l.getD i 0) = l := by
    apply List.ext_getElem
    · simp [hl]
    · intro i h1 h2
      simp [List.getD_eq_getElem?_getD, List.getElem?_eq_getElem h2]
  refine ⟨fun i => l.getD i 0, by rw [hmap]; exact hp, fun i hi => ?_⟩
  have := List.pairwise_iff_getElem.mp hs i (i + 1) (by omega) (by omega) (by omega)
  rw [decide_eq_true_eq] at this
  simpa [List.getD_eq_getElem?_getD, List.getElem?_eq_getElem (show i < l.length by omega),
    List.getElem?_eq_getElem (show i + 1 < l.length by omega)] using this

omit [BoundedOrder W] in
/-- What is assumed about the library and the scheduler can be met, for every number of edges. -/
theorem exists_reorder (m : ℕ) : ∃ ro : Reorder W, ro.Valid m := by
  classical
  exact ⟨⟨fun m k => (exists_isSort m k).choose, fun m k => (exists_isSort m k).choose, List.range (m - 1), List.range m, List.range m⟩,
    fun k => (exists_isSort m k).choose_spec, fun k => (exists_isSort m k).choose_spec, List.Perm.refl _, List.Perm.refl _,
    List.Perm.refl _⟩

open Traversal (exampleInput exampleInput_valid)

/-- Five points on a line, `k = 3`, both implementations. -/
example (b boruvka : Bool) : ∃ bits schedB ordP sc ro fuel iters parents heights weight,
    hdbscan boruvka (exampleGeo b) bits 3 exampleInput schedB ordP sc ro fuel iters = .ok (parents, heights) ∧
      IsDendrogram 5 weight parents heights := by
  obtain ⟨schedB, hB⟩ := Construction.exists_complete exampleInput.params (exampleInput_valid.keys (by decide))
  obtain ⟨sc, h1, h2⟩ := exists_sched exampleInput.n
  obtain ⟨ro, hro⟩ := exists_reorder (W := WithTop ℕ) (exampleInput.n - 1)
  obtain ⟨weight, -, -, h, h'⟩ := hdbscan_correct_partial boruvka (exampleGeo b) (fun x => x.untopD 0) 3 exampleInput
    exampleInput_valid (by decide) (by decide)
    (fun _ _ => rfl) (fun p q v h => Finset.inf_le
      (show q ∈ v from (show ({q} : Finset ℕ) ⊆ v from h) (Finset.mem_singleton_self q)))
    (fun p q => by simp only [exampleGeo]; rw [Nat.add_comm])
    (fun p _ q _ => WithTop.coe_lt_top _)
    ⟨fun p hp q hq => by
      have : p < 5 := hp
      have : q < 5 := hq
      change p - q + (q - p) < 2 ^ 31
      omega,
     fun p _ q _ a _ b _ hlt => by
      exact WithTop.coe_lt_coe.mp hlt⟩
    (mst_height_partial exampleInput exampleInput_valid (by decide) (.inl (by decide))) schedB (fun _ => hB)
    (List.range (2 * exampleInput.n - 2)) (List.Perm.refl _) (fun _ => ⟨sc, List.range exampleInput.n, List.range exampleInput.n⟩)
    (fun _ => ⟨h1, List.Perm.refl _, List.Perm.refl _⟩) ro hro (2 * exampleInput.n) le_rfl 4
  rcases h with h | ⟨p, t, h, hE⟩
  · exact absurd h (h' (fun _ => h2) (by decide))
  · exact ⟨_, _, _, _, _, _, _, _, _, weight, h, hE⟩

end ArborX.Hdbscan
