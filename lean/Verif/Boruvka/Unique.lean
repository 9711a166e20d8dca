import Verif.Boruvka.Determinism
import Mathlib.Tactic.IntervalCases
import Mathlib.Logic.Equiv.Basic

/-!
# Property theorems: what in the minimum spanning tree depends on the sorting (C82)
-/

namespace ArborX.Mst

open Graph (SpanningTree)

variable {W : Type} [LinearOrder W]

/-- The lists of weights of two minimum spanning trees agree up to order. -/
lemma IsMst.weights_perm {n : ℕ} {weight : ℕ → ℕ → W} {E E' : List (WeightedEdge W)} (h : IsMst n weight E)
    (h' : IsMst n weight E') : (E.map (·.weight)).Perm (E'.map (·.weight)) := by
  classical
  have hsum : ∀ (p : W → Bool) (L : List W), (L.map (fun y => if p y then 1 else 0)).sum = L.countP p := by
    intro p L
    induction L with
    | nil => rfl
    | cons a L ih =>
      rw [List.map_cons, List.sum_cons, ih, List.countP_cons, Nat.add_comm]
  have half : ∀ {F F' : List (WeightedEdge W)}, IsMst n weight F → IsMst n weight F' → ∀ p : W → Bool,
      (∀ x y, x ≤ y → p x → p y) → (F.map (·.weight)).countP p ≤ (F'.map (·.weight)).countP p := by
    intro F F' hF hF' p hp
    have := hF.minimal (F'.map (fun e => (e.source, e.target))) hF'.tree.range hF'.tree.connects ℕ
      (fun y => if p y then 1 else 0)
      (by
        intro x y hxy
        by_cases hx : p x
        · simp only [hx, hp x y hxy hx, if_true, le_refl]
        · simp only [hx]; exact Nat.zero_le _) (fun x => Nat.zero_le _)
    rw [List.map_map] at this
    have e : F'.map ((fun e : ℕ × ℕ => if p (weight e.1 e.2) then 1 else 0) ∘ fun e => (e.source, e.target))
        = F'.map (fun e => if p e.weight then 1 else 0) := by
      refine List.map_congr_left fun e he => ?_
      simp only [Function.comp]
      rw [← (hF'.weights e he).2]
    rw [e] at this
    rw [← hsum, ← hsum, List.map_map, List.map_map]
    exact this
  have both : ∀ p : W → Bool, (∀ x y, x ≤ y → p x → p y) →
      (E.map (·.weight)).countP p = (E'.map (·.weight)).countP p :=
    fun p hp => le_antisymm (half h h' p hp) (half h' h p hp)
  rw [List.perm_iff_count]
  intro x
  have split : ∀ L : List W, L.count x + L.countP (fun y => decide (x < y)) = L.countP (fun y => decide (x ≤ y)) := by
    intro L
    induction L with
    | nil => rfl
    | cons a L ih =>
      rw [List.count_cons, List.countP_cons, List.countP_cons, ← ih]
      rcases lt_trichotomy a x with hax | rfl | hax
      · simp [not_lt.mpr hax.le, not_le.mpr hax, hax.ne]
      · simp; omega
      · simp [hax, hax.le, hax.ne']; omega
  have h1 := split (E.map (·.weight))
  have h2 := split (E'.map (·.weight))
  rw [both (fun y => decide (x < y)) (by intro a b hab ha; simp only [decide_eq_true_eq] at *; exact lt_of_lt_of_le ha hab),
    both (fun y => decide (x ≤ y)) (by intro a b hab ha; simp only [decide_eq_true_eq] at *; exact le_trans ha hab)] at h1
  omega

/-- Only the weights between vertices matter. -/
lemma IsMst.congr {n : ℕ} {weight weight' : ℕ → ℕ → W} {E : List (WeightedEdge W)} (h : IsMst n weight E)
    (heq : ∀ p < n, ∀ q < n, weight p q = weight' p q) : IsMst n weight' E where
  weights e he := by
    obtain ⟨h1, h2⟩ := h.tree.range _ (List.mem_map.mpr ⟨e, he, rfl⟩)
    rw [← heq _ h1 _ h2]
    exact h.weights e he
  tree := h.tree
  minimal T hT hc K _ _ _ val hm h0 := by
    refine (h.minimal T hT hc K val hm h0).trans (le_of_eq ?_)
    congr 1
    refine List.map_congr_left fun e he => ?_
    rw [heq _ (hT e he).1 _ (hT e he).2]

end ArborX.Mst

namespace ArborX.Boruvka

open Mst (WeightedEdge IsMst IsCore mutualReach)
open BVH (Input)
open Graph (SpanningTree LightEdge)

variable {V W : Type} [LinearOrder W] [BoundedOrder W] [SemilatticeSup V] [OrderBot V] {w w' : ℕ}

omit [SemilatticeSup V] [OrderBot V] in
/-- The edges of the result are first in a cut of the points, up to ties. -/
lemma light_points {P : Points V W} (I : Input ℕ V w) (hI : I.Valid) (hval : ∀ p < I.n, I.values p = p)
    (hdist : ∀ p < I.n, ∀ q < I.n, ∀ p' < I.n, ∀ q' < I.n, p ≠ q → p' ≠ q' → P.weight p q = P.weight p' q' →
      s(p, q) = s(p', q'))
    {s : State W} (h : IterInv P (fun i => I.values (I.perm i)) I.n s) {e : WeightedEdge W} (he : e ∈ s.edges) :
    LightEdge I.n (ekey P id) (I.values (I.perm e.source), I.values (I.perm e.target)) := by
  obtain ⟨inv, hi1, hi2⟩ := exists_inverse I hI hval
  obtain ⟨e1, e2, e3, -, C, c1, c2, c3⟩ := h.edge e he
  refine ⟨fun p => C (inv p), ?_, ?_, ?_⟩
  · show C (inv _)
    rw [(hi2 _ e1).2]; exact c1
  · show ¬ C (inv _)
    rw [(hi2 _ e2).2]; exact c2
  · intro a ha b hb ca cb
    have hle := c3 _ (hi1 a ha).1 _ (hi1 b hb).1 ca cb
    unfold ekey at hle ⊢
    simp only [(hi1 a ha).2, (hi1 b hb).2, id] at hle ⊢
    have hw : P.weight (I.values (I.perm e.source)) (I.values (I.perm e.target)) ≤ P.weight a b := by
      rcases Prod.Lex.le_iff.mp hle with h | ⟨h, -⟩
      · exact h.le
      · exact h.le
    rcases hw.lt_or_eq with hlt | heq
    · exact Prod.Lex.le_iff.mpr (.inl hlt)
    · have hne : I.values (I.perm e.source) ≠ I.values (I.perm e.target) := by
        intro x
        refine e3 ?_
        rw [← (hi2 _ e1).2, ← (hi2 _ e2).2]
        exact congrArg inv x
      have hab : a ≠ b := by rintro rfl; exact cb ca
      have := hdist _ (hi2 _ e1).1 _ (hi2 _ e2).1 a ha b hb hne hab heq
      refine Prod.Lex.le_iff.mpr (.inr ⟨heq, ?_⟩)
      rcases Sym2.eq_iff.mp this with ⟨x, y⟩ | ⟨x, y⟩
      · rw [x, y]
      · rw [x, y]
        exact le_of_eq (by rw [min_comm b a, max_comm b a]; rfl)

omit [SemilatticeSup V] [OrderBot V] in
/-- Light trees have the same edges. -/
lemma same_of_light {P : Points V W} {n : ℕ} (hsymm : ∀ p q, P.weight p q = P.weight q p) {E E' : List (WeightedEdge W)}
    (h : IsMst n P.weight E) (h' : IsMst n P.weight E')
    (hl : ∀ e ∈ E, LightEdge n (ekey P id) (e.source, e.target))
    (hl' : ∀ e ∈ E', LightEdge n (ekey P id) (e.source, e.target)) :
    (E.map undirected).Perm (E'.map undirected) := by
  have hk := ekey_edgeKey (P := P) (value := id) hsymm
  have nd : ∀ F : List (WeightedEdge W), IsMst n P.weight F → (F.map undirected).Nodup := by
    intro F hF
    have := hF.tree.nodup
    rw [List.map_map] at this
    have e : (F.map undirected).map Prod.fst = F.map ((fun e : ℕ × ℕ => s(e.1, e.2)) ∘ fun e => (e.source, e.target)) := by
      rw [List.map_map]; rfl
    rw [← e] at this
    exact List.Nodup.of_map _ this
  have half : ∀ {F F' : List (WeightedEdge W)}, IsMst n P.weight F → IsMst n P.weight F' →
      (∀ e ∈ F, LightEdge n (ekey P id) (e.source, e.target)) → (∀ e ∈ F', LightEdge n (ekey P id) (e.source, e.target)) →
      ∀ x ∈ F.map undirected, x ∈ F'.map undirected := by
    intro F F' hF hF' lF lF' x hx
    obtain ⟨e, he, rfl⟩ := List.mem_map.mp hx
    obtain ⟨f, hf, hfe⟩ := Graph.light_edge_mem hk (S := F.map (fun e => (e.source, e.target)))
      (fun e he => ⟨(hF.tree.range e he).1, (hF.tree.range e he).2, by
        obtain ⟨f, hf, rfl⟩ := List.mem_map.mp he
        exact lF f hf⟩) hF'.tree (by
        intro e he
        obtain ⟨f, hf, rfl⟩ := List.mem_map.mp he
        exact lF' f hf) (e := (e.source, e.target)) (List.mem_map.mpr ⟨e, he, rfl⟩)
    obtain ⟨f', hf', rfl⟩ := List.mem_map.mp hf
    refine List.mem_map.mpr ⟨f', hf', Prod.ext hfe ?_⟩
    change f'.weight = e.weight
    rw [(hF'.weights f' hf').2, (hF.weights e he).2]
    dsimp only at hfe
    rcases Sym2.eq_iff.mp hfe with ⟨a, b⟩ | ⟨a, b⟩
    · rw [a, b]
    · rw [a, b, hsymm]
  rw [List.perm_ext_iff_of_nodup (nd _ h) (nd _ h')]
  exact fun x => ⟨half h h' hl hl' x, half h' h hl' hl x⟩

/-! ## Property theorems -/

/-- **C82 (partial).** The weights of the result depend neither on the schedule nor on the order into which the points
were sorted along any space-filling curve: two executions on the same points, with different trees, return the
same weights the same number of times. Ties are allowed.

Partial: as for C22. -/
theorem mst_weights_deterministic_partial (P P' : Points V W) (I : Input ℕ V w) (I' : Input ℕ V w') (hI : I.Valid) (hI' : I'.Valid)
    (hn : 2 ≤ I.n) (hn' : I'.n = I.n) (hbig : I.n ≤ 2 ^ 31) (hval : ∀ p < I.n, I.values p = p) (hval' : ∀ p < I.n, I'.values p = p)
    (heq : P'.weight = P.weight)
    (hbox : ∀ p q v, I.vol q ≤ v → P.dv p v ≤ P.dp p q) (hbox' : ∀ p q v, I'.vol q ≤ v → P'.dv p v ≤ P'.dp p q)
    (hmetric : ∀ p q, P.dp p q ≤ P.weight p q) (hmetric' : ∀ p q, P'.dp p q ≤ P'.weight p q)
    (hsymm : ∀ p q, P.weight p q = P.weight q p)
    (hfin : ∀ p < I.n, ∀ q < I.n, p ≠ q → P.weight p q < ⊤)
    (hcap : Nearest.StackFits I P.cap) (hcap' : Nearest.StackFits I' P'.cap)
    (schedB schedB' : List ℕ) (hf : I.Finished schedB) (hf' : I'.Finished schedB')
    (ordP ordP' : List ℕ) (hoP : ordP.Perm (List.range (2 * I.n - 2))) (hoP' : ordP'.Perm (List.range (2 * I.n - 2)))
    (sc sc' : ℕ → Sched) (hsc : ∀ it, (sc it).Valid I.n) (hsc' : ∀ it, (sc' it).Valid I.n)
    (fuel fuel' : ℕ) (hfuel : 2 * I.n ≤ fuel) (hfuel' : 2 * I.n ≤ fuel') (iters iters' : ℕ)
    (E E' : List (WeightedEdge W)) (hE : mst P I schedB ordP sc fuel iters = .ok E)
    (hE' : mst P' I' schedB' ordP' sc' fuel' iters' = .ok E') :
    (E.map (·.weight)).Perm (E'.map (·.weight)) := by
  obtain ⟨h1, -⟩ := mst_correct_partial P I hI hn hbig hval hbox hmetric hsymm hfin hcap schedB hf ordP hoP sc hsc fuel hfuel iters
  obtain ⟨h2, -⟩ := mst_correct_partial P' I' hI' (by omega) (by omega) (by rw [hn']; exact hval') hbox' hmetric' (by rw [heq]; exact hsymm)
    (by rw [heq, hn']; exact hfin) hcap' schedB' hf' ordP' (by rw [hn']; exact hoP') sc' (by rw [hn']; exact hsc') fuel'
    (by rw [hn']; exact hfuel') iters'
  rw [hE] at h1
  rw [hE', heq, hn'] at h2
  rcases h1 with h1 | ⟨F, e, h1⟩
  · cases h1
  rcases h2 with h2 | ⟨F', e', h2⟩
  · cases h2
  cases e
  cases e'
  exact h1.weights_perm h2

/-- **C82 (partial).** The same for the constructor of `MinimumSpanningTree` with any `k`. -/
theorem mst_k_weights_deterministic_partial (G G' : Geo V W) (hdp : G'.dp = G.dp) (k : ℕ) (I : Input ℕ V w) (I' : Input ℕ V w')
    (hI : I.Valid) (hI' : I'.Valid) (hn : 2 ≤ I.n) (hn' : I'.n = I.n) (hbig : I.n ≤ 2 ^ 31)
    (hval : ∀ p < I.n, I.values p = p) (hval' : ∀ p < I.n, I'.values p = p)
    (hbox : ∀ p q v, I.vol q ≤ v → G.dv p v ≤ G.dp p q) (hbox' : ∀ p q v, I'.vol q ≤ v → G'.dv p v ≤ G'.dp p q)
    (hsymm : ∀ p q, G.dp p q = G.dp q p) (hfin : ∀ p < I.n, ∀ q < I.n, G.dp p q < ⊤)
    (hcap : Nearest.StackFits I 64) (hcap' : Nearest.StackFits I' 64)
    (schedB schedB' : List ℕ) (hf : I.Finished schedB) (hf' : I'.Finished schedB')
    (ordP ordP' : List ℕ) (hoP : ordP.Perm (List.range (2 * I.n - 2))) (hoP' : ordP'.Perm (List.range (2 * I.n - 2)))
    (sc sc' : ℕ → Sched) (hsc : ∀ it, (sc it).Valid I.n) (hsc' : ∀ it, (sc' it).Valid I.n)
    (fuel fuel' : ℕ) (hfuel : 2 * I.n ≤ fuel) (hfuel' : 2 * I.n ≤ fuel') (iters iters' : ℕ)
    (E E' : List (WeightedEdge W)) (hE : mstK G k I schedB ordP sc fuel iters = .ok E)
    (hE' : mstK G' k I' schedB' ordP' sc' fuel' iters' = .ok E') :
    (E.map (·.weight)).Perm (E'.map (·.weight)) := by
  obtain ⟨wt, a1, a2, h1, -⟩ := mst_k_correct_partial G k I hI hn hbig hval hbox hsymm hfin hcap schedB hf ordP hoP sc hsc fuel hfuel iters
  obtain ⟨wt', b1, b2, h2, -⟩ := mst_k_correct_partial G' k I' hI' (by omega) (by omega) (by rw [hn']; exact hval') hbox'
    (by rw [hdp]; exact hsymm) (by rw [hdp, hn']; exact hfin) hcap' schedB' hf' ordP' (by rw [hn']; exact hoP') sc'
    (by rw [hn']; exact hsc') fuel' (by rw [hn']; exact hfuel') iters'
  rw [hE] at h1
  rw [hE', hn'] at h2
  rw [hdp] at b1 b2
  rw [hn'] at b2
  rcases h1 with h1 | ⟨F, e, h1⟩
  · cases h1
  rcases h2 with h2 | ⟨F', e', h2⟩
  · cases h2
  cases e
  cases e'
  refine h1.weights_perm (h2.congr fun p hp q hq => ?_)
  by_cases hk : 1 < k
  · obtain ⟨core, c1, rfl⟩ := a2 hk
    obtain ⟨core', c2, rfl⟩ := b2 hk
    unfold mutualReach
    rw [core_unique (c1 p hp) (c2 p hp), core_unique (c1 q hq) (c2 q hq)]
  · rw [a1 (by omega), b1 (by omega)]

/-- **C82 (partial).** If the weights of the edges are distinct, the edges of the result do not depend on the order into which the points were
sorted either.

Partial: as for C22. With ties they do: `mst_sort_dependent`. -/
theorem mst_deterministic_distinct_partial (P P' : Points V W) (I : Input ℕ V w) (I' : Input ℕ V w') (hI : I.Valid) (hI' : I'.Valid)
    (hn : 2 ≤ I.n) (hn' : I'.n = I.n) (hbig : I.n ≤ 2 ^ 31) (hval : ∀ p < I.n, I.values p = p) (hval' : ∀ p < I.n, I'.values p = p)
    (heq : P'.weight = P.weight)
    (hdist : ∀ p < I.n, ∀ q < I.n, ∀ p' < I.n, ∀ q' < I.n, p ≠ q → p' ≠ q' → P.weight p q = P.weight p' q' →
      s(p, q) = s(p', q'))
    (hbox : ∀ p q v, I.vol q ≤ v → P.dv p v ≤ P.dp p q) (hbox' : ∀ p q v, I'.vol q ≤ v → P'.dv p v ≤ P'.dp p q)
    (hmetric : ∀ p q, P.dp p q ≤ P.weight p q) (hmetric' : ∀ p q, P'.dp p q ≤ P'.weight p q)
    (hsymm : ∀ p q, P.weight p q = P.weight q p)
    (hfin : ∀ p < I.n, ∀ q < I.n, p ≠ q → P.weight p q < ⊤)
    (hcap : Nearest.StackFits I P.cap) (hcap' : Nearest.StackFits I' P'.cap)
    (schedB schedB' : List ℕ) (hf : I.Finished schedB) (hf' : I'.Finished schedB')
    (ordP ordP' : List ℕ) (hoP : ordP.Perm (List.range (2 * I.n - 2))) (hoP' : ordP'.Perm (List.range (2 * I.n - 2)))
    (sc sc' : ℕ → Sched) (hsc : ∀ it, (sc it).Valid I.n) (hsc' : ∀ it, (sc' it).Valid I.n)
    (fuel fuel' : ℕ) (hfuel : 2 * I.n ≤ fuel) (hfuel' : 2 * I.n ≤ fuel') (iters iters' : ℕ)
    (E E' : List (WeightedEdge W)) (hE : mst P I schedB ordP sc fuel iters = .ok E)
    (hE' : mst P' I' schedB' ordP' sc' fuel' iters' = .ok E') :
    (E.map undirected).Perm (E'.map undirected) := by
  have hsymm' : ∀ p q, P'.weight p q = P'.weight q p := by rw [heq]; exact hsymm
  have hfin' : ∀ p < I'.n, ∀ q < I'.n, p ≠ q → P'.weight p q < ⊤ := by rw [heq, hn']; exact hfin
  have hv' : ∀ p < I'.n, I'.values p = p := by rw [hn']; exact hval'
  rcases mst_run P I hI hn hbig hval hbox hmetric hsymm hfin hcap schedB hf ordP hoP sc hsc fuel hfuel iters with
    ⟨e, -⟩ | ⟨s, e, h, h1⟩
  · rw [hE] at e; cases e
  rcases mst_run P' I' hI' (by omega) (by omega) hv' hbox' hmetric' hsymm' hfin' hcap' schedB' hf' ordP' (by rw [hn']; exact hoP') sc'
      (by rw [hn']; exact hsc') fuel' (by rw [hn']; exact hfuel') iters' with ⟨e', -⟩ | ⟨s', e', h', h1'⟩
  · rw [hE'] at e'; cases e'
  have m := h.isMst I hI (by omega) hval ⟨hbig, hsymm⟩ h1
  have m' := h'.isMst I' hI' (by omega) hv' ⟨by omega, hsymm'⟩ h1'
  rw [heq, hn'] at m'
  rw [hE] at e
  rw [hE'] at e'
  cases e
  cases e'
  refine same_of_light hsymm m m' ?_ ?_
  · intro e he
    obtain ⟨f, hf, rfl⟩ := List.mem_map.mp he
    exact light_points I hI hval hdist h hf
  · intro e he
    obtain ⟨f, hf, rfl⟩ := List.mem_map.mp he
    have := light_points I' hI' hv' (by rw [heq, hn']; exact hdist) h' hf
    have ek : ekey P' id = ekey P id := by funext e; unfold ekey; rw [heq]
    rwa [ek, hn'] at this

/-! ## Ties -/

/-- Three points at the same place, sorted in the order `perm`. -/
def samePlace (perm : ℕ → ℕ) : Input ℕ (Finset ℕ) 64 := ⟨3, fun i => i, fun a => {a}, fun _ => 0, perm⟩

lemma samePlace_valid {perm : ℕ → ℕ} (h : ((List.range 3).map perm).Perm (List.range 3)) : (samePlace perm).Valid where
  width := by decide
  fits := by simp [samePlace]
  sorted := ⟨h, fun _ _ => le_rfl⟩
  top := fun _ _ => by simp [samePlace]

/-- All distances are zero. -/
def zeroPoints : Points (Finset ℕ) (WithTop ℕ) := ⟨fun _ _ => 0, fun _ v => v.inf (fun _ => 0), fun _ _ d => d, 64, false⟩

lemma samePlace_n0 {perm : ℕ → ℕ} : 0 < (samePlace perm).n := by show 0 < 3; decide
lemma samePlace_n2 {perm : ℕ → ℕ} : 2 ≤ (samePlace perm).n := by show 2 ≤ 3; decide
lemma samePlace_n129 {perm : ℕ → ℕ} : (samePlace perm).n ≤ 129 := by show 3 ≤ 129; decide
lemma samePlace_nbig {perm : ℕ → ℕ} : (samePlace perm).n ≤ 2 ^ 31 := by show 3 ≤ 2 ^ 31; decide

/-- No edge joins the second and the third leaf. -/
lemma samePlace_star {perm : ℕ → ℕ} (h : ((List.range 3).map perm).Perm (List.range 3)) {schedB : List ℕ}
    (hf : (samePlace perm).Finished schedB) {ordP : List ℕ} (hoP : ordP.Perm (List.range 4)) {sc : ℕ → Sched}
    (hsc : ∀ it, (sc it).Valid 3) {fuel : ℕ} (hfuel : 6 ≤ fuel) {iters : ℕ} {E : List (WeightedEdge (WithTop ℕ))}
    (hE : mst zeroPoints (samePlace perm) schedB ordP sc fuel iters = .ok E) :
    IsMst 3 zeroPoints.weight E ∧ ∀ e ∈ E, s(e.source, e.target) ≠ s(perm 1, perm 2) := by
  have hI := samePlace_valid h
  have hcap : Nearest.StackFits (samePlace perm) 64 := mst_height_partial _ hI samePlace_n2 (.inl samePlace_n129)
  have hsymm : ∀ p q, zeroPoints.weight p q = zeroPoints.weight q p := fun _ _ => rfl
  have hfin : ∀ p < (samePlace perm).n, ∀ q < (samePlace perm).n, p ≠ q → zeroPoints.weight p q < ⊤ :=
    fun _ _ _ _ _ => WithTop.coe_lt_top 0
  rcases mst_run zeroPoints (samePlace perm) hI samePlace_n2 samePlace_nbig (fun _ _ => rfl)
      (fun p q v hv => Finset.inf_le (show q ∈ v from (show ({q} : Finset ℕ) ⊆ v from hv) (Finset.mem_singleton_self q)))
      (fun _ _ => le_rfl) hsymm hfin hcap schedB hf ordP hoP sc hsc fuel hfuel iters with ⟨e, -⟩ | ⟨s, e, hi, h1⟩
  · rw [hE] at e; cases e
  have m := hi.isMst (samePlace perm) hI samePlace_n0 (fun _ _ => rfl)
    ⟨samePlace_nbig, hsymm⟩ h1
  rw [hE] at e
  cases e
  refine ⟨m, ?_⟩
  intro e he
  obtain ⟨f, hf', rfl⟩ := List.mem_map.mp he
  obtain ⟨inv, -, hi2⟩ := exists_inverse (samePlace perm) hI (fun _ _ => rfl)
  obtain ⟨f1, f2, f3, -, C, c1, c2, c3⟩ := hi.edge f hf'
  have pinj : ∀ i < 3, ∀ j < 3, perm i = perm j → i = j := by
    intro i hi' j hj hij
    rw [← (hi2 i hi').2, ← (hi2 j hj).2]
    exact congrArg inv hij
  intro heq
  change s(perm f.source, perm f.target) = s(perm 1, perm 2) at heq
  -- the edge joins the leaves 1 and 2, but the edge from leaf 0 comes first
  have g1 : f.source < 3 := f1
  have g2 : f.target < 3 := f2
  have hst : (f.source = 1 ∧ f.target = 2) ∨ (f.source = 2 ∧ f.target = 1) := by
    rcases Sym2.eq_iff.mp heq with ⟨a, b⟩ | ⟨a, b⟩
    · exact .inl ⟨pinj _ g1 1 (by omega) a, pinj _ g2 2 (by omega) b⟩
    · exact .inr ⟨pinj _ g1 2 (by omega) a, pinj _ g2 1 (by omega) b⟩
  have key : ∀ a < 3, ∀ b < 3, C a → ¬ C b →
      toLex (min f.source f.target, max f.source f.target) ≤ toLex (min a b, max a b) := by
    intro a ha b hb ca cb
    rcases Prod.Lex.le_iff.mp (c3 a ha b hb ca cb) with h | ⟨-, h⟩
    · exact absurd h (lt_irrefl (0 : WithTop ℕ))
    · exact h
  by_cases h0 : C 0
  · have := key 0 (by omega) f.target g2 h0 c2
    rcases hst with ⟨a, b⟩ | ⟨a, b⟩ <;> rw [a, b] at this <;> revert this <;> decide
  · have := key f.source g1 0 (by omega) c1 h0
    rcases hst with ⟨a, b⟩ | ⟨a, b⟩ <;> rw [a, b] at this <;> revert this <;> decide

/-- **C82 (what does not hold).** With ties, the edges depend on the order into which `sortByKey` puts points with the same
Morton code, which is not specified (the sort is not stable): for three points at the same place, sorted as 0, 1, 2 and as
1, 0, 2, both executions end, whatever the schedules, and their results differ. -/
theorem mst_sort_dependent (schedB schedB' : List ℕ) (hf : (samePlace id).Finished schedB)
    (hf' : (samePlace (Equiv.swap 0 1)).Finished schedB') (ordP ordP' : List ℕ) (hoP : ordP.Perm (List.range 4))
    (hoP' : ordP'.Perm (List.range 4)) (sc sc' : ℕ → Sched) (hsc : ∀ it, (sc it).Valid 3 ∧ (sc it).Fair 3)
    (hsc' : ∀ it, (sc' it).Valid 3 ∧ (sc' it).Fair 3) (fuel fuel' : ℕ) (hfuel : 6 ≤ fuel) (hfuel' : 6 ≤ fuel') (iters iters' : ℕ)
    (hit : 2 ≤ iters) (hit' : 2 ≤ iters') :
    ∃ E E', mst zeroPoints (samePlace id) schedB ordP sc fuel iters = .ok E ∧
      mst zeroPoints (samePlace (Equiv.swap 0 1)) schedB' ordP' sc' fuel' iters' = .ok E' ∧
      ¬ (E.map undirected).Perm (E'.map undirected) := by
  have ends : ∀ {perm : ℕ → ℕ} (_ : ((List.range 3).map perm).Perm (List.range 3)) {schedB : List ℕ}
      (_ : (samePlace perm).Finished schedB) {ordP : List ℕ} (_ : ordP.Perm (List.range 4)) {sc : ℕ → Sched}
      (_ : ∀ it, (sc it).Valid 3 ∧ (sc it).Fair 3) {fuel : ℕ} (_ : 6 ≤ fuel) {iters : ℕ} (_ : 2 ≤ iters),
      ∃ E, mst zeroPoints (samePlace perm) schedB ordP sc fuel iters = .ok E := by
    intro perm h schedB hf ordP hoP sc hsc fuel hfuel iters hit
    have hI := samePlace_valid h
    obtain ⟨h1, h2⟩ := mst_correct_partial zeroPoints (samePlace perm) hI samePlace_n2 samePlace_nbig (fun _ _ => rfl)
      (fun p q v hv => Finset.inf_le (show q ∈ v from (show ({q} : Finset ℕ) ⊆ v from hv) (Finset.mem_singleton_self q)))
      (fun _ _ => le_rfl) (fun _ _ => rfl) (fun _ _ _ _ _ => WithTop.coe_lt_top 0)
      (mst_height_partial _ hI samePlace_n2 (.inl samePlace_n129)) schedB hf ordP hoP sc (fun it => (hsc it).1) fuel hfuel iters
    rcases h1 with h1 | ⟨E, h1, -⟩
    · refine absurd h1 (h2 (fun it => (hsc it).2) ?_)
      have : 2 ^ 2 ≤ 2 ^ iters := Nat.pow_le_pow_right (by omega) hit
      show 3 ≤ 2 ^ iters
      omega
    · exact ⟨E, h1⟩
  have p1 : ((List.range 3).map id).Perm (List.range 3) := by decide
  have p2 : ((List.range 3).map (Equiv.swap 0 1)).Perm (List.range 3) := by decide
  obtain ⟨E, e⟩ := ends p1 hf hoP hsc hfuel hit
  obtain ⟨E', e'⟩ := ends p2 hf' hoP' hsc' hfuel' hit'
  refine ⟨E, E', e, e', ?_⟩
  obtain ⟨m, h1⟩ := samePlace_star p1 hf hoP (fun it => (hsc it).1) hfuel e
  obtain ⟨m', h2⟩ := samePlace_star p2 hf' hoP' (fun it => (hsc' it).1) hfuel' e'
  intro hp
  -- the point 2 has an edge to 0 in the first result, and not in the second
  have c := m.tree.connects 2 (by omega) 0 (by omega)
  have : ∃ f ∈ E, s(f.source, f.target) = s(0, 2) := by
    by_contra hno
    push Not at hno
    have := (Graph.Conn.invariant (C := fun x => x = 2) (fun g hg => ?_) c).mp rfl
    · simp at this
    obtain ⟨f, hf, rfl⟩ := List.mem_map.mp hg
    obtain ⟨r1, r2⟩ := m.tree.range _ hg
    have n1 := h1 f hf
    have samePlace_n2 := hno f hf
    have n3 := (m.weights f hf).1
    dsimp only at r1 r2 ⊢
    revert n1 samePlace_n2
    interval_cases hs : f.source <;> interval_cases ht : f.target <;> simp_all
  obtain ⟨f, hf, hs⟩ := this
  have hu : undirected f ∈ E'.map undirected := hp.subset (List.mem_map_of_mem hf)
  obtain ⟨g, hg, hgf⟩ := List.mem_map.mp hu
  refine h2 g hg ?_
  have : s(g.source, g.target) = s(f.source, f.target) := congrArg Prod.fst hgf
  rw [this, hs]
  decide

/-! ## Non-vacuity -/

/-- The premises of `mst_sort_dependent` can be met. -/
example : ∃ (schedB schedB' : List ℕ) (sc : ℕ → Sched), (samePlace id).Finished schedB ∧ (samePlace (Equiv.swap 0 1)).Finished schedB' ∧
    ∀ it, (sc it).Valid 3 ∧ (sc it).Fair 3 := by
  have h1 := samePlace_valid (perm := id) (by decide)
  have h2 := samePlace_valid (perm := Equiv.swap 0 1) (by decide)
  obtain ⟨s1, f1⟩ := Construction.exists_complete (samePlace id).params (h1.keys (by decide))
  obtain ⟨s2, f2⟩ := Construction.exists_complete (samePlace (Equiv.swap 0 1)).params (h2.keys (by decide))
  obtain ⟨sc, v, f⟩ := exists_sched 3
  exact ⟨s1, s2, fun _ => sc, fun _ => f1, fun _ => f2, fun _ => ⟨v, f⟩⟩

/-- Distances of 1, 2, 4, 8, 16 on a line are distinct. -/
example : ∀ p < 5, ∀ q < 5, ∀ p' < 5, ∀ q' < 5, p ≠ q → p' ≠ q' →
    (2 ^ p - 2 ^ q + (2 ^ q - 2 ^ p) : ℕ) = 2 ^ p' - 2 ^ q' + (2 ^ q' - 2 ^ p') → s(p, q) = s(p', q') := by
  have h : ∀ p q p' q' : Fin 5, p ≠ q ∧ p' ≠ q' ∧
      (2 ^ p.1 - 2 ^ q.1 + (2 ^ q.1 - 2 ^ p.1) : ℕ) = 2 ^ p'.1 - 2 ^ q'.1 + (2 ^ q'.1 - 2 ^ p'.1) →
      (p.1 = p'.1 ∧ q.1 = q'.1) ∨ (p.1 = q'.1 ∧ q.1 = p'.1) := by decide +kernel
  intro p hp q hq p' hp' q' hq' h1 h2 h3
  exact Sym2.eq_iff.mpr (h ⟨p, hp⟩ ⟨q, hq⟩ ⟨p', hp'⟩ ⟨q', hq'⟩
    ⟨fun e => h1 (congrArg Fin.val e), fun e => h2 (congrArg Fin.val e), h3⟩)

end ArborX.Boruvka
