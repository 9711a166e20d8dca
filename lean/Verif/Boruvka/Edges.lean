import Verif.Boruvka.Search
import Verif.Boruvka.Merge
import Verif.Graph.Optimal
import Mathlib.Data.Prod.Lex
import Mathlib.Data.Finset.Prod

/-!
# The edge of every component (lemmas)
-/

namespace ArborX.Boruvka

open Function (update)
open Mst (DirectedEdge WeightedEdge)

variable {V W : Type} [LinearOrder W] [BoundedOrder W] [SemilatticeSup V]

/-- Order of the edges between leaves: weight, smaller leaf, larger leaf. -/
def ekey (P : Points V W) (value : ℕ → ℕ) (e : ℕ × ℕ) : W ×ₗ ℕ ×ₗ ℕ :=
  toLex (P.weight (value e.1) (value e.2), toLex (min e.1 e.2, max e.1 e.2))

/-- Standing assumptions on the weights. -/
structure Setting (P : Points V W) (value : ℕ → ℕ) (n : ℕ) : Prop where
  big : n ≤ 2 ^ 31
  symm : ∀ p q, P.weight p q = P.weight q p

/-- The leaves are connected by edges of finite weight: every set of leaves that is neither empty nor full has such an
edge to its complement. -/
def Linked (P : Points V W) (value : ℕ → ℕ) (n : ℕ) : Prop :=
  ∀ S : ℕ → Prop, (∃ a < n, S a) → (∃ b < n, ¬ S b) →
    ∃ a < n, ∃ b < n, S a ∧ ¬ S b ∧ P.weight (value a) (value b) < ⊤

variable {P : Points V W} {value : ℕ → ℕ} {n : ℕ} {lab : ℕ → ℤ}

omit [SemilatticeSup V] in
lemma ekey_le {a b c d : ℕ} : ekey P value (a, b) ≤ ekey P value (c, d) ↔
    P.weight (value a) (value b) < P.weight (value c) (value d) ∨
    (P.weight (value a) (value b) = P.weight (value c) (value d) ∧
      (min a b < min c d ∨ (min a b = min c d ∧ max a b ≤ max c d))) := by
  unfold ekey
  rw [Prod.Lex.toLex_le_toLex, Prod.Lex.toLex_le_toLex]

omit [SemilatticeSup V] in
lemma ekey_edgeKey (hs : ∀ p q, P.weight p q = P.weight q p) : Graph.EdgeKey (ekey P value) where
  symm := by
    intro a b
    unfold ekey
    rw [hs, min_comm, max_comm]
  inj := by
    intro a b c d h
    unfold ekey at h
    have h := toLex.injective h
    have h := toLex.injective (Prod.ext_iff.mp h).2
    have h1 := (Prod.ext_iff.mp h).1
    have h2 := (Prod.ext_iff.mp h).2
    dsimp only at h1 h2
    omega

omit [SemilatticeSup V] in
lemma ekey_weight {e f : ℕ × ℕ} (h : ekey P value e ≤ ekey P value f) :
    P.weight (value e.1) (value e.2) ≤ P.weight (value f.1) (value f.2) := by
  obtain ⟨a, b⟩ := e
  obtain ⟨c, d⟩ := f
  rcases ekey_le.mp h with h | h
  · exact h.le
  · exact h.1.le

/-- `(i, j)` is the first of the edges leaving the component `c`, and its weight is finite. -/
structure Best (P : Points V W) (value : ℕ → ℕ) (n : ℕ) (lab : ℕ → ℤ) (c i j : ℕ) : Prop where
  ilt : i < n
  jlt : j < n
  inside : comp lab i = c
  outside : comp lab j ≠ c
  finite : P.weight (value i) (value j) < ⊤
  min : ∀ a < n, ∀ b < n, comp lab a = c → comp lab b ≠ c → ekey P value (i, j) ≤ ekey P value (a, b)

omit [SemilatticeSup V] in
lemma Best.exists {c : ℕ}
    (ho : ∃ a < n, ∃ b < n, comp lab a = c ∧ comp lab b ≠ c ∧ P.weight (value a) (value b) < ⊤) :
    ∃ i j, Best P value n lab c i j := by
  classical
  obtain ⟨a, ha, b, hb, hac, hbc, hfin⟩ := ho
  let S := ((Finset.range n) ×ˢ (Finset.range n)).filter (fun e : ℕ × ℕ => comp lab e.1 = c ∧ comp lab e.2 ≠ c)
  have hne : S.Nonempty := ⟨(a, b), by simp [S, ha, hb, hac, hbc]⟩
  obtain ⟨e, he, hmin⟩ := Finset.exists_min_image S (ekey P value) hne
  simp only [S, Finset.mem_filter, Finset.mem_product, Finset.mem_range] at he hmin
  have hle := ekey_weight (hmin (a, b) ⟨⟨ha, hb⟩, hac, hbc⟩)
  exact ⟨e.1, e.2, he.1.1, he.1.2, he.2.1, he.2.2, lt_of_le_of_lt hle hfin, fun a ha b hb h1 h2 => hmin (a, b) ⟨⟨ha, hb⟩, h1, h2⟩⟩

omit [SemilatticeSup V] in
lemma Best.ne {c i j : ℕ} (h : Best P value n lab c i j) : i ≠ j := by
  rintro rfl
  exact h.outside h.inside

omit [SemilatticeSup V] in
lemma Best.weight_le {c i j a b : ℕ} (h : Best P value n lab c i j) (ha : a < n) (hb : b < n)
    (h1 : comp lab a = c) (h2 : comp lab b ≠ c) :
    P.weight (value i) (value j) ≤ P.weight (value a) (value b) :=
  ekey_weight (h.min a ha b hb h1 h2)

omit [SemilatticeSup V] in
/-- Two crossing edges of equal key, both directed out of the component, are equal. -/
lemma Best.strict {c i j a b : ℕ} (h : Best P value n lab c i j) (ha : a < n) (hb : b < n)
    (h1 : comp lab a = c) (h2 : comp lab b ≠ c) (hne : ¬ (a = i ∧ b = j)) :
    P.weight (value i) (value j) < P.weight (value a) (value b) ∨
    (P.weight (value i) (value j) = P.weight (value a) (value b) ∧
      (Min.min i j < Min.min a b ∨ (Min.min i j = Min.min a b ∧ max i j < max a b))) := by
  rcases ekey_le.mp (h.min a ha b hb h1 h2) with hh | ⟨hw, hh | ⟨hm, hh⟩⟩
  · exact .inl hh
  · exact .inr ⟨hw, .inl hh⟩
  · refine .inr ⟨hw, .inr ⟨hm, lt_of_le_of_ne hh (fun hx => ?_)⟩⟩
    have hcase : (a = i ∧ b = j) ∨ (a = j ∧ b = i) := by omega
    rcases hcase with hcase | ⟨rfl, rfl⟩
    · exact hne hcase
    · exact h.outside h1

omit [SemilatticeSup V] in
lemma Best.unique {c i j a b : ℕ} (h : Best P value n lab c i j) (h' : Best P value n lab c a b) : a = i ∧ b = j := by
  by_contra hne
  rcases h.strict h'.ilt h'.jlt h'.inside h'.outside hne with hh | ⟨hw, hh⟩
  · exact absurd (h'.weight_le h.ilt h.jlt h.inside h.outside) (not_le.mpr hh)
  · rcases ekey_le.mp (h'.min i h.ilt j h.jlt h.inside h.outside) with hh' | ⟨-, hh'⟩
    · rw [hw] at hh'; exact lt_irrefl _ hh'
    · omega

omit [SemilatticeSup V] in
lemma Best.target {c i j : ℕ} (hset : Setting P value n) (hl : Labelling n lab) (h : Best P value n lab c i j) :
    Target P value lab n i j where
  lt := h.jlt
  other := by
    intro e
    exact h.outside (((hl.comp_eq h.ilt h.jlt).mpr e).symm.trans h.inside)
  fin := Mst.directed_edge_lt_default _ _ (lt_of_lt_of_le h.ilt hset.big) (lt_of_lt_of_le h.jlt hset.big) _ _ le_top
  min := by
    intro k hk hik hne
    have hk' : comp lab k ≠ c := by
      rw [← h.inside]; intro e; exact hik ((hl.comp_eq hk h.ilt).mp e).symm
    have := h.strict h.ilt hk h.inside hk' (fun e => hne (by rw [e.2]))
    unfold cand
    rw [Mst.directed_edge_order _ _ _ _ (lt_of_lt_of_le h.ilt hset.big) (lt_of_lt_of_le h.jlt hset.big)
      (lt_of_lt_of_le h.ilt hset.big) (lt_of_lt_of_le hk hset.big)]
    rcases this with h | ⟨hw, h | ⟨h, h'⟩⟩
    · exact .inl h
    · exact .inr ⟨hw, .inl h⟩
    · exact .inr ⟨hw, .inr ⟨h, .inl h'⟩⟩
  least := by
    intro k hk hik
    have hk' : comp lab k ≠ c := by
      rw [← h.inside]; intro e; exact hik ((hl.comp_eq hk h.ilt).mp e).symm
    exact h.weight_le h.ilt hk h.inside hk'

/-! ## Radii -/

omit [SemilatticeSup V] in
lemma resetRadii_spec {mem : Mem ℕ V}
    (hleaf : ∀ i < n, ∃ lf, mem.leaf i = some lf ∧ lf.value = value i)
    (hset : Setting P value n) (hl : Labelling n lab) {ord : List ℕ} (ho : ∀ k ∈ ord, k < 2 * (n - 1)) :
    ∃ radii, resetRadii P mem lab ord = some radii ∧
      ∀ c i j, Best P value n lab c i j → P.weight (value i) (value j) ≤ radii c := by
  have key : ∀ (ord : List ℕ) (r0 : ℕ → W), (∀ k ∈ ord, k < 2 * (n - 1)) →
      (∀ c i j, Best P value n lab c i j → P.weight (value i) (value j) ≤ r0 c) →
      ∃ radii, ord.foldl (fun o k => o.bind (fun radii => radiusOp P mem lab radii k)) (some r0) = some radii ∧
      ∀ c i j, Best P value n lab c i j → P.weight (value i) (value j) ≤ radii c := by
    intro ord
    induction ord with
    | nil => intro r0 _ h; exact ⟨r0, rfl, h⟩
    | cons k ord ih =>
      intro r0 ho h
      rw [List.foldl_cons, Option.bind_some]
      have hk := ho k List.mem_cons_self
      have ho' : ∀ k ∈ ord, k < 2 * (n - 1) := fun k hk => ho k (List.mem_cons_of_mem _ hk)
      have hi : k / 2 < n := by omega
      have hi' : k / 2 + 1 < n := by omega
      unfold radiusOp
      dsimp only
      split_ifs with he hpar
      · exact ih r0 ho' h
      · obtain ⟨a, ha, hav⟩ := hleaf _ hi
        obtain ⟨b, hb, hbv⟩ := hleaf _ hi'
        rw [ha, hb]
        dsimp only
        refine ih _ ho' (fun c i j hb => ?_)
        by_cases hc : c = comp lab (k / 2)
        · subst hc
          rw [Function.update_self]
          refine le_min (h _ _ _ hb) ?_
          rw [hav, hbv]
          refine hb.weight_le hi hi' rfl ?_
          intro e; exact he ((hl.comp_eq hi' hi).mp e).symm
        · rw [Function.update_of_ne hc]; exact h c i j hb
      · obtain ⟨a, ha, hav⟩ := hleaf _ hi
        obtain ⟨b, hb, hbv⟩ := hleaf _ hi'
        rw [ha, hb]
        dsimp only
        refine ih _ ho' (fun c i j hb => ?_)
        by_cases hc : c = comp lab (k / 2 + 1)
        · subst hc
          rw [Function.update_self]
          refine le_min (h _ _ _ hb) ?_
          rw [hav, hbv]
          have := hb.weight_le hi' hi rfl (by intro e; exact he ((hl.comp_eq hi hi').mp e))
          rw [hset.symm (value (k / 2 + 1))] at this
          exact this
        · rw [Function.update_of_ne hc]; exact h c i j hb
  exact key ord _ ho (fun _ _ _ _ => le_top)

/-! ## The searches -/

/-- What the searches deliver. -/
structure Found (P : Points V W) (value : ℕ → ℕ) (n : ℕ) (lab : ℕ → ℤ) (best : ℕ → Option (DirectedEdge W)) : Prop where
  out : ∀ i < n, ∀ e, best i = some e → Outgoing P value lab n i e
  best : ∀ c i j, Best P value n lab c i j → best i = some (cand P value i j)

variable {vol : ℕ → V}

lemma searchPar_spec {mem : Mem ℕ V} {T : BTree} (hwf : WellFormed mem value vol T) (hn : 2 ≤ mem.size)
    (had : P.Admissible vol) (hcap : Nearest.need T < P.cap) {fuel : ℕ} (hfuel : 2 * mem.size ≤ fuel)
    (hlab : ∀ i < mem.size, LabelsOk mem value vol lab i) (hset : Setting P value mem.size)
    (hl : Labelling mem.size lab) {radii : ℕ → W}
    (hr : ∀ c i j, Best P value mem.size lab c i j → P.weight (value i) (value j) ≤ radii c) :
    ∃ best, searchPar P mem lab fuel radii = some best ∧ Found P value mem.size lab best := by
  have sp := fun i (hi : i < mem.size) =>
    search_spec hwf hn had hcap hfuel hi (hlab i hi) (radii (comp lab i))
  unfold searchPar
  rw [if_pos]
  · refine ⟨_, rfl, ?_, ?_⟩
    · intro i hi e he
      obtain ⟨b, r, e1, e2⟩ := sp i hi
      simp only [e1, Option.some.injEq] at he
      rw [← he]
      exact e2.out (.inl rfl)
    · intro c i j hb
      obtain ⟨b, r, e1, e2⟩ := sp i hb.ilt
      simp only [e1, Option.some.injEq]
      exact e2.tgt j (hb.target hset hl) (by rw [hb.inside]; exact hr c i j hb) (.inl rfl)
        (.inl (List.mem_range.mpr hb.jlt))
  · rw [List.all_eq_true]
    intro i hi
    obtain ⟨b, r, e1, e2⟩ := sp i (List.mem_range.mp hi)
    simp only [e1]

lemma searchSerial_spec {mem : Mem ℕ V} {T : BTree} (hwf : WellFormed mem value vol T) (hn : 2 ≤ mem.size)
    (had : P.Admissible vol) (hcap : Nearest.need T < P.cap) {fuel : ℕ} (hfuel : 2 * mem.size ≤ fuel)
    (hlab : ∀ i < mem.size, LabelsOk mem value vol lab i) (hset : Setting P value mem.size)
    (hl : Labelling mem.size lab) {radii lower : ℕ → W}
    (hr : ∀ c i j, Best P value mem.size lab c i j → P.weight (value i) (value j) ≤ radii c)
    (hlow : ∀ i < mem.size, ∀ j < mem.size, lab i ≠ lab j → lower i ≤ P.weight (value i) (value j)) :
    ∃ best, searchSerial P mem lab lower fuel radii = some best ∧ Found P value mem.size lab best := by
  have key : ∀ (L : List ℕ) (s : (ℕ → W) × (ℕ → Option (DirectedEdge W))), (∀ i ∈ L, i < mem.size) →
      (∀ c i j, Best P value mem.size lab c i j → P.weight (value i) (value j) ≤ s.1 c) →
      (∀ i < mem.size, ∀ e, s.2 i = some e → Outgoing P value lab mem.size i e) →
      (∀ c i j, Best P value mem.size lab c i j → i ∈ L ∨ s.2 i = some (cand P value i j)) →
      ∃ s', L.foldl (fun o i => o.bind (fun s => serialStep P mem lab lower fuel s i)) (some s) = some s' ∧
        Found P value mem.size lab s'.2 := by
    intro L
    induction L with
    | nil =>
      intro s _ _ h2 h3
      exact ⟨s, rfl, h2, fun c i j hb => (h3 c i j hb).resolve_left (by simp)⟩
    | cons u L ih =>
      intro s hL h1 h2 h3
      rw [List.foldl_cons, Option.bind_some]
      have hu := hL u List.mem_cons_self
      have hL' : ∀ i ∈ L, i < mem.size := fun i hi => hL i (List.mem_cons_of_mem _ hi)
      unfold serialStep
      dsimp only
      split_ifs with hlo
      · obtain ⟨b, r, e1, e2⟩ := search_spec hwf hn had hcap hfuel hu (hlab u hu) (s.1 (comp lab u))
        rw [e1]
        dsimp only
        refine ih _ hL' ?_ ?_ ?_
        · intro c i j hb
          dsimp only
          by_cases hc : c = comp lab u
          · subst hc
            rw [Function.update_self]
            refine e2.low _ (h1 _ i j hb) (fun k hk huk => ?_)
            exact hb.weight_le hu hk rfl (fun e => huk ((hl.comp_eq hk hu).mp e).symm)
          · rw [Function.update_of_ne hc]; exact h1 c i j hb
        · intro i hi e he
          dsimp only at he
          by_cases hiu : i = u
          · subst hiu
            rw [Function.update_self, Option.some.injEq] at he
            rw [← he]
            exact e2.out (.inl rfl)
          · rw [Function.update_of_ne hiu] at he; exact h2 i hi e he
        · intro c i j hb
          dsimp only
          by_cases hiu : i = u
          · subst hiu
            right
            rw [Function.update_self, Option.some.injEq]
            exact e2.tgt j (hb.target hset hl) (by rw [hb.inside]; exact h1 c i j hb) (.inl rfl)
              (.inl (List.mem_range.mpr hb.jlt))
          · rw [Function.update_of_ne hiu]
            rcases h3 c i j hb with h | h
            · rcases List.mem_cons.mp h with h | h
              · exact absurd h hiu
              · exact .inl h
            · exact .inr h
      · refine ih s hL' h1 h2 (fun c i j hb => ?_)
        rcases h3 c i j hb with h | h
        · rcases List.mem_cons.mp h with h | h
          · exfalso
            subst h
            apply hlo
            rw [hb.inside]
            exact (hlow i hb.ilt j hb.jlt (hb.target hset hl).other).trans (h1 c i j hb)
          · exact .inl h
        · exact .inr h
  obtain ⟨s', e1, e2⟩ := key (List.range mem.size) (radii, fun _ => none) (fun i hi => List.mem_range.mp hi) hr
    (by simp) (fun c i j hb => .inl (List.mem_range.mpr hb.ilt))
  unfold searchSerial
  rw [e1]
  exact ⟨s'.2, rfl, e2⟩

/-! ## The minimum of the weights -/

structure TailInv (P : Points V W) (value : ℕ → ℕ) (n : ℕ) (lab : ℕ → ℤ) (best : ℕ → Option (DirectedEdge W))
    (s : Tail W) : Prop where
  out : ∀ t < n, s.out t = DirectedEdge.default ⊤ ∨ best t = some (s.out t)
  low : ∀ c i j, Best P value n lab c i j → P.weight (value i) (value j) ≤ s.weights c
  past : ∀ c i j, Best P value n lab c i j → ∀ w ∈ s.past c, P.weight (value i) (value j) ≤ w
  fin : ∀ c i j, Best P value n lab c i j → s.thr i = .done →
    s.weights c = P.weight (value i) (value j) ∧ s.out i = cand P value i j
  swap : ∀ t < n, s.thr t = .swap → ∃ e, best t = some e ∧ e.weight < ⊤

omit [SemilatticeSup V] in
lemma outgoing_weight (hl : Labelling n lab) {best : ℕ → Option (DirectedEdge W)}
    (hf : Found P value n lab best) {c i j t : ℕ} (hb : Best P value n lab c i j) (ht : t < n)
    (hc : comp lab t = c) {e : DirectedEdge W} (he : best t = some e) :
    P.weight (value i) (value j) ≤ e.weight := by
  rcases hf.out t ht e he with rfl | ⟨k, hk, hk', rfl⟩
  · exact le_top
  · exact hb.weight_le ht hk hc (fun e => hk' ((hl.comp_eq hk ht).mp (e.trans hc.symm)).symm)

omit [SemilatticeSup V] in
lemma TailInv.seen {best : ℕ → Option (DirectedEdge W)} {s : Tail W} (h : TailInv P value n lab best s)
    {c i j : ℕ} (hb : Best P value n lab c i j) (k : ℕ) :
    P.weight (value i) (value j) ≤ Boruvka.seen (s.weights c) (s.past c) k := by
  rcases seen_mem (s.weights c) (s.past c) k with e | e
  · rw [e]; exact h.low c i j hb
  · exact h.past c i j hb _ e

/-- Steps a thread still needs. -/
def tailRank : TT → ℕ
  | .check => 2
  | .swap => 1
  | .done => 0

omit [SemilatticeSup V] in
lemma TailInv.step (hl : Labelling n lab) {best : ℕ → Option (DirectedEdge W)}
    (hf : Found P value n lab best) {s : Tail W} (h : TailInv P value n lab best s) (t k : ℕ) :
    TailInv P value n lab best (tailStep n lab best s (t, k)) ∧
      (∀ u, u ≠ t → (tailStep n lab best s (t, k)).thr u = s.thr u) ∧
      (t < n → tailRank ((tailStep n lab best s (t, k)).thr t) + 1 ≤ tailRank (s.thr t) ∨ s.thr t = .done) := by
  by_cases htn : n ≤ t
  · have e : tailStep n lab best s (t, k) = s := by unfold tailStep; exact if_pos htn
    rw [e]
    exact ⟨h, fun _ _ => rfl, fun hh => by omega⟩
  have htn' : t < n := by omega
  unfold tailStep
  dsimp only
  rw [if_neg htn]
  cases hts : s.thr t with
  | check =>
    cases hbt : best t with
    | none =>
      dsimp only
      refine ⟨⟨h.out, h.low, h.past, ?_, ?_⟩, fun u hu => Function.update_of_ne hu _ _, fun _ => .inl ?_⟩
      · intro c i j hb
        dsimp only
        have : i ≠ t := by rintro rfl; rw [hf.best c i j hb] at hbt; cases hbt
        rw [Function.update_of_ne this]
        exact h.fin c i j hb
      · intro u hu
        dsimp only
        by_cases e : u = t
        · subst e; rw [Function.update_self]; simp
        · rw [Function.update_of_ne e]; exact h.swap u hu
      · rw [Function.update_self]; simp [tailRank]
    | some e =>
      dsimp only
      split_ifs with hcond
      · refine ⟨⟨h.out, h.low, h.past, ?_, ?_⟩, fun u hu => Function.update_of_ne hu _ _, fun _ => .inl ?_⟩
        · intro c i j hb
          dsimp only
          by_cases e : i = t
          · subst e; rw [Function.update_self]; simp
          · rw [Function.update_of_ne e]; exact h.fin c i j hb
        · intro u hu
          dsimp only
          by_cases e : u = t
          · subst e; intro _; exact ⟨_, hbt, hcond.1⟩
          · rw [Function.update_of_ne e]; exact h.swap u hu
        · dsimp only; rw [Function.update_self]; simp [tailRank]
      · refine ⟨⟨h.out, h.low, h.past, ?_, ?_⟩, fun u hu => Function.update_of_ne hu _ _, fun _ => .inl ?_⟩
        · intro c i j hb
          dsimp only
          have : i ≠ t := by
            rintro rfl
            rw [hf.best c i j hb, Option.some.injEq] at hbt
            apply hcond
            rw [← hbt]
            exact ⟨hb.finite, by rw [hb.inside]; exact h.seen hb k⟩
          rw [Function.update_of_ne this]
          exact h.fin c i j hb
        · intro u hu
          dsimp only
          by_cases e : u = t
          · subst e; rw [Function.update_self]; simp
          · rw [Function.update_of_ne e]; exact h.swap u hu
        · dsimp only; rw [Function.update_self]; simp [tailRank]
  | swap =>
    obtain ⟨e, hbt, hfin⟩ := h.swap t htn' hts
    rw [hbt]
    dsimp only
    refine ⟨⟨?_, ?_, ?_, ?_, ?_⟩, fun u hu => Function.update_of_ne hu _ _, fun _ => .inl ?_⟩
    · intro u hu
      dsimp only
      split_ifs
      · by_cases e' : u = t
        · subst e'; rw [Function.update_self]; exact .inr hbt
        · rw [Function.update_of_ne e']; exact h.out u hu
      · exact h.out u hu
    · intro c i j hb
      dsimp only
      by_cases hc : c = comp lab t
      · subst hc
        rw [Function.update_self]
        exact le_min (h.low _ i j hb) (outgoing_weight hl hf hb htn' rfl hbt)
      · rw [Function.update_of_ne hc]; exact h.low c i j hb
    · intro c i j hb
      dsimp only
      by_cases hc : c = comp lab t
      · subst hc
        rw [Function.update_self]
        intro w hw
        rcases List.mem_cons.mp hw with rfl | hw
        · exact h.low _ i j hb
        · exact h.past _ i j hb w hw
      · rw [Function.update_of_ne hc]; exact h.past c i j hb
    · intro c i j hb
      dsimp only
      by_cases e' : i = t
      · subst e'
        intro _
        have hbt' := hbt
        rw [hf.best c i j hb, Option.some.injEq] at hbt'
        have hw : e.weight = P.weight (value i) (value j) := by rw [← hbt']; rfl
        have hm : min (s.weights (comp lab i)) e.weight = e.weight := by
          rw [hw]; exact min_eq_right (by rw [hb.inside]; exact h.low c i j hb)
        rw [hm, if_pos rfl, hb.inside, Function.update_self, Function.update_self]
        exact ⟨hw, hbt'.symm⟩
      · rw [Function.update_of_ne e']
        intro hd
        obtain ⟨h1, h2⟩ := h.fin c i j hb hd
        refine ⟨?_, ?_⟩
        · by_cases hc : c = comp lab t
          · subst hc
            rw [Function.update_self, h1]
            exact min_eq_left (outgoing_weight hl hf hb htn' rfl hbt)
          · rw [Function.update_of_ne hc]; exact h1
        · split_ifs
          · rw [Function.update_of_ne e']; exact h2
          · exact h2
    · intro u hu
      dsimp only
      by_cases e : u = t
      · subst e; rw [Function.update_self]; simp
      · rw [Function.update_of_ne e]; exact h.swap u hu
    · rw [Function.update_self]; simp [tailRank]
  | done => exact ⟨h, fun _ _ => rfl, fun _ => .inr rfl⟩

omit [SemilatticeSup V] in
lemma tail_spec (hl : Labelling n lab) {best : ℕ → Option (DirectedEdge W)}
    (hf : Found P value n lab best) (sched : List (ℕ × ℕ)) :
    TailInv P value n lab best (tail n lab best sched) ∧
      ∀ t < n, 2 ≤ (sched.map (·.1)).count t → (tail n lab best sched).thr t = .done := by
  have main : ∀ (sched : List (ℕ × ℕ)) (s : Tail W), TailInv P value n lab best s →
      TailInv P value n lab best (sched.foldl (tailStep n lab best) s) ∧
      ∀ t < n, tailRank ((sched.foldl (tailStep n lab best) s).thr t) ≤ tailRank (s.thr t) - (sched.map (·.1)).count t := by
    intro sched
    induction sched with
    | nil => intro s hs; exact ⟨hs, fun t _ => by simp⟩
    | cons x sched ih =>
      obtain ⟨u, k⟩ := x
      intro s hs
      obtain ⟨i1, i2, i3⟩ := hs.step hl hf u k
      obtain ⟨j1, j2⟩ := ih _ i1
      rw [List.foldl_cons]
      refine ⟨j1, fun t htn => ?_⟩
      have j := j2 t htn
      by_cases e : t = u
      · subst e
        rw [List.map_cons, List.count_cons_self]
        rcases i3 htn with k | hk
        · omega
        · have e0 : (tailStep n lab best s (t, k)).thr t = .done := by
            unfold tailStep
            dsimp only
            rw [if_neg (by omega), hk]; exact hk
          rw [e0] at j
          have : tailRank TT.done = 0 := rfl
          omega
      · rw [i2 t e] at j
        rw [List.map_cons, List.count_cons_of_ne (Ne.symm e)]
        exact j
  have init : TailInv P value n lab best ⟨fun _ => ⊤, fun _ => [], fun _ => DirectedEdge.default ⊤, fun _ => .check⟩ :=
    ⟨fun _ _ => .inl rfl, fun _ _ _ _ => le_top, (fun _ _ _ _ _ h => by cases h), (fun _ _ _ _ h => by cases h), (fun _ _ h => by cases h)⟩
  obtain ⟨k1, k2⟩ := main sched _ init
  refine ⟨k1, fun t htn hcnt => ?_⟩
  have := k2 t htn
  have e : tailRank ((⟨fun _ => ⊤, fun _ => [], fun _ => DirectedEdge.default ⊤, fun _ => .check⟩ : Tail W).thr t) = 2 := rfl
  rw [e] at this
  unfold tail
  generalize (sched.foldl (tailStep n lab best) ⟨fun _ => ⊤, fun _ => [], fun _ => DirectedEdge.default ⊤, fun _ => .check⟩).thr t = x at this ⊢
  cases x <;> simp [tailRank] at this ⊢ <;> omega

/-! ## The minimum of the keys -/

/-- The state after the first two kernels. -/
structure Weighed (P : Points V W) (value : ℕ → ℕ) (n : ℕ) (lab : ℕ → ℤ) (weights : ℕ → W)
    (out : ℕ → DirectedEdge W) : Prop where
  outgoing : ∀ t < n, Outgoing P value lab n t (out t)
  least : ∀ c i j, Best P value n lab c i j → weights c = P.weight (value i) (value j)
  best : ∀ c i j, Best P value n lab c i j → out i = cand P value i j

omit [SemilatticeSup V] in
lemma key_le (hset : Setting P value n) {c i j a b : ℕ} (hb : Best P value n lab c i j)
    (ha : a < n) (hb' : b < n) (h1 : comp lab a = c) (h2 : comp lab b ≠ c)
    (hw : P.weight (value a) (value b) = P.weight (value i) (value j)) :
    (cand P value i j).key.toNat ≤ (cand P value a b).key.toNat := by
  have big := hset.big
  have hi := hb.ilt
  have hj := hb.jlt
  by_cases hne : a = i ∧ b = j
  · rw [hne.1, hne.2]
  · rcases hb.strict ha hb' h1 h2 hne with h | ⟨-, h⟩
    · rw [hw] at h; exact absurd h (lt_irrefl _)
    · unfold cand
      rw [Mst.key_toNat (by omega) (by omega), Mst.key_toNat (by omega) (by omega)]
      split_ifs <;> omega

structure RetrInv (P : Points V W) (value : ℕ → ℕ) (n : ℕ) (lab : ℕ → ℤ) (weights : ℕ → W)
    (out : ℕ → DirectedEdge W) (s : Retr W) : Prop where
  weight : ∀ t < n, (s.out t).weight = (resetEdges lab weights out t).weight
  other : ∀ t < n, comp lab t ≠ t → s.out t = out t
  low : ∀ c i j, Best P value n lab c i j → (cand P value i j).key.toNat ≤ (s.out c).key.toNat
  past : ∀ c i j, Best P value n lab c i j → ∀ k ∈ s.past c, (cand P value i j).key.toNat ≤ k.toNat
  same : ∀ c i j, Best P value n lab c i j → i = c → ∀ k ∈ s.past c, k.toNat ≤ (cand P value i j).key.toNat
  none : ∀ t < n, comp lab t ≠ t → s.past t = []
  held : ∀ c i j, Best P value n lab c i j → ∀ t < n, comp lab t = c → ∀ k, s.thr t = .amin k →
    (cand P value i j).key.toNat ≤ k.toNat
  own : ∀ c i j, Best P value n lab c i j → ∀ k, s.thr i = .amin k → k = (cand P value i j).key
  fin : ∀ c i j, Best P value n lab c i j → s.thr i = .done ∨ i = c →
    (s.out c).key.toNat ≤ (cand P value i j).key.toNat

omit [BoundedOrder W] in
lemma resetEdges_rep (hl : Labelling n lab) {weights : ℕ → W} {out : ℕ → DirectedEdge W} {c : ℕ} (hc : c < n)
    (hcc : comp lab c = c) : (resetEdges lab weights out c).weight = weights c ∧
      ((out c).weight = weights c → resetEdges lab weights out c = out c) := by
  have e : (c : ℤ) = lab c := by
    have := hl.cast hc
    rwa [hcc] at this
  unfold resetEdges
  rw [if_neg (not_not.mpr e)]
  split_ifs with h
  · exact ⟨rfl, fun h' => absurd h' h⟩
  · exact ⟨not_not.mp h, fun _ => rfl⟩

omit [BoundedOrder W] in
lemma resetEdges_other (hl : Labelling n lab) {weights : ℕ → W} {out : ℕ → DirectedEdge W} {c : ℕ} (hc : c < n)
    (hcc : comp lab c ≠ c) : resetEdges lab weights out c = out c := by
  have e : (c : ℤ) ≠ lab c := by
    have := hl.cast hc
    rw [← this]
    exact fun h => hcc (Nat.cast_inj.mp h).symm
  unfold resetEdges
  rw [if_pos e]

def retrRank : TR → ℕ
  | .read => 2
  | .amin _ => 1
  | .done => 0

omit [SemilatticeSup V] in
/-- The edge a thread passes on. -/
lemma read_key (hset : Setting P value n) (hl : Labelling n lab) {weights : ℕ → W} {out : ℕ → DirectedEdge W}
    (hw : Weighed P value n lab weights out) {c i j t : ℕ} (hb : Best P value n lab c i j) (ht : t < n)
    (hc : comp lab t = c) (he : (out t).weight = weights c) :
    (cand P value i j).key.toNat ≤ (out t).key.toNat := by
  rw [hw.least c i j hb] at he
  rcases hw.outgoing t ht with h | ⟨k, hk, hk', h⟩
  · rw [h] at he
    exact absurd (show (⊤ : W) = _ from he) hb.finite.ne'
  · rw [h] at he ⊢
    exact key_le hset hb ht hk hc (fun e => hk' ((hl.comp_eq hk ht).mp (e.trans hc.symm)).symm) he

omit [SemilatticeSup V] in
lemma RetrInv.step (hset : Setting P value n) (hl : Labelling n lab) {weights : ℕ → W} {out : ℕ → DirectedEdge W}
    (hw : Weighed P value n lab weights out) {s : Retr W} (h : RetrInv P value n lab weights out s) (t m : ℕ) :
    RetrInv P value n lab weights out (retrStep n lab weights s (t, m)) ∧
      (∀ u, u ≠ t → (retrStep n lab weights s (t, m)).thr u = s.thr u) ∧
      (t < n → retrRank ((retrStep n lab weights s (t, m)).thr t) + 1 ≤ retrRank (s.thr t) ∨ s.thr t = .done) := by
  by_cases htn : n ≤ t
  · have e : retrStep n lab weights s (t, m) = s := by unfold retrStep; exact if_pos htn
    rw [e]
    exact ⟨h, fun _ _ => rfl, fun hh => by omega⟩
  have htn' : t < n := by omega
  have repc : comp lab (comp lab t) = comp lab t := hl.comp_idem htn'
  unfold retrStep
  dsimp only
  rw [if_neg htn]
  cases hts : s.thr t with
  | read =>
    dsimp only
    split_ifs with hcond
    · refine ⟨⟨h.weight, h.other, h.low, h.past, h.same, h.none, ?_, ?_, ?_⟩, fun u hu => Function.update_of_ne hu _ _, fun _ => .inl ?_⟩
      · intro c i j hb u hu huc k
        dsimp only
        by_cases e : u = t
        · subst e
          rw [Function.update_self]
          intro hk
          cases hk
          by_cases hrep : comp lab u = u
          · rw [hrep] at huc; subst huc
            rcases seen_mem (s.out u).key (s.past u) m with e | e
            · rw [e]; exact h.low _ i j hb
            · exact h.past _ i j hb _ e
          · rw [h.other u hu hrep] at hcond
            rw [h.none u hu hrep, h.other u hu hrep]
            exact read_key hset hl hw hb hu huc (by rw [← huc]; exact hcond)
        · rw [Function.update_of_ne e]; exact h.held c i j hb u hu huc k
      · intro c i j hb k
        dsimp only
        by_cases e : i = t
        · subst e
          rw [Function.update_self]
          intro hk
          cases hk
          by_cases hrep : comp lab i = i
          · have hic : i = c := hrep.symm.trans hb.inside
            rcases seen_mem (s.out i).key (s.past i) m with e | e
            · rw [e]
              have h1 := h.fin c i j hb (.inr hic)
              have h2 := h.low c i j hb
              rw [← hic] at h1 h2
              exact BitVec.eq_of_toNat_eq (le_antisymm h1 h2)
            · generalize seen (s.out i).key (s.past i) m = v at e ⊢
              have h1 := h.same c i j hb hic v (hic ▸ e)
              have h2 := h.past c i j hb v (hic ▸ e)
              exact BitVec.eq_of_toNat_eq (le_antisymm h1 h2)
          · rw [h.none i hb.ilt hrep, h.other i hb.ilt hrep, hw.best c i j hb]; rfl
        · rw [Function.update_of_ne e]; exact h.own c i j hb k
      · intro c i j hb
        dsimp only
        by_cases e : i = t
        · subst e
          rw [Function.update_self]
          rintro (hd | hd)
          · cases hd
          · exact h.fin c i j hb (.inr hd)
        · rw [Function.update_of_ne e]; exact h.fin c i j hb
      · dsimp only; rw [Function.update_self]; simp [retrRank]
    · have hnot : ∀ c i j, Best P value n lab c i j → i ≠ t := by
        rintro c i j hb rfl
        apply hcond
        rw [h.weight i hb.ilt, hb.inside]
        by_cases hrep : comp lab i = i
        · have hic : i = c := hrep.symm.trans hb.inside
          rw [(resetEdges_rep hl hb.ilt hrep).1, hic]
        · rw [resetEdges_other hl hb.ilt hrep, hw.best c i j hb, hw.least c i j hb]; rfl
      refine ⟨⟨h.weight, h.other, h.low, h.past, h.same, h.none, ?_, ?_, ?_⟩, fun u hu => Function.update_of_ne hu _ _, fun _ => .inl ?_⟩
      · intro c i j hb u hu huc k
        dsimp only
        by_cases e : u = t
        · subst e; rw [Function.update_self]; intro hk; cases hk
        · rw [Function.update_of_ne e]; exact h.held c i j hb u hu huc k
      · intro c i j hb k
        dsimp only
        rw [Function.update_of_ne (hnot c i j hb)]; exact h.own c i j hb k
      · intro c i j hb
        dsimp only
        rw [Function.update_of_ne (hnot c i j hb)]; exact h.fin c i j hb
      · dsimp only; rw [Function.update_self]; simp [retrRank]
  | amin k =>
    dsimp only
    have mn : ∀ a b : BitVec 64, (if a < b then a else b).toNat ≤ a.toNat ∧ (if a < b then a else b).toNat ≤ b.toNat ∧
        ∀ x, x ≤ a.toNat → x ≤ b.toNat → x ≤ (if a < b then a else b).toNat := by
      intro a b
      split_ifs with hab
      · rw [BitVec.lt_def] at hab; exact ⟨le_rfl, hab.le, fun x h _ => h⟩
      · rw [BitVec.lt_def] at hab; exact ⟨by omega, le_rfl, fun x _ h => h⟩
    obtain ⟨m1, m2, m3⟩ := mn k (s.out (comp lab t)).key
    refine ⟨⟨?_, ?_, ?_, ?_, ?_, ?_, ?_, ?_, ?_⟩, fun u hu => Function.update_of_ne hu _ _, fun _ => .inl ?_⟩
    · intro u hu
      dsimp only
      by_cases e : u = comp lab t
      · subst e; rw [Function.update_self]; exact h.weight _ hu
      · rw [Function.update_of_ne e]; exact h.weight u hu
    · intro u hu hrep
      dsimp only
      rw [Function.update_of_ne (fun e => hrep (by rw [e]; exact repc))]
      exact h.other u hu hrep
    · intro c i j hb
      dsimp only
      by_cases e : c = comp lab t
      · subst e
        rw [Function.update_self]
        exact m3 _ (h.held _ i j hb t htn' rfl k hts) (h.low _ i j hb)
      · rw [Function.update_of_ne e]; exact h.low c i j hb
    · intro c i j hb
      dsimp only
      by_cases e : c = comp lab t
      · subst e
        rw [Function.update_self]
        intro v hv
        rcases List.mem_cons.mp hv with rfl | hv
        · exact h.low _ i j hb
        · exact h.past _ i j hb v hv
      · rw [Function.update_of_ne e]; exact h.past c i j hb
    · intro c i j hb hic
      dsimp only
      by_cases e : c = comp lab t
      · subst e
        rw [Function.update_self]
        intro v hv
        rcases List.mem_cons.mp hv with rfl | hv
        · exact h.fin _ i j hb (.inr hic)
        · exact h.same _ i j hb hic v hv
      · rw [Function.update_of_ne e]; exact h.same c i j hb hic
    · intro u hu hrep
      dsimp only
      rw [Function.update_of_ne (fun e => hrep (by rw [e]; exact repc))]
      exact h.none u hu hrep
    · intro c i j hb u hu huc k'
      dsimp only
      by_cases e : u = t
      · subst e; rw [Function.update_self]; intro hk; cases hk
      · rw [Function.update_of_ne e]; exact h.held c i j hb u hu huc k'
    · intro c i j hb k'
      dsimp only
      by_cases e : i = t
      · subst e; rw [Function.update_self]; intro hk; cases hk
      · rw [Function.update_of_ne e]; exact h.own c i j hb k'
    · intro c i j hb
      dsimp only
      by_cases e : i = t
      · subst e
        intro _
        rw [hb.inside] at m1 ⊢
        rw [Function.update_self, ← h.own c i j hb k hts]
        exact m1
      · rw [Function.update_of_ne e]
        intro hd
        have := h.fin c i j hb hd
        by_cases e : c = comp lab t
        · subst e; rw [Function.update_self]; exact m2.trans this
        · rw [Function.update_of_ne e]; exact this
    · rw [Function.update_self]; simp [retrRank]
  | done => exact ⟨h, fun _ _ => rfl, fun _ => .inr rfl⟩

omit [SemilatticeSup V] in
lemma retrieve_spec (hset : Setting P value n) (hl : Labelling n lab) {weights : ℕ → W} {out : ℕ → DirectedEdge W}
    (hw : Weighed P value n lab weights out) (sched : List (ℕ × ℕ)) :
    RetrInv P value n lab weights out (retrieve n lab weights out sched) ∧
      ∀ t < n, 2 ≤ (sched.map (·.1)).count t → (retrieve n lab weights out sched).thr t = .done := by
  have main : ∀ (sched : List (ℕ × ℕ)) (s : Retr W), RetrInv P value n lab weights out s →
      RetrInv P value n lab weights out (sched.foldl (retrStep n lab weights) s) ∧
      ∀ t < n, retrRank ((sched.foldl (retrStep n lab weights) s).thr t) ≤ retrRank (s.thr t) - (sched.map (·.1)).count t := by
    intro sched
    induction sched with
    | nil => intro s hs; exact ⟨hs, fun t _ => by simp⟩
    | cons x sched ih =>
      obtain ⟨u, k⟩ := x
      intro s hs
      obtain ⟨i1, i2, i3⟩ := hs.step hset hl hw u k
      obtain ⟨j1, j2⟩ := ih _ i1
      rw [List.foldl_cons]
      refine ⟨j1, fun t htn => ?_⟩
      have j := j2 t htn
      by_cases e : t = u
      · subst e
        rw [List.map_cons, List.count_cons_self]
        rcases i3 htn with k | hk
        · omega
        · have e0 : (retrStep n lab weights s (t, k)).thr t = .done := by
            unfold retrStep
            dsimp only
            rw [if_neg (by omega), hk]; exact hk
          rw [e0] at j
          have : retrRank TR.done = 0 := rfl
          omega
      · rw [i2 t e] at j
        rw [List.map_cons, List.count_cons_of_ne (Ne.symm e)]
        exact j
  have init : RetrInv P value n lab weights out ⟨resetEdges lab weights out, fun _ => [], fun _ => .read⟩ := by
    refine ⟨fun _ _ => rfl, fun t ht hr => resetEdges_other hl ht hr, ?_, (fun _ _ _ _ _ h => by cases h),
      (fun _ _ _ _ _ _ h => by cases h), (fun _ _ _ => rfl), (fun _ _ _ _ _ _ _ _ h => by cases h),
      (fun _ _ _ _ _ h => by cases h), ?_⟩
    · intro c i j hb
      dsimp only
      have hc : c < n := by rw [← hb.inside]; exact hl.lt i hb.ilt
      have hcc : comp lab c = c := by rw [← hb.inside]; exact hl.comp_idem hb.ilt
      by_cases hwt : (out c).weight = weights c
      · rw [(resetEdges_rep hl hc hcc).2 hwt]
        exact read_key hset hl hw hb hc hcc hwt
      · have e : (c : ℤ) = lab c := by have := hl.cast hc; rwa [hcc] at this
        unfold resetEdges
        rw [if_neg (not_not.mpr e), if_pos hwt]
        dsimp only
        rw [BitVec.toNat_allOnes]
        have := (cand P value i j).key.isLt
        omega
    · rintro c i j hb (hd | rfl)
      · cases hd
      · dsimp only
        have hcc : comp lab i = i := hb.inside
        have hwt : (out i).weight = weights i := by
          rw [hw.best i i j hb, hw.least i i j hb]; rfl
        rw [(resetEdges_rep hl hb.ilt hcc).2 hwt, hw.best i i j hb]
  obtain ⟨k1, k2⟩ := main sched _ init
  refine ⟨k1, fun t htn hcnt => ?_⟩
  have := k2 t htn
  have e : retrRank ((⟨resetEdges lab weights out, fun _ => [], fun _ => .read⟩ : Retr W).thr t) = 2 := rfl
  rw [e] at this
  unfold retrieve
  generalize (sched.foldl (retrStep n lab weights) ⟨resetEdges lab weights out, fun _ => [], fun _ => .read⟩).thr t = x at this ⊢
  cases x <;> simp [retrRank] at this ⊢ <;> omega

omit [SemilatticeSup V] in
/-- Once all threads have returned, the entry of every component is its first outgoing edge. -/
lemma retrieve_best (hset : Setting P value n) (hl : Labelling n lab) {weights : ℕ → W} {out : ℕ → DirectedEdge W}
    (hw : Weighed P value n lab weights out) (sched : List (ℕ × ℕ))
    (hd : ∀ t < n, (retrieve n lab weights out sched).thr t = .done) {c i j : ℕ} (hb : Best P value n lab c i j) :
    (retrieve n lab weights out sched).out c = cand P value i j := by
  have inv := (retrieve_spec hset hl hw sched).1
  have hc : c < n := by rw [← hb.inside]; exact hl.lt i hb.ilt
  have hcc : comp lab c = c := by rw [← hb.inside]; exact hl.comp_idem hb.ilt
  have h1 := inv.low c i j hb
  have h2 := inv.fin c i j hb (.inl (hd i hb.ilt))
  have h3 := inv.weight c hc
  rw [(resetEdges_rep hl hc hcc).1, hw.least c i j hb] at h3
  have h4 : ((retrieve n lab weights out sched).out c).key = (cand P value i j).key :=
    BitVec.eq_of_toNat_eq (le_antisymm h2 h1)
  generalize (retrieve n lab weights out sched).out c = x at h3 h4
  cases x
  dsimp only at h3 h4
  subst h3 h4
  rfl

end ArborX.Boruvka
