import Verif.Boruvka.Model
import Verif.Nearest.Lemmas

/-!
# The search of one leaf (lemmas)
-/

namespace ArborX.Boruvka

open Mst (DirectedEdge)
open Nearest (isNode need children layout_children)

variable {V W : Type} [LinearOrder W] [BoundedOrder W] [SemilatticeSup V]

/-- The weight of the edge between the points `p` and `q`. -/
def Points.weight (P : Points V W) (p q : ℕ) : W := P.metric p q (P.dp p q)

/-- A box is never farther than the points in it, and the metric never below the distance. -/
structure Points.Admissible (P : Points V W) (vol : ℕ → V) : Prop where
  box : ∀ p q v, vol q ≤ v → P.dv p v ≤ P.dp p q
  metric : ∀ p q, P.dp p q ≤ P.weight p q

variable {P : Points V W} {mem : Mem ℕ V} {value : ℕ → ℕ} {vol : ℕ → V} {lab : ℕ → ℤ} {i : ℕ}

/-- The candidate edge from leaf `i` to leaf `j`. -/
def cand (P : Points V W) (value : ℕ → ℕ) (i j : ℕ) : DirectedEdge W :=
  DirectedEdge.mk' i j (P.weight (value i) (value j))

/-- Leaf `j` is the best partner of leaf `i` in another component. -/
structure Target (P : Points V W) (value : ℕ → ℕ) (lab : ℕ → ℤ) (n i j : ℕ) : Prop where
  lt : j < n
  other : lab i ≠ lab j
  fin : (cand P value i j).lt (DirectedEdge.default ⊤) = true
  min : ∀ k < n, lab i ≠ lab k → cand P value i k ≠ cand P value i j →
    (cand P value i j).lt (cand P value i k) = true
  least : ∀ k < n, lab i ≠ lab k → P.weight (value i) (value j) ≤ P.weight (value i) (value k)

/-- The edge is the default edge or leads from leaf `i` to a leaf of another component. -/
def Outgoing (P : Points V W) (value : ℕ → ℕ) (lab : ℕ → ℤ) (n i : ℕ) (e : DirectedEdge W) : Prop :=
  e = DirectedEdge.default ⊤ ∨ ∃ j < n, lab i ≠ lab j ∧ e = cand P value i j

/-- What a part of the search that looks at the leaves `L` achieves. -/
structure Post (P : Points V W) (value : ℕ → ℕ) (lab : ℕ → ℤ) (n i : ℕ) (L : List ℕ)
    (best : DirectedEdge W) (radius : W) (best' : DirectedEdge W) (radius' : W) : Prop where
  out : Outgoing P value lab n i best → Outgoing P value lab n i best'
  low : ∀ x ≤ radius, (∀ j < n, lab i ≠ lab j → x ≤ P.weight (value i) (value j)) → x ≤ radius'
  tgt : ∀ j, Target P value lab n i j → P.weight (value i) (value j) ≤ radius →
    Outgoing P value lab n i best →
    (j ∈ L ∨ best = cand P value i j) → best' = cand P value i j

omit [SemilatticeSup V] in
lemma Post.id {n : ℕ} {L : List ℕ} {best : DirectedEdge W} {radius : W}
    (h : ∀ j ∈ L, Target P value lab n i j → ¬ P.weight (value i) (value j) ≤ radius) :
    Post P value lab n i L best radius best radius where
  out := fun h => h
  low := fun _ hx _ => hx
  tgt := by
    rintro j ht hr - (hj | hj)
    · exact absurd hr (h j hj ht)
    · exact hj

omit [SemilatticeSup V] in
lemma Post.seq {n : ℕ} {L L' M : List ℕ} {b b' b'' : DirectedEdge W} {r r' r'' : W}
    (h : Post P value lab n i L b r b' r') (h' : Post P value lab n i L' b' r' b'' r'')
    (hM : ∀ j ∈ M, j ∈ L ∨ j ∈ L') : Post P value lab n i M b r b'' r'' where
  out := fun o => h'.out (h.out o)
  low := fun x hx hj => h'.low x (h.low x hx hj) hj
  tgt := by
    intro j ht hr ho hj
    refine h'.tgt j ht (h.low _ hr ht.least) (h.out ho) ?_
    rcases hj with hj | hj
    · rcases hM j hj with hj | hj
      · exact .inr (h.tgt j ht hr ho (.inl hj))
      · exact .inl hj
    · exact .inr (h.tgt j ht hr ho (.inr hj))

/-- distance of the root of a subtree -/
def distT (P : Points V W) (value : ℕ → ℕ) (vol : ℕ → V) (p : ℕ) : BTree → W
  | .leaf j => P.dp p (value j)
  | .node a b => P.dv p ((BTree.node a b).vol (fun i => vol (value i)))

lemma distT_le (had : P.Admissible vol) (p : ℕ) (T : BTree) {j : ℕ} (hj : j ∈ T.leaves) :
    distT P value vol p T ≤ P.weight p (value j) := by
  cases T with
  | leaf k => simp only [BTree.leaves, List.mem_singleton] at hj; subst hj; exact had.metric _ _
  | node a b =>
    exact (had.box _ _ _ (Traversal.BTree.le_vol (fun i => vol (value i)) _ _ hj)).trans (had.metric _ _)

lemma layout_dist {T : BTree} {id : ℕ} {rope : Option ℕ} (p : ℕ) (h : Layout mem value vol T id rope) :
    nodeDist P mem p id = some (distT P value vol p T) := by
  cases T with
  | leaf i => obtain ⟨rfl, hlt, hl⟩ := h; simp [nodeDist, hlt, hl, distT]
  | node a b =>
    obtain ⟨ia, ib, hsz, hn, -, -⟩ := h
    simp [nodeDist, hn, Nat.not_lt.mpr hsz, distT]

/-- A node labelled like leaf `i` has only leaves labelled like leaf `i`. -/
def LabelsOk (mem : Mem ℕ V) (value : ℕ → ℕ) (vol : ℕ → V) (lab : ℕ → ℤ) (i : ℕ) : Prop :=
  ∀ S id r, Layout mem value vol S id r → lab i = lab id → ∀ j ∈ S.leaves, lab i = lab j

lemma lt_irrefl' (a : DirectedEdge W) : ¬ a.lt a = true := by
  unfold DirectedEdge.lt
  rw [if_neg (by simp)]
  simp

lemma lt_asymm' {a b : DirectedEdge W} (h : a.lt b = true) : ¬ b.lt a = true := by
  unfold DirectedEdge.lt at *
  split_ifs at * with h1 h2 h2
  · simp only [decide_eq_true_eq] at *; exact not_lt.mpr h.le
  · exact absurd h1.symm h2
  · exact absurd h2.symm h1
  · simp only [decide_eq_true_eq] at *
    rw [BitVec.lt_def] at *; omega

lemma offer_child (had : P.Admissible vol) (hlab : LabelsOk mem value vol lab i) {T : BTree}
    {id : ℕ} {rope : Option ℕ} (hT : Layout mem value vol T id rope) (best : DirectedEdge W) (radius : W) :
    ∃ best' radius' t, offer P mem lab i (value i) (lab i) id (distT P value vol (value i) T) best radius
        = some (best', radius', t) ∧
      (t = false → Post P value lab mem.size i T.leaves best radius best' radius') ∧
      (t = true → Post P value lab mem.size i [] best radius best' radius' ∧ isNode T = true) := by
  unfold offer
  by_cases hc : lab i ≠ lab id ∧ distT P value vol (value i) T ≤ radius
  · rw [if_pos hc]
    cases T with
    | leaf j =>
      obtain ⟨rfl, hlt, hl⟩ := hT
      rw [if_pos hlt, hl]
      dsimp only
      have e : DirectedEdge.mk' i id (P.metric (value i) (value id) (distT P value vol (value i) (.leaf id)))
        = cand P value i id := rfl
      rw [e]
      by_cases hb : (cand P value i id).lt best = true
      · rw [if_pos hb]
        refine ⟨_, _, false, rfl, fun _ => ⟨fun _ => .inr ⟨id, hlt, hc.1, rfl⟩, ?_, ?_⟩, by simp⟩
        · intro x hx hj
          have := hj id hlt hc.1
          split_ifs
          · exact le_min hx this
          · exact this
        · rintro j ht hr ho (hj | hj)
          · simp only [BTree.leaves, List.mem_singleton] at hj
            subst hj; rfl
          · subst hj
            by_contra hne
            exact lt_asymm' hb (ht.min id hlt hc.1 hne)
      · rw [if_neg hb]
        refine ⟨best, radius, false, rfl, fun _ => ⟨fun h => h, fun _ hx _ => hx, ?_⟩, by simp⟩
        rintro j ht hr ho (hj | hj)
        · simp only [BTree.leaves, List.mem_singleton] at hj
          subst hj
          rcases ho with rfl | ⟨k, hk, hko, rfl⟩
          · exact absurd ht.fin hb
          · by_contra hne
            exact hb (ht.min k hk hko hne)
        · exact hj
    | node a b =>
      have hsz : ¬ id < mem.size := by obtain ⟨ia, ib, hsz, -⟩ := hT; omega
      rw [if_neg hsz]
      exact ⟨best, radius, true, rfl, by simp, fun _ => ⟨Post.id (by simp), rfl⟩⟩
  · rw [if_neg hc]
    refine ⟨best, radius, false, rfl, fun _ => Post.id ?_, by simp⟩
    intro j hj ht hr
    apply hc
    refine ⟨fun e => ht.other (hlab _ _ _ hT e j hj), (distT_le had _ _ hj).trans hr⟩

/-- what happens when the stack is popped -/
def popCont (P : Points V W) (mem : Mem ℕ V) (lab : ℕ → ℤ) (i p : ℕ) (c : ℤ) (fuel : ℕ) (stack : List (ℕ × W))
    (best : DirectedEdge W) (r : W) : Res (DirectedEdge W × W) :=
  match stack with
  | [] => .done (best, r)
  | (n, d) :: st => loop P mem lab i p c fuel n d st best r

lemma loop_tree (had : P.Admissible vol) (hlab : LabelsOk mem value vol lab i) (T : BTree) :
    ∀ id rope, Layout mem value vol T id rope → isNode T = true →
    ∀ dn, (∀ j ∈ T.leaves, dn ≤ P.weight (value i) (value j)) →
    ∀ stack best r, stack.length + need T + 1 ≤ P.cap →
    ∃ c best' r', 1 ≤ c ∧ c ≤ T.size ∧ Post P value lab mem.size i T.leaves best r best' r' ∧
      ∀ fuel, loop P mem lab i (value i) (lab i) (fuel + c) id dn stack best r
        = popCont P mem lab i (value i) (lab i) fuel stack best' r' := by
  induction T with
  | leaf i => intro id rope _ hn; simp [isNode] at hn
  | node a b iha ihb =>
    intro id rope hT _ dn hdn stack best r hcap
    obtain ⟨ia, ib, hch, ha, hb⟩ := layout_children hT
    have mab : ∀ j ∈ (BTree.node a b).leaves, j ∈ a.leaves ∨ j ∈ b.leaves := fun j hj => List.mem_append.mp hj
    by_cases hdr : dn ≤ r
    · obtain ⟨h1, r1, t1, e1, f1, g1⟩ := offer_child (mem := mem) had hlab ha best r
      obtain ⟨h2, r2, t2, e2, f2, g2⟩ := offer_child (mem := mem) had hlab hb h1 r1
      cases t1 with
      | false =>
        have p1 := f1 rfl
        cases t2 with
        | false =>
          refine ⟨1, h2, r2, le_rfl, by simp [BTree.size], p1.seq (f2 rfl) mab, ?_⟩
          intro fuel
          rw [loop.eq_def]; dsimp only; rw [if_pos hdr, hch]
          dsimp only
          rw [layout_dist _ ha, layout_dist _ hb]
          dsimp only
          rw [e1]; dsimp only; rw [e2]
          simp only [Bool.not_false, Bool.and_self, if_true]
          rfl
        | true =>
          obtain ⟨p2, nb⟩ := g2 rfl
          obtain ⟨c, h3, r3, c1, c2, p3, hl⟩ := ihb ib rope hb nb (distT P value vol (value i) b)
            (fun j hj => distT_le had _ b hj) stack h2 r2 (by simp only [need] at hcap; omega)
          refine ⟨c + 1, h3, r3, by omega, by simp [BTree.size]; omega,
            p1.seq (p2.seq p3 (M := b.leaves) (fun _ h => .inr h)) mab, ?_⟩
          intro fuel
          rw [← Nat.add_assoc, loop.eq_def]; dsimp only; rw [if_pos hdr, hch]
          dsimp only
          rw [layout_dist _ ha, layout_dist _ hb]
          dsimp only
          rw [e1]; dsimp only; rw [e2]
          simp only [Bool.not_false, Bool.not_true, Bool.and_false, Bool.false_and,
            Bool.false_eq_true, if_false]
          exact hl fuel
      | true =>
        obtain ⟨p1, na⟩ := g1 rfl
        cases t2 with
        | false =>
          have p2 := f2 rfl
          obtain ⟨c, h3, r3, c1, c2, p3, hl⟩ := iha ia _ ha na (distT P value vol (value i) a)
            (fun j hj => distT_le had _ a hj) stack h2 r2 (by simp only [need] at hcap; omega)
          refine ⟨c + 1, h3, r3, by omega, by simp [BTree.size]; omega,
            (p1.seq p2 (M := b.leaves) (fun _ h => .inr h)).seq p3 (fun j hj => (mab j hj).symm), ?_⟩
          intro fuel
          rw [← Nat.add_assoc, loop.eq_def]; dsimp only; rw [if_pos hdr, hch]
          dsimp only
          rw [layout_dist _ ha, layout_dist _ hb]
          dsimp only
          rw [e1]; dsimp only; rw [e2]
          simp only [Bool.not_false, Bool.not_true, Bool.false_and,
            Bool.false_eq_true, if_false, Bool.or_true, Bool.and_self, if_true]
          exact hl fuel
        | true =>
          obtain ⟨p2, nb⟩ := g2 rfl
          have p12 := p1.seq p2 (M := []) (by simp)
          have hcap' : stack.length + max (need a) (need b) + 2 ≤ P.cap := by
            simp only [need, na, nb, Bool.and_self, if_true] at hcap; omega
          by_cases hle : distT P value vol (value i) a ≤ distT P value vol (value i) b
          · obtain ⟨c, h3, r3, c1, c2, p3, hl⟩ := iha ia _ ha na (distT P value vol (value i) a)
              (fun j hj => distT_le had _ a hj) ((ib, distT P value vol (value i) b) :: stack) h2 r2
              (by simp only [List.length_cons]; omega)
            obtain ⟨c', h4, r4, c1', c2', p4, hl'⟩ := ihb ib rope hb nb (distT P value vol (value i) b)
              (fun j hj => distT_le had _ b hj) stack h3 r3 (by omega)
            refine ⟨c' + c + 1, h4, r4, by omega, by simp [BTree.size]; omega,
              (p12.seq p3 (M := a.leaves) (fun _ h => .inr h)).seq p4 mab, ?_⟩
            intro fuel
            rw [← Nat.add_assoc, loop.eq_def]; dsimp only; rw [if_pos hdr, hch]
            dsimp only
            rw [layout_dist _ ha, layout_dist _ hb]
            dsimp only
            rw [e1]; dsimp only; rw [e2]
            simp only [Bool.not_true, Bool.false_eq_true, if_false, hle,
              decide_true, Bool.or_false, Bool.and_self, if_true]
            rw [if_pos (by omega), ← Nat.add_assoc, hl]
            exact hl' fuel
          · obtain ⟨c, h3, r3, c1, c2, p3, hl⟩ := ihb ib rope hb nb (distT P value vol (value i) b)
              (fun j hj => distT_le had _ b hj) ((ia, distT P value vol (value i) a) :: stack) h2 r2
              (by simp only [List.length_cons]; omega)
            obtain ⟨c', h4, r4, c1', c2', p4, hl'⟩ := iha ia _ ha na (distT P value vol (value i) a)
              (fun j hj => distT_le had _ a hj) stack h3 r3 (by omega)
            refine ⟨c' + c + 1, h4, r4, by omega, by simp [BTree.size]; omega,
              (p12.seq p3 (M := b.leaves) (fun _ h => .inr h)).seq p4 (fun j hj => (mab j hj).symm), ?_⟩
            intro fuel
            rw [← Nat.add_assoc, loop.eq_def]; dsimp only; rw [if_pos hdr, hch]
            dsimp only
            rw [layout_dist _ ha, layout_dist _ hb]
            dsimp only
            rw [e1]; dsimp only; rw [e2]
            simp only [Bool.not_true, Bool.false_eq_true, if_false, hle,
              decide_false, Bool.or_false, Bool.and_false, if_true]
            rw [if_pos (by omega), ← Nat.add_assoc, hl]
            exact hl' fuel
    · refine ⟨1, best, r, le_rfl, by simp [BTree.size], Post.id ?_, ?_⟩
      · intro j hj _ hr
        exact hdr ((hdn j hj).trans hr)
      · intro fuel
        rw [loop.eq_def]; dsimp only; rw [if_neg hdr]
        rfl

/-- The search of leaf `i`. -/
lemma search_spec {T : BTree} (hwf : WellFormed mem value vol T) (hn : 2 ≤ mem.size) (had : P.Admissible vol)
    (hcap : need T < P.cap) {fuel : ℕ} (hfuel : 2 * mem.size ≤ fuel) (hi : i < mem.size)
    (hlab : LabelsOk mem value vol lab i) (radius : W) :
    ∃ best radius', search P mem lab fuel i radius = .done (best, radius') ∧
      Post P value lab mem.size i (List.range mem.size) (DirectedEdge.default ⊤) radius best radius' := by
  obtain ⟨hl, hlay⟩ := hwf
  have hsz := Traversal.size_eq T
  rw [hl, List.length_range] at hsz
  have hnode : isNode T = true := by
    cases T with
    | leaf i => simp [BTree.size] at hsz; omega
    | node a b => rfl
  obtain ⟨r, hr⟩ : ∃ r, mem.leaf i = some ⟨r, value i⟩ :=
    Nearest.layout_leaf T _ _ hlay i (by rw [hl]; exact List.mem_range.mpr hi)
  obtain ⟨c, best, r', c1, c2, hP, hloop⟩ := loop_tree had hlab T _ _ hlay hnode ⊥ (fun _ _ => bot_le) []
    (DirectedEdge.default ⊤) radius (by simp only [List.length_nil]; omega)
  refine ⟨best, r', ?_, by rw [← hl]; exact hP⟩
  unfold search
  rw [hr]
  dsimp only
  have := hloop (fuel - c)
  rw [show fuel - c + c = fuel by omega] at this
  rw [this]
  rfl

end ArborX.Boruvka
