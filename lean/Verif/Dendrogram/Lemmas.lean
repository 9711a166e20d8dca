import Verif.Dendrogram.Model
import Verif.Graph.Basic
import Verif.UnionFind.Lemmas

/-!
# Invariant of the dendrogram loop (lemmas)
-/

namespace ArborX.Dendrogram

open Function (update)
open Graph
open UF (root Dec)

variable {nv : ℕ}

lemma repLoop_spec : ∀ (curr : ℕ) (L : ℕ → ℕ) (prev : ℕ), Dec (· < nv) L → prev < nv → curr < nv →
    curr = L prev → curr ≠ prev →
    ∃ L', repLoop nv L prev curr = some (L', root L prev) ∧ Dec (· < nv) L' ∧
      ∀ x < nv, root L' x = root L x := by
  intro curr
  induction curr using Nat.strong_induction_on with
  | _ curr ih =>
    intro L prev h hp hc e hne
    have hlt : curr < prev := by have := (h prev hp).2; omega
    rw [repLoop]
    rw [if_neg (by omega)]
    by_cases hn : L curr < curr
    · rw [if_pos hn]
      have hc' : L curr < nv := by omega
      have hroot : root L (L curr) = root L prev := by
        rw [UF.root_label h hc, e, UF.root_label h hp]
      obtain ⟨hD, hr⟩ := UF.root_halve h hp hc' (by omega) hroot (by rw [← e]; omega)
      have e2 : L curr = update L prev (L curr) curr := by
        rw [Function.update_of_ne (by omega)]
      obtain ⟨L', h1, h2, h3⟩ := ih (L curr) hn _ curr hD hc hc' e2 (by omega)
      refine ⟨L', ?_, h2, fun x hx => (h3 x hx).trans (hr x hx)⟩
      rw [h1, hr curr hc, e, UF.root_label h hp]
    · rw [if_neg hn]
      have hf : L curr = curr := by have := (h curr hc).2; omega
      refine ⟨L, ?_, h, fun _ _ => rfl⟩
      rw [← UF.root_label h hp, ← e, UF.root_of_fix hf]

lemma representative_spec {L : ℕ → ℕ} (h : Dec (· < nv) L) {i : ℕ} (hi : i < nv) :
    ∃ L', representative nv L i = some (L', root L i) ∧ Dec (· < nv) L' ∧ ∀ x < nv, root L' x = root L x := by
  unfold representative
  rw [if_neg (by omega)]
  by_cases hf : L i = i
  · rw [if_neg (by simpa using hf)]
    exact ⟨L, by rw [UF.root_of_fix hf], h, fun _ _ => rfl⟩
  · rw [if_pos hf]
    exact repLoop_spec (L i) L i h hi (h i hi).1 rfl hf

lemma merge_spec {L : ℕ → ℕ} (h : Dec (· < nv) L) {i j : ℕ} (hi : i < nv) (hj : j < nv)
    (hne : root L i ≠ root L j) :
    ∃ L', merge nv L i j = some L' ∧ Dec (· < nv) L' ∧
      ∀ x < nv, root L' x = if root L x = max (root L i) (root L j) then min (root L i) (root L j) else root L x := by
  obtain ⟨L1, e1, d1, r1⟩ := representative_spec h hi
  obtain ⟨L2, e2, d2, r2⟩ := representative_spec d1 hj
  have r3 : ∀ x < nv, root L2 x = root L x := fun x hx => (r2 x hx).trans (r1 x hx)
  unfold merge
  rw [e1]
  dsimp only
  rw [e2, r1 j hj]
  dsimp only
  have hi' : root L i < nv := UF.root_mem h hi
  have hj' : root L j < nv := UF.root_mem h hj
  have fi : L2 (root L i) = root L i := by
    have := UF.root_fixed d2 hi; rwa [r3 i hi] at this
  have fj : L2 (root L j) = root L j := by
    have := UF.root_fixed d2 hj; rwa [r3 j hj] at this
  refine ⟨_, rfl, ?_⟩
  by_cases hc : root L i < root L j
  · rw [if_pos hc, max_eq_right hc.le, min_eq_left hc.le]
    obtain ⟨a, b⟩ := UF.root_link d2 hj' hi' hc fj
    refine ⟨a, fun x hx => ?_⟩
    rw [b x hx, r3 x hx, UF.root_of_fix fi]
  · have hc' : root L j < root L i := by omega
    rw [if_neg hc, max_eq_left hc'.le, min_eq_right hc'.le]
    obtain ⟨a, b⟩ := UF.root_link d2 hi' hj' hc' fi
    refine ⟨a, fun x hx => ?_⟩
    rw [b x hx, r3 x hx, UF.root_of_fix fj]

/-! ## Specification of the parents -/

variable {m : ℕ} {edge : ℕ → ℕ × ℕ}

/-- The first `k` edges. -/
def firstEdges (edge : ℕ → ℕ × ℕ) (k : ℕ) : List (ℕ × ℕ) := (List.range k).map edge

/-- Edge `e` has the end `v`. -/
def Incident (edge : ℕ → ℕ × ℕ) (e v : ℕ) : Prop := (edge e).1 = v ∨ (edge e).2 = v

/-- Edge `e` touches the cluster that edge `c` belongs to once the edges before `e` are in. -/
def Joins (edge : ℕ → ℕ × ℕ) (e c : ℕ) : Prop :=
  Conn (firstEdges edge e) (edge c).1 (edge e).1 ∨ Conn (firstEdges edge e) (edge c).1 (edge e).2

lemma mem_firstEdges {k : ℕ} {p : ℕ × ℕ} : p ∈ firstEdges edge k ↔ ∃ e < k, edge e = p := by
  simp [firstEdges]

lemma conn_first_mono {k l : ℕ} (h : k ≤ l) {u v : ℕ} (c : Conn (firstEdges edge k) u v) :
    Conn (firstEdges edge l) u v := by
  refine c.mono (fun p hp => ?_)
  obtain ⟨e, he, rfl⟩ := mem_firstEdges.mp hp
  exact mem_firstEdges.mpr ⟨e, by omega, rfl⟩

lemma conn_first_succ {k u v : ℕ} : Conn (firstEdges edge (k + 1)) u v ↔
    Conn (firstEdges edge k) u v ∨
    (Conn (firstEdges edge k) u (edge k).1 ∧ Conn (firstEdges edge k) (edge k).2 v) ∨
    (Conn (firstEdges edge k) u (edge k).2 ∧ Conn (firstEdges edge k) (edge k).1 v) := by
  rw [← conn_cons]
  have : ∀ p, p ∈ firstEdges edge (k + 1) ↔ p ∈ ((edge k).1, (edge k).2) :: firstEdges edge k := by
    intro p
    rw [mem_firstEdges, List.mem_cons, mem_firstEdges]
    constructor
    · rintro ⟨e, he, rfl⟩
      rcases Nat.lt_succ_iff_lt_or_eq.mp he with h | rfl
      · exact .inr ⟨e, h, rfl⟩
      · exact .inl rfl
    · rintro (rfl | ⟨e, he, rfl⟩)
      · exact ⟨k, by omega, rfl⟩
      · exact ⟨e, by omega, rfl⟩
  exact ⟨fun c => c.mono (fun p hp => (this p).mp hp), fun c => c.mono (fun p hp => (this p).mpr hp)⟩

lemma conn_edge {k e : ℕ} (h : e < k) : Conn (firstEdges edge k) (edge e).1 (edge e).2 :=
  Conn.edge (mem_firstEdges.mpr ⟨e, h, rfl⟩)

/-- An isolated vertex is connected to itself only. -/
lemma isolated {k v u : ℕ} (h : ∀ e < k, ¬ Incident edge e v) (c : Conn (firstEdges edge k) u v) : u = v := by
  have := Conn.min (R := fun a b => (a = v ↔ b = v)) ⟨fun _ => Iff.rfl, fun h => h.symm, fun h h' => h.trans h'⟩
    (by
      intro p hp
      obtain ⟨e, he, rfl⟩ := mem_firstEdges.mp hp
      constructor
      · intro h1; exact absurd (Or.inl h1) (h e he)
      · intro h1; exact absurd (Or.inr h1) (h e he)) c
  exact this.mpr rfl

structure Inv (m : ℕ) (edge : ℕ → ℕ × ℕ) (k : ℕ) (s : State) : Prop where
  dec : Dec (· < m + 1) s.L
  conn : ∀ u < m + 1, ∀ v < m + 1, (root s.L u = root s.L v ↔ Conn (firstEdges edge k) u v)
  setNone : ∀ r < m + 1, root s.L r = r → s.set r = none → (∀ e < k, ¬ Incident edge e r) ∧ s.par (m + r) = none
  setSome : ∀ r < m + 1, root s.L r = r → ∀ c, s.set r = some c → c < k ∧ root s.L (edge c).1 = r ∧
    (∀ f < k, root s.L (edge f).1 = r → f ≤ c) ∧ s.par c = none
  vertex : ∀ v < m + 1, ∀ z, s.par (m + v) = some z → ∃ e : ℕ, z = e ∧ e < k ∧ Incident edge e v ∧
    ∀ f < e, ¬ Incident edge f v
  vertexNone : ∀ v < m + 1, s.par (m + v) = none → ∀ e < k, ¬ Incident edge e v
  edgeSome : ∀ c < m, ∀ z, s.par c = some z → ∃ e : ℕ, z = e ∧ e < k ∧ c < e ∧ Joins edge e c ∧
    ∀ f, c < f → f < e → ¬ Joins edge f c
  edgeNone : ∀ c < k, s.par c = none → s.set (root s.L (edge c).1) = some c
  kids : ∀ e < k, ∃ a b, a ≠ b ∧ ∀ x, s.par x = some (e : ℤ) ↔ x = a ∨ x = b
  range : ∀ x, 2 * m + 1 ≤ x → s.par x = none

lemma inv_zero (m : ℕ) (edge : ℕ → ℕ × ℕ) : Inv m edge 0 ⟨fun i => i, fun _ => none, fun _ => none⟩ where
  dec := fun x hx => ⟨hx, le_rfl⟩
  conn := fun u _ v _ => by
    rw [UF.root_of_fix (L := fun i => i) rfl, UF.root_of_fix (L := fun i => i) rfl]
    exact ⟨fun h => h ▸ Conn.refl _ _, fun h => Conn.nil h⟩
  setNone := fun r _ _ _ => ⟨by simp, rfl⟩
  setSome := fun r _ _ c h => by cases h
  vertex := fun v _ z h => by cases h
  vertexNone := by simp
  edgeSome := fun v _ z h => by cases h
  edgeNone := by simp
  kids := by simp
  range := fun _ _ => rfl

lemma childOf_eq (set : ℕ → Option ℕ) (k : ℕ) :
    (∃ c, set k = some c ∧ childOf m set k = c) ∨ (set k = none ∧ childOf m set k = m + k) := by
  unfold childOf
  cases h : set k with
  | none => right; exact ⟨rfl, rfl⟩
  | some c => left; exact ⟨c, rfl, rfl⟩

lemma inv_step {k : ℕ} {s : State} (h : Inv m edge k s) (hk : k < m)
    (hs : (edge k).1 < m + 1) (ht : (edge k).2 < m + 1) (hr : ∀ e < k, (edge e).1 < m + 1 ∧ (edge e).2 < m + 1)
    (hb : ¬ Conn (firstEdges edge k) (edge k).1 (edge k).2) :
    ∃ s', step m edge s k = some s' ∧ Inv m edge (k + 1) s' := by
  obtain ⟨L1, e1, d1, r1⟩ := representative_spec h.dec hs
  obtain ⟨L2, e2, d2, r2⟩ := representative_spec d1 ht
  have r2' : ∀ x < m + 1, root L2 x = root s.L x := fun x hx => (r2 x hx).trans (r1 x hx)
  set i := root s.L (edge k).1 with hi
  have hj0 : root L1 (edge k).2 = root s.L (edge k).2 := r1 _ ht
  rw [hj0] at e2
  set j := root s.L (edge k).2 with hj
  have hij : i ≠ j := fun e => hb ((h.conn _ hs _ ht).mp e)
  have hi1 : i < m + 1 := UF.root_mem h.dec hs
  have hj1 : j < m + 1 := UF.root_mem h.dec ht
  have fi : root s.L i = i := UF.root_of_fix (UF.root_fixed h.dec hs)
  have fj : root s.L j = j := UF.root_of_fix (UF.root_fixed h.dec ht)
  obtain ⟨L3, e3, d3, r3⟩ := merge_spec d2 hi1 hj1 (by rw [r2' i hi1, r2' j hj1, fi, fj]; exact hij)
  rw [r2' i hi1, r2' j hj1, fi, fj] at r3
  obtain ⟨L4, e4, d4, r4⟩ := representative_spec d3 hi1
  have hri : root L3 i = min i j := by
    rw [r3 i hi1, r2' i hi1, fi]
    split_ifs with hc
    · rfl
    · rcases le_total i j with hl | hl
      · exact (min_eq_left hl).symm
      · exact absurd (max_eq_left hl).symm hc
  rw [hri] at e4
  have r5 : ∀ x < m + 1, root L4 x = if root s.L x = max i j then min i j else root s.L x := by
    intro x hx
    rw [r4 x hx, r3 x hx, r2' x hx]
  -- in terms of i and j
  have r6 : ∀ x < m + 1, root L4 x = if root s.L x = i ∨ root s.L x = j then min i j else root s.L x := by
    intro x hx
    rw [r5 x hx]
    rcases le_total i j with hl | hl
    · rw [max_eq_right hl, min_eq_left hl]
      by_cases c1 : root s.L x = j
      · rw [if_pos c1, if_pos (.inr c1)]
      · rw [if_neg c1]
        by_cases c2 : root s.L x = i
        · rw [if_pos (.inl c2), c2]
        · rw [if_neg (by tauto)]
    · rw [max_eq_left hl, min_eq_right hl]
      by_cases c1 : root s.L x = i
      · rw [if_pos c1, if_pos (.inl c1)]
      · rw [if_neg c1]
        by_cases c2 : root s.L x = j
        · rw [if_pos (.inr c2), c2]
        · rw [if_neg (by tauto)]
  have hmin : min i j = i ∨ min i j = j := by rcases le_total i j with hl | hl <;> simp [hl]
  have hmin1 : min i j < m + 1 := by rcases hmin with e | e <;> rw [e] <;> assumption
  -- the two children
  set A := childOf m s.set i with hA
  set B := childOf m s.set j with hB
  refine ⟨⟨L4, update s.set (min i j) (some k), update (update s.par A (some k)) B (some k)⟩, ?_, ?_⟩
  · unfold step
    rw [e1]; dsimp only
    rw [e2]; dsimp only
    rw [e3]; dsimp only
    rw [e4]
  -- facts about a child
  have childFact : ∀ q, q < m + 1 → root s.L q = q → (root s.L (edge k).1 = q ∨ root s.L (edge k).2 = q) →
      (∃ c, s.set q = some c ∧ childOf m s.set q = c ∧ c < k ∧ root s.L (edge c).1 = q ∧ s.par c = none ∧
        Joins edge k c ∧ ∀ f, c < f → f < k → ¬ Joins edge f c) ∨
      (s.set q = none ∧ childOf m s.set q = m + q ∧ s.par (m + q) = none ∧ Incident edge k q ∧
        ∀ f < k, ¬ Incident edge f q) := by
    intro q hq fq hend
    rcases childOf_eq (m := m) s.set q with ⟨c, c1, c2⟩ | ⟨c1, c2⟩
    · left
      obtain ⟨s1, s2, s3, s4⟩ := h.setSome q hq fq c c1
      have hcr := hr c s1
      refine ⟨c, c1, c2, s1, s2, s4, ?_, ?_⟩
      · rcases hend with he | he
        · left; exact (h.conn _ hcr.1 _ hs).mp (s2.trans he.symm)
        · right; exact (h.conn _ hcr.1 _ ht).mp (s2.trans he.symm)
      · intro f f1 f2 hjn
        have hfr := hr f f2
        have : root s.L (edge f).1 = q := by
          rcases hjn with hjn | hjn
          · rw [← s2]; exact ((h.conn _ hcr.1 _ hfr.1).mpr (conn_first_mono (by omega) hjn)).symm
          · rw [← s2]
            exact ((h.conn _ hcr.1 _ hfr.1).mpr
              ((conn_first_mono (by omega) hjn).trans (conn_edge (k := k) f2).symm)).symm
        have := s3 f f2 this
        omega
    · right
      obtain ⟨n1, n2⟩ := h.setNone q hq fq c1
      refine ⟨c1, c2, n2, ?_, n1⟩
      rcases hend with he | he
      · left; exact isolated n1 ((h.conn _ hs _ hq).mp (he.trans fq.symm))
      · right; exact isolated n1 ((h.conn _ ht _ hq).mp (he.trans fq.symm))
  have cA := childFact i hi1 fi (.inl rfl)
  have cB := childFact j hj1 fj (.inr rfl)
  rw [← hA] at cA
  rw [← hB] at cB
  have pA : s.par A = none := by
    rcases cA with ⟨c, -, c2, -, -, c5, -⟩ | ⟨-, c2, c3, -⟩
    · rw [c2]; exact c5
    · rw [c2]; exact c3
  have pB : s.par B = none := by
    rcases cB with ⟨c, -, c2, -, -, c5, -⟩ | ⟨-, c2, c3, -⟩
    · rw [c2]; exact c5
    · rw [c2]; exact c3
  have hAB : A ≠ B := by
    intro e
    rcases cA with ⟨c, -, c2, c3, c4, -⟩ | ⟨-, c2, -⟩ <;> rcases cB with ⟨c', -, d2, d3, d4, -⟩ | ⟨-, d2, -⟩
    · have : c = c' := by omega
      subst this
      exact hij (c4.symm.trans d4)
    · omega
    · omega
    · omega
  have par' : ∀ x, (update (update s.par A (some (k : ℤ))) B (some (k : ℤ))) x
      = if x = A ∨ x = B then some (k : ℤ) else s.par x := by
    intro x
    by_cases c1 : x = B
    · subst c1; rw [Function.update_self, if_pos (.inr rfl)]
    · rw [Function.update_of_ne c1]
      by_cases c2 : x = A
      · subst c2; rw [Function.update_self, if_pos (.inl rfl)]
      · rw [Function.update_of_ne c2, if_neg (by tauto)]
  refine ⟨d4, ?_, ?_, ?_, ?_, ?_, ?_, ?_, ?_, ?_⟩ <;> dsimp only
  · -- conn
    intro u hu v hv
    rw [r6 u hu, r6 v hv, conn_first_succ, ← h.conn u hu v hv, ← h.conn u hu _ hs, ← h.conn _ ht v hv,
      ← h.conn u hu _ ht, ← h.conn _ hs v hv, ← hi, ← hj]
    generalize root s.L u = a
    generalize root s.L v = b
    by_cases a1 : a = i ∨ a = j <;> by_cases b1 : b = i ∨ b = j
    · rw [if_pos a1, if_pos b1]
      simp only [true_iff]
      rcases a1 with rfl | rfl <;> rcases b1 with rfl | rfl
      · exact .inl rfl
      · exact .inr (.inl ⟨rfl, rfl⟩)
      · exact .inr (.inr ⟨rfl, rfl⟩)
      · exact .inl rfl
    · rw [if_pos a1, if_neg b1]
      constructor
      · intro e; rcases hmin with hm | hm
        · exact absurd (.inl (e.symm.trans hm)) b1
        · exact absurd (.inr (e.symm.trans hm)) b1
      · rintro (e | ⟨-, e⟩ | ⟨-, e⟩)
        · rw [e] at a1; exact absurd a1 b1
        · exact absurd (.inr e.symm) b1
        · exact absurd (.inl e.symm) b1
    · rw [if_neg a1, if_pos b1]
      constructor
      · intro e; rcases hmin with hm | hm
        · exact absurd (.inl (e.trans hm)) a1
        · exact absurd (.inr (e.trans hm)) a1
      · rintro (e | ⟨e, -⟩ | ⟨e, -⟩)
        · rw [← e] at b1; exact absurd b1 a1
        · exact absurd (.inl e) a1
        · exact absurd (.inr e) a1
    · rw [if_neg a1, if_neg b1]
      constructor
      · intro e; exact .inl e
      · rintro (e | ⟨e, -⟩ | ⟨e, -⟩)
        · exact e
        · exact absurd (.inl e) a1
        · exact absurd (.inr e) a1
  · -- setNone
    intro r hr1 hr2 hr3
    have hne : r ≠ min i j := by
      rintro rfl; rw [Function.update_self] at hr3; cases hr3
    rw [Function.update_of_ne hne] at hr3
    have hnot : ¬ (root s.L r = i ∨ root s.L r = j) := by
      intro hc
      rw [r6 r hr1, if_pos hc] at hr2
      exact hne hr2.symm
    have hfix : root s.L r = r := by rw [r6 r hr1, if_neg hnot] at hr2; exact hr2
    obtain ⟨n1, n2⟩ := h.setNone r hr1 hfix hr3
    rw [hfix] at hnot
    refine ⟨?_, ?_⟩
    · intro e he
      rcases Nat.lt_succ_iff_lt_or_eq.mp he with he | rfl
      · exact n1 e he
      · rintro (hc | hc)
        · apply hnot; left; rw [hi, hc, hfix]
        · apply hnot; right; rw [hj, hc, hfix]
    · rw [par', if_neg]
      · exact n2
      · rintro (hc | hc)
        · rcases cA with ⟨c, -, c2, c3, -⟩ | ⟨-, c2, -⟩
          · omega
          · apply hnot; left; omega
        · rcases cB with ⟨c, -, c2, c3, -⟩ | ⟨-, c2, -⟩
          · omega
          · apply hnot; right; omega
  · -- setSome
    intro r hr1 hr2 c hr3
    by_cases hne : r = min i j
    · subst hne
      rw [Function.update_self] at hr3
      cases hr3
      refine ⟨by omega, ?_, fun f hf _ => by omega, ?_⟩
      · rw [r6 _ hs, if_pos (.inl rfl)]
      · rw [par', if_neg]
        · cases hp : s.par k with
          | none => rfl
          | some z =>
            obtain ⟨e, -, he1, he2, -⟩ := h.edgeSome k hk z hp
            omega
        · rintro (hc | hc)
          · rcases cA with ⟨c, -, c2, c3, -⟩ | ⟨-, c2, -⟩ <;> omega
          · rcases cB with ⟨c, -, c2, c3, -⟩ | ⟨-, c2, -⟩ <;> omega
    · rw [Function.update_of_ne hne] at hr3
      have hnot : ¬ (root s.L r = i ∨ root s.L r = j) := by
        intro hc
        rw [r6 r hr1, if_pos hc] at hr2
        exact hne hr2.symm
      have hfix : root s.L r = r := by rw [r6 r hr1, if_neg hnot] at hr2; exact hr2
      rw [hfix] at hnot
      obtain ⟨s1, s2, s3, s4⟩ := h.setSome r hr1 hfix c hr3
      refine ⟨by omega, ?_, ?_, ?_⟩
      · rw [r6 _ (hr c s1).1, s2, if_neg hnot]
      · intro f hf hfr
        rcases Nat.lt_succ_iff_lt_or_eq.mp hf with hf | rfl
        · apply s3 f hf
          rw [r6 _ (hr f hf).1] at hfr
          split_ifs at hfr
          · exact absurd hfr.symm hne
          · exact hfr
        · rw [r6 _ hs, if_pos (.inl rfl)] at hfr
          exact absurd hfr.symm hne
      · rw [par', if_neg]
        · exact s4
        · rintro (hc | hc)
          · rcases cA with ⟨c', -, c2, c3, c4, -⟩ | ⟨-, c2, -⟩
            · apply hnot; left
              have : c = c' := by omega
              subst this
              exact s2.symm.trans c4
            · omega
          · rcases cB with ⟨c', -, c2, c3, c4, -⟩ | ⟨-, c2, -⟩
            · apply hnot; right
              have : c = c' := by omega
              subst this
              exact s2.symm.trans c4
            · omega
  · -- vertex
    intro v hv z hz
    rw [par'] at hz
    split_ifs at hz with hc
    · have hz : z = (k : ℤ) := (Option.some.inj hz).symm
      refine ⟨k, hz, by omega, ?_⟩
      rcases hc with hc | hc
      · rcases cA with ⟨c', -, c2, c3, c4, -⟩ | ⟨-, c2, -, c4, c5⟩
        · omega
        · have : i = v := by omega
          rw [← this]; exact ⟨c4, c5⟩
      · rcases cB with ⟨c', -, c2, c3, c4, -⟩ | ⟨-, c2, -, c4, c5⟩
        · omega
        · have : j = v := by omega
          rw [← this]; exact ⟨c4, c5⟩
    · obtain ⟨e, z1, z2, z3⟩ := h.vertex v hv z hz
      exact ⟨e, z1, by omega, z3⟩
  · -- vertexNone
    intro v hv hz e he
    rw [par'] at hz
    split_ifs at hz with hc
    have hno := h.vertexNone v hv hz
    rcases Nat.lt_succ_iff_lt_or_eq.mp he with he | rfl
    · exact hno e he
    · have hfix : root s.L v = v := by
        have : Conn (firstEdges edge e) (root s.L v) v :=
          (h.conn _ (UF.root_mem h.dec hv) _ hv).mp (UF.root_of_fix (UF.root_fixed h.dec hv))
        exact isolated hno this
      have hset : s.set v = none := by
        cases hsv : s.set v with
        | none => rfl
        | some c =>
          obtain ⟨s1, s2, -⟩ := h.setSome v hv hfix c hsv
          have := isolated hno ((h.conn _ (hr c s1).1 v hv).mp (s2.trans hfix.symm))
          exact absurd (Or.inl this) (hno c s1)
      have hch : childOf m s.set v = m + v := by unfold childOf; rw [hset]
      rintro (hin | hin)
      · apply hc; left
        rw [hA, show i = v by rw [hi, hin, hfix], hch]
      · apply hc; right
        rw [hB, show j = v by rw [hj, hin, hfix], hch]
  · -- edgeSome
    intro c hc z hz
    rw [par'] at hz
    split_ifs at hz with hd
    · have hz : z = (k : ℤ) := (Option.some.inj hz).symm
      refine ⟨k, hz, by omega, ?_⟩
      rcases hd with hd | hd
      · rcases cA with ⟨c', -, c2, c3, c4, c5, c6⟩ | ⟨-, c2, -⟩
        · have : c = c' := by omega
          rw [this]; exact ⟨c3, c6⟩
        · omega
      · rcases cB with ⟨c', -, c2, c3, c4, c5, c6⟩ | ⟨-, c2, -⟩
        · have : c = c' := by omega
          rw [this]; exact ⟨c3, c6⟩
        · omega
    · obtain ⟨e, z1, z2, z3⟩ := h.edgeSome c hc z hz
      exact ⟨e, z1, by omega, z3⟩
  · -- edgeNone
    intro c hc hz
    rw [par'] at hz
    split_ifs at hz with hd
    rcases Nat.lt_succ_iff_lt_or_eq.mp hc with hc | rfl
    · have hset := h.edgeNone c hc hz
      have hnot : ¬ (root s.L (edge c).1 = i ∨ root s.L (edge c).1 = j) := by
        rintro (e | e)
        · rw [e] at hset
          apply hd; left; rw [hA]; unfold childOf; rw [hset]
        · rw [e] at hset
          apply hd; right; rw [hB]; unfold childOf; rw [hset]
      rw [r6 _ (hr c hc).1, if_neg hnot, Function.update_of_ne]
      · exact hset
      · rcases hmin with e | e <;> rw [e] <;> tauto
    · rw [r6 _ hs, if_pos (.inl rfl), Function.update_self]
  · -- kids
    intro e he
    rcases Nat.lt_succ_iff_lt_or_eq.mp he with he | rfl
    · obtain ⟨a, b, hab, hx⟩ := h.kids e he
      refine ⟨a, b, hab, fun x => ?_⟩
      rw [← hx x, par']
      split_ifs with hc
      · constructor
        · intro hh
          have : (k : ℤ) = e := Option.some.inj hh
          omega
        · intro hh
          rcases hc with rfl | rfl
          · rw [pA] at hh; cases hh
          · rw [pB] at hh; cases hh
      · exact Iff.rfl
    · refine ⟨A, B, hAB, fun x => ?_⟩
      rw [par']
      split_ifs with hc
      · simp [hc]
      · constructor
        · intro hh
          exfalso
          by_cases hx : x < m
          · obtain ⟨e', z1, z2, -⟩ := h.edgeSome x hx _ hh
            omega
          · by_cases hx2 : x < 2 * m + 1
            · obtain ⟨e', z1, z2, -⟩ := h.vertex (x - m) (by omega) _ (by rw [show m + (x - m) = x by omega]; exact hh)
              omega
            · rw [h.range x (by omega)] at hh; cases hh
        · intro hh; exact absurd hh hc
  · -- range
    intro x hx
    rw [par', if_neg]
    · exact h.range x hx
    · rintro (hc | hc)
      · rcases cA with ⟨c', -, c2, c3, -⟩ | ⟨-, c2, -⟩ <;> omega
      · rcases cB with ⟨c', -, c2, c3, -⟩ | ⟨-, c2, -⟩ <;> omega

/-- The edges of a spanning tree, in any order, one after the other, join different components. -/
lemma tree_bridge (h : SpanningTree (m + 1) (firstEdges edge m)) {k : ℕ} (hk : k < m) :
    ¬ Conn (firstEdges edge k) (edge k).1 (edge k).2 := by
  have e : firstEdges edge m = firstEdges edge k ++ edge k :: ((List.range' (k + 1) (m - k - 1)).map edge) := by
    unfold firstEdges
    rw [List.range_eq_range', List.range_eq_range', ← List.map_cons (f := edge), ← List.map_append]
    congr 1
    have : m = k + ((m - k - 1) + 1) := by omega
    conv_lhs => rw [this, ← List.range'_append_1]
    rw [List.range'_succ, Nat.zero_add]
  rw [e] at h
  intro c
  exact h.bridge (c.mono (List.subset_append_left _ _))

lemma inv_loop (h : SpanningTree (m + 1) (firstEdges edge m)) : ∀ k ≤ m,
    ∃ s, loop m edge k = some s ∧ Inv m edge k s := by
  have rg : ∀ e < m, (edge e).1 < m + 1 ∧ (edge e).2 < m + 1 := fun e he =>
    h.range (edge e) (mem_firstEdges.mpr ⟨e, he, rfl⟩)
  intro k
  induction k with
  | zero => intro _; exact ⟨_, rfl, inv_zero m edge⟩
  | succ k ih =>
    intro hk
    obtain ⟨s, e, hs⟩ := ih (by omega)
    obtain ⟨s', e', hs'⟩ := inv_step hs (by omega) (rg k (by omega)).1 (rg k (by omega)).2
      (fun e he => rg e (by omega)) (tree_bridge h (by omega))
    refine ⟨s', ?_, hs'⟩
    rw [loop, e, Option.bind_some, e']

end ArborX.Dendrogram
