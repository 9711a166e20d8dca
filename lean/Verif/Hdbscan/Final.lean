import Verif.Hdbscan.Loop
import Verif.Hdbscan.Tree

/-!
# The levels after the loop, and the chain of each edge (lemmas)
-/

namespace ArborX.Hdbscan

open Function (update)
open Boruvka
open Mst (DirectedEdge WeightedEdge)
open Graph (Conn SpanningTree)

variable {V W : Type} [LinearOrder W] [BoundedOrder W] [SemilatticeSup V]
variable {P : Points V W} {value : ℕ → ℕ} {n : ℕ}

omit [SemilatticeSup V] in
lemma mem_pairs_take {E : List (WeightedEdge W)} {j a b : ℕ} :
    (a, b) ∈ pairs (E.take j) ↔ ∃ e < E.length, e < j ∧ srcAt E e = a ∧ tgtAt E e = b := by
  unfold pairs
  rw [List.mem_map]
  constructor
  · rintro ⟨x, hx, h⟩
    obtain ⟨e, he⟩ := List.getElem?_of_mem hx
    have hj : e < j := by
      by_contra hj
      rw [List.getElem?_take, if_neg hj] at he
      cases he
    rw [List.getElem?_take_of_lt hj] at he
    have hlt : e < E.length := by
      by_contra hlt
      rw [List.getElem?_eq_none (by omega)] at he
      cases he
    rw [edgeAt_get hlt, Option.some.injEq] at he
    refine ⟨e, hlt, hj, ?_, ?_⟩
    · unfold srcAt; rw [he]; exact (Prod.ext_iff.mp h).1
    · unfold tgtAt; rw [he]; exact (Prod.ext_iff.mp h).2
  · rintro ⟨e, hlt, hj, rfl, rfl⟩
    refine ⟨edgeAt E e, ?_, rfl⟩
    refine List.mem_of_getElem? (i := e) ?_
    rw [List.getElem?_take_of_lt hj, edgeAt_get hlt]

omit [SemilatticeSup V] in
/-- Connection by the first edges of a list. -/
lemma conn_take {E : List (WeightedEdge W)} {j u v : ℕ} :
    Conn (pairs (E.take j)) u v ↔ Lk E.length (srcAt E) (tgtAt E) (fun e => e < j) u v := by
  unfold Conn Lk
  constructor
  · refine Relation.EqvGen.mono (fun a b h => mem_pairs_take.mp h) u v
  · refine Relation.EqvGen.mono (r := fun a b => ∃ e < E.length, e < j ∧ srcAt E e = a ∧ tgtAt E e = b)
      (fun a b h => mem_pairs_take.mpr h) u v

omit [SemilatticeSup V] in
/-- No two edges of a spanning tree have the same key. -/
lemma keyAt_inj (hsym : ∀ p q, P.weight p q = P.weight q p) {E : List (WeightedEdge W)}
    (ht : SpanningTree n (pairs E)) : ∀ e < E.length, ∀ f < E.length, keyAt P value E e = keyAt P value E f → e = f := by
  have main : ∀ e < E.length, ∀ f < E.length, e < f → keyAt P value E e ≠ keyAt P value E f := by
    intro e he f hf hef hk
    have hsplit : E = E.take e ++ edgeAt E e :: E.drop (e + 1) := by
      conv_lhs => rw [← List.take_append_drop e E]
      rw [List.drop_eq_getElem_cons he]
      have := edgeAt_get he
      rw [List.getElem?_eq_getElem he, Option.some.injEq] at this
      rw [this]
    have hp : pairs E = pairs (E.take e) ++ (srcAt E e, tgtAt E e) :: pairs (E.drop (e + 1)) := by
      conv_lhs => rw [hsplit]
      unfold pairs
      rw [List.map_append, List.map_cons]
      rfl
    rw [hp] at ht
    have hfm : (srcAt E f, tgtAt E f) ∈ pairs (E.take e) ++ pairs (E.drop (e + 1)) := by
      rw [List.mem_append]
      right
      unfold pairs
      rw [List.mem_map]
      refine ⟨edgeAt E f, ?_, rfl⟩
      refine List.mem_of_getElem? (i := f - (e + 1)) ?_
      rw [List.getElem?_drop]
      have : e + 1 + (f - (e + 1)) = f := by omega
      rw [this, edgeAt_get hf]
    refine ht.bridge ?_
    have hc : Conn (pairs (E.take e) ++ pairs (E.drop (e + 1))) (srcAt E f) (tgtAt E f) := Relation.EqvGen.rel _ _ hfm
    rcases (ekey_edgeKey (P := P) (value := value) hsym).inj _ _ _ _ hk with ⟨h1, h2⟩ | ⟨h1, h2⟩
    · rw [h1, h2]; exact hc
    · rw [h1, h2]; exact hc.symm
  intro e he f hf h
  rcases lt_trichotomy e f with hlt | rfl | hlt
  · exact absurd h (main e he f hf hlt)
  · rfl
  · exact absurd h.symm (main f hf e he hlt)

omit [SemilatticeSup V] in
/-- When one component is left. -/
lemma HInv.levels (hset : Setting P value n) (hn : 0 < n) {L : ℕ} {off : ℕ → ℕ} {lab α : ℕ → ℕ → ℕ} {s : HState W}
    (h : HInv P value n L off lab α s) (h1 : numReps n s.base.lab ≤ 1) :
    Levels n s.base.edges.length (srcAt s.base.edges) (tgtAt s.base.edges) (keyAt P value s.base.edges) L off lab α := by
  set E := s.base.edges with hE
  have H := h.hist
  have ht := h.base.tree hn h1
  have hrange : ∀ e < E.length, srcAt E e < n ∧ tgtAt E e < n := by
    intro e he
    obtain ⟨a, b, -⟩ := h.base.edge _ (edgeAt_mem he)
    exact ⟨a, b⟩
  have hj : ∀ k ≤ L, ∀ u < n, ∀ v < n, lab k u = lab k v ↔ Lk E.length (srcAt E) (tgtAt E) (fun e => e < off k) u v := by
    intro k hk u hu v hv
    rw [← conn_take]
    exact (H.conn k hk u hu v hv).symm
  have hoff : ∀ k ≤ L, off k ≤ E.length := fun k hk => (H.off_mono hk le_rfl).trans H.off_le
  refine ⟨H.off_zero, H.off_lt, h.last, hrange, keyAt_inj hset.symm ht, H.lab_zero, ?_, ?_, ?_, ?_, H.alpha_mem, ?_, ?_, ?_⟩
  · intro u hu v hv
    rw [hj L le_rfl u hu v hv, ← conn_take, h.last, List.take_length]
    exact ht.connects u hu v hv
  · intro k hk u hu v hv e
    rw [hj (k + 1) hk u hu v hv]
    exact ((hj k hk.le u hu v hv).mp e).mono (fun e _ he => lt_trans he (H.off_lt k hk))
  · intro k hk e he
    have hm := lt_of_lt_of_le he (hoff k hk)
    obtain ⟨a, b⟩ := hrange e hm
    rw [hj k hk _ a _ b]
    exact Lk.edge (p := fun e => e < off k) hm he
  · intro k hk u hu v hv e
    exact (hj k hk u hu v hv).mp e
  · intro k hk v hv
    obtain ⟨a, ha, b, hb, hab, h2, h3, -⟩ := H.alpha_best k hk v hv
    rcases hab with ⟨e1, e2⟩ | ⟨e1, e2⟩
    · left; rw [e1, e2]; exact ⟨h2, h3⟩
    · right; rw [e1, e2]; exact ⟨h2, h3⟩
  · intro k hk v hv f hf hne hor
    obtain ⟨a, ha, b, hb, hab, h2, h3, h4⟩ := H.alpha_best k hk v hv
    have hsy := (ekey_edgeKey (P := P) (value := value) hset.symm).symm
    have e1 : keyAt P value E (α k (lab k v)) = ekey P value (a, b) := by
      unfold keyAt
      rcases hab with ⟨e1, e2⟩ | ⟨e1, e2⟩
      · rw [e1, e2]
      · rw [e1, e2, hsy]
    rw [e1]
    obtain ⟨c, d⟩ := hrange f hf
    rcases hor with ho | ho
    · exact h4 _ c _ d ho (fun e => hne (ho.trans e.symm))
    · unfold keyAt
      rw [hsy (srcAt E f)]
      exact h4 _ d _ c ho (fun e => hne (e.trans ho.symm))
  · intro k hk e h2 h3
    exact .inl (H.onto k hk e h2 h3)

/-- The number of a chain whose edges lie below edge `α k c`, on the side of edge `e`. -/
def code (src : ℕ → ℕ) (lab α : ℕ → ℕ → ℕ) (k e : ℕ) : ℤ :=
  ((2 * α k (lab k (src e)) + (if lab k (src (α k (lab k (src e)))) = lab k (src e) then 1 else 0) : ℕ) : ℤ)

/-- The number of a chain. -/
def cidVal (src : ℕ → ℕ) (L : ℕ) (lab α : ℕ → ℕ → ℕ) (k e : ℕ) : ℤ :=
  if k = L then 2 ^ 31 - 1 else code src lab α k e

lemma code_nonneg (src : ℕ → ℕ) (lab α : ℕ → ℕ → ℕ) (k e : ℕ) : 0 ≤ code src lab α k e := Int.natCast_nonneg _

lemma code_half (src : ℕ → ℕ) (lab α : ℕ → ℕ → ℕ) (k e : ℕ) :
    (code src lab α k e / 2).toNat = α k (lab k (src e)) := by
  unfold code
  split_ifs <;> omega

section Codes

variable {m : ℕ} {κ : Type} [LinearOrder κ] {src tgt : ℕ → ℕ} {key : ℕ → κ} {L : ℕ} {off : ℕ → ℕ}
  {lab α : ℕ → ℕ → ℕ} (H : Levels n m src tgt key L off lab α)
include H

lemma code_lt {e k : ℕ} (hbig : m < 2 ^ 30) (he : e < m) (hk : k < L) : code src lab α k e < 2 ^ 31 - 1 := by
  have := H.alpha_lt hk (H.range e he).1
  unfold code
  split_ifs <;> omega

/-- Different chains have different numbers. -/
lemma cid_chain (hbig : m < 2 ^ 30) {e f k l : ℕ} (he : Top src key L off lab α e k) (hf : Top src key L off lab α f l) :
    cidVal src L lab α k e = cidVal src L lab α l f ↔ k = l ∧ lab k (src e) = lab k (src f) := by
  have hem : e < m := lt_of_lt_of_le he.lt (H.off_le_m he.le)
  have hfm : f < m := lt_of_lt_of_le hf.lt (H.off_le_m hf.le)
  obtain ⟨hes, -⟩ := H.range e hem
  obtain ⟨hfs, -⟩ := H.range f hfm
  unfold cidVal
  constructor
  · intro h
    split_ifs at h with hkL hlL hlL
    · exact ⟨hkL.trans hlL.symm, by rw [hkL]; exact H.lab_last _ hes _ hfs⟩
    · have := code_lt H hbig hfm (lt_of_le_of_ne hf.le hlL); omega
    · have := code_lt H hbig hem (lt_of_le_of_ne he.le hkL); omega
    · have hkl := lt_of_le_of_ne he.le hkL
      have hll := lt_of_le_of_ne hf.le hlL
      unfold code at h
      obtain ⟨a1, a2⟩ := H.alpha_mem k hkl _ hes
      obtain ⟨b1, b2⟩ := H.alpha_mem l hll _ hfs
      have hα : α k (lab k (src e)) = α l (lab l (src f)) := by
        split_ifs at h <;> omega
      have hlev : k = l := by
        rw [hα] at a1 a2
        exact Laid.level_unique H hkl hll a1 a2 b1 b2
      subst hlev
      refine ⟨rfl, ?_⟩
      rw [hα] at h
      have c1 := H.alpha_cross k hkl _ hes
      have c2 := H.alpha_cross k hkl _ hfs
      rw [hα] at c1
      split_ifs at h with s1 s2 s2
      · exact s1.symm.trans s2
      · omega
      · omega
      · rcases c1 with c1 | c1
        · exact absurd c1.1 s1
        · rcases c2 with c2 | c2
          · exact absurd c2.1 s2
          · exact c1.1.symm.trans c2.1
  · rintro ⟨rfl, h⟩
    unfold code
    rw [h]

end Codes

section Follow

variable {E : List (WeightedEdge W)} {L : ℕ} {off : ℕ → ℕ} {lab α : ℕ → ℕ → ℕ}

omit [SemilatticeSup V] in
/-- The search for the chain of an edge. -/
lemma follow_spec (H : Levels n E.length (srcAt E) (tgtAt E) (keyAt P value E) L off lab α)
    (hw : ∀ e < E.length, (edgeAt E e).weight = P.weight (value (srcAt E e)) (value (tgtAt E e)))
    {fs : ℕ → Option ℤ} (hfs : ∀ j, j + 1 < L → ∀ e, off j ≤ e → e < off (j + 1) → fs e = some (sidedVal P value lab α E j e))
    (hroot : ∀ e, off (L - 1) ≤ e → e < off L → fs e = some (-2)) {e : ℕ} (he : e < E.length) :
    ∀ fuel j, j < L → e < off j →
      (∀ j' ≤ j, e < off j' → keyAt P value E (α j' (lab j' (srcAt E e))) < keyAt P value E e) → L ≤ j + fuel →
      ∃ k, Top (srcAt E) (keyAt P value E) L off lab α e k ∧
        follow E fs (edgeAt E e) fuel (α j (lab j (srcAt E e))) = .ok (if k = L then -2 else code (srcAt E) lab α k e) := by
  intro fuel
  induction fuel with
  | zero => intro j hj _ _ h; omega
  | succ fuel ih =>
    intro j hj hej hall hfl
    obtain ⟨hes, -⟩ := H.range e he
    set x := α j (lab j (srcAt E e)) with hx
    have hxm : x < E.length := H.alpha_lt hj hes
    obtain ⟨x1, x2⟩ := H.alpha_mem j hj _ hes
    have hxe := hall j le_rfl hej
    have hlt1 : e < off (j + 1) := lt_trans hej (H.off_le j hj)
    have hlabx : lab (j + 1) (srcAt E x) = lab (j + 1) (srcAt E e) := by
      have hin := H.inside (j + 1) hj x x2
      obtain ⟨hs, ht⟩ := H.range x hxm
      rcases H.alpha_cross j hj _ hes with ⟨c, -⟩ | ⟨c, -⟩
      · exact H.coarse j hj _ hs _ hes c
      · rw [hin]; exact H.coarse j hj _ ht _ hes c
    unfold follow
    rw [if_neg (by omega)]
    by_cases hL : j + 1 < L
    · rw [hfs j hL x x1 x2]
      dsimp only
      have hne := H.key_ne hL hlt1 hes
      have hnext : keyAt P value E (α (j + 1) (lab (j + 1) (srcAt E e))) < keyAt P value E e →
          ∀ j' ≤ j + 1, e < off j' → keyAt P value E (α j' (lab j' (srcAt E e))) < keyAt P value E e := by
        intro hlt j' hj' h'
        rcases Nat.lt_or_ge j j' with hh | hh
        · obtain rfl : j' = j + 1 := by omega
          exact hlt
        · exact hall j' hh h'
      have hcode : sidedVal P value lab α E j x = if keyAt P value E x < keyAt P value E (α (j + 1) (lab (j + 1) (srcAt E e)))
          then code (srcAt E) lab α (j + 1) e else -3 - (α (j + 1) (lab (j + 1) (srcAt E e)) : ℤ) := by
        unfold sidedVal code
        rw [hlabx]
      rw [hcode]
      set y := α (j + 1) (lab (j + 1) (srcAt E e)) with hy
      have hym : y < E.length := H.alpha_lt hL hes
      by_cases hxy : keyAt P value E x < keyAt P value E y
      · rw [if_pos hxy]
        have hc0 := code_nonneg (srcAt E) lab α (j + 1) e
        rw [if_neg (by omega), if_pos hc0, code_half, ← hy, edgeAt_get hym]
        dsimp only
        by_cases hlt : (edgeAt E e).lt (edgeAt E y) = true
        · rw [if_pos hlt]
          have hk := (lt_iff (P := P) (value := value) (hw e he) (hw y hym)).mp hlt
          refine ⟨j + 1, ⟨hj, hlt1, fun _ => hk, fun j' hj' h' => hall j' (by omega) h'⟩, ?_⟩
          rw [if_neg (by omega)]
        · rw [if_neg hlt]
          have hk : ¬ keyAt P value E e < keyAt P value E y := fun hk =>
            hlt ((lt_iff (P := P) (value := value) (hw e he) (hw y hym)).mpr hk)
          exact ih (j + 1) hL hlt1 (hnext (lt_of_le_of_ne (not_lt.mp hk) hne.symm)) (by omega)
      · rw [if_neg hxy, if_pos (by omega)]
        have : (-3 - (-3 - (y : ℤ))).toNat = y := by omega
        rw [this]
        exact ih (j + 1) hL hlt1 (hnext (lt_of_le_of_lt (not_lt.mp hxy) hxe)) (by omega)
    · have hjL : j + 1 = L := by omega
      subst hjL
      rw [hroot x (by simpa using x1) x2]
      dsimp only
      rw [if_neg (by omega), if_neg (by omega), if_pos rfl]
      exact ⟨j + 1, ⟨le_rfl, hlt1, fun h => absurd h (lt_irrefl _), fun j' hj' h' => hall j' (by omega) h'⟩, by rw [if_pos rfl]⟩

omit [SemilatticeSup V] in
/-- The number of the chain of every edge is found. -/
lemma chainKey_spec (H : Levels n E.length (srcAt E) (tgtAt E) (keyAt P value E) L off lab α)
    (hw : ∀ e < E.length, (edgeAt E e).weight = P.weight (value (srcAt E e)) (value (tgtAt E e)))
    {fs : ℕ → Option ℤ} (hfs : ∀ j, j + 1 < L → ∀ e, off j ≤ e → e < off (j + 1) → fs e = some (sidedVal P value lab α E j e))
    (hroot : ∀ e, off (L - 1) ≤ e → e < off L → fs e = some (-2)) {fuel : ℕ} (hfuel : L ≤ fuel) {e : ℕ} (he : e < E.length) :
    ∃ k, Top (srcAt E) (keyAt P value E) L off lab α e k ∧
      chainKey E fs fuel e = .ok (cidVal (srcAt E) L lab α k e) := by
  obtain ⟨hes, -⟩ := H.range e he
  obtain ⟨i, hi, h1, h2⟩ := H.level he
  have hno : ∀ j ≤ i, ¬ e < off j := fun j hj h => by
    have := H.off_mono hj hi.le
    omega
  unfold chainKey cidVal
  rw [edgeAt_get he]
  by_cases hL : i + 1 < L
  · rw [hfs i hL e h1 h2]
    dsimp only
    have hne := H.key_ne hL h2 hes
    have hcode : sidedVal P value lab α E i e = if keyAt P value E e < keyAt P value E (α (i + 1) (lab (i + 1) (srcAt E e)))
        then code (srcAt E) lab α (i + 1) e else -3 - (α (i + 1) (lab (i + 1) (srcAt E e)) : ℤ) := rfl
    rw [hcode]
    set y := α (i + 1) (lab (i + 1) (srcAt E e)) with hy
    by_cases hey : keyAt P value E e < keyAt P value E y
    · rw [if_pos hey]
      have hc0 := code_nonneg (srcAt E) lab α (i + 1) e
      rw [if_neg (by omega)]
      refine ⟨i + 1, ⟨hi, h2, fun _ => hey, fun j hj h => absurd h (hno j (by omega))⟩, ?_⟩
      simp only [Outcome.bind]
      rw [if_neg (by omega), if_neg (by omega)]
    · rw [if_neg hey, if_pos (by omega)]
      have : (-3 - (-3 - (y : ℤ))).toNat = y := by omega
      rw [this]
      obtain ⟨k, hk, hf⟩ := follow_spec H hw hfs hroot he fuel (i + 1) hL h2 (by
        intro j hj h
        rcases Nat.lt_or_ge i j with hh | hh
        · obtain rfl : j = i + 1 := by omega
          exact lt_of_le_of_ne (not_lt.mp hey) hne.symm
        · exact absurd h (hno j hh)) (by omega)
      refine ⟨k, hk, ?_⟩
      rw [hf]
      simp only [Outcome.bind]
      by_cases hkL : k = L
      · rw [if_pos hkL, if_pos rfl, if_pos hkL]
      · have hc0 := code_nonneg (srcAt E) lab α k e
        rw [if_neg hkL, if_neg hkL, if_neg (by omega)]
  · have hiL : i + 1 = L := by omega
    subst hiL
    rw [hroot e (by simpa using h1) h2]
    dsimp only
    rw [if_neg (by omega)]
    refine ⟨i + 1, ⟨le_rfl, h2, fun h => absurd h (lt_irrefl _), fun j hj h => absurd h (hno j (by omega))⟩, ?_⟩
    simp only [Outcome.bind, if_true]

end Follow

end ArborX.Hdbscan
