import Verif.Hdbscan.Kernels
import Verif.Hdbscan.Levels

/-!
# What the iterations leave behind (lemmas)
-/

namespace ArborX.Hdbscan

open Function (update)
open Boruvka
open Mst (DirectedEdge WeightedEdge)
open Graph (Conn SpanningTree)

variable {V W : Type} [LinearOrder W] [BoundedOrder W] [SemilatticeSup V]
variable {P : Points V W} {value : ℕ → ℕ} {n : ℕ}

/-- The edge number `e`. -/
def edgeAt (E : List (WeightedEdge W)) (e : ℕ) : WeightedEdge W := E.getD e ⟨0, 0, ⊥⟩

def srcAt (E : List (WeightedEdge W)) (e : ℕ) : ℕ := (edgeAt E e).source
def tgtAt (E : List (WeightedEdge W)) (e : ℕ) : ℕ := (edgeAt E e).target

/-- The place of an edge in the order of the edges. -/
def keyAt (P : Points V W) (value : ℕ → ℕ) (E : List (WeightedEdge W)) (e : ℕ) : W ×ₗ ℕ ×ₗ ℕ :=
  ekey P value (srcAt E e, tgtAt E e)

omit [SemilatticeSup V] in
lemma edgeAt_get {E : List (WeightedEdge W)} {e : ℕ} (he : e < E.length) : E[e]? = some (edgeAt E e) := by
  unfold edgeAt
  rw [List.getD_eq_getElem?_getD, List.getElem?_eq_getElem he]
  rfl

lemma edgeAt_append {E F : List (WeightedEdge W)} {e : ℕ} (he : e < E.length) : edgeAt (E ++ F) e = edgeAt E e := by
  unfold edgeAt
  rw [List.getD_eq_getElem?_getD, List.getD_eq_getElem?_getD, List.getElem?_append_left he]

lemma edgeAt_mem {E : List (WeightedEdge W)} {e : ℕ} (he : e < E.length) : edgeAt E e ∈ E :=
  List.mem_of_getElem? (edgeAt_get he)

/-- The history of `k` iterations: the edges of iteration `j` are `off j, …, off (j + 1) - 1`, the
component of `v` before it is `lab j v`, the edge chosen by component `c` in it is `α j c`. -/
structure Hist (P : Points V W) (value : ℕ → ℕ) (n k : ℕ) (off : ℕ → ℕ) (lab : ℕ → ℕ → ℕ) (α : ℕ → ℕ → ℕ)
    (E : List (WeightedEdge W)) : Prop where
  off_zero : off 0 = 0
  off_lt : ∀ j < k, off j < off (j + 1)
  off_le : off k ≤ E.length
  lab_zero : ∀ v < n, lab 0 v = v
  conn : ∀ j ≤ k, ∀ u < n, ∀ v < n, (Conn (pairs (E.take (off j))) u v ↔ lab j u = lab j v)
  alpha_mem : ∀ j < k, ∀ v < n, off j ≤ α j (lab j v) ∧ α j (lab j v) < off (j + 1)
  alpha_best : ∀ j < k, ∀ v < n, ∃ a < n, ∃ b < n,
    ((srcAt E (α j (lab j v)) = a ∧ tgtAt E (α j (lab j v)) = b) ∨
      (srcAt E (α j (lab j v)) = b ∧ tgtAt E (α j (lab j v)) = a)) ∧
    lab j a = lab j v ∧ lab j b ≠ lab j v ∧
    ∀ x < n, ∀ y < n, lab j x = lab j v → lab j y ≠ lab j v → ekey P value (a, b) ≤ ekey P value (x, y)
  onto : ∀ j < k, ∀ e, off j ≤ e → e < off (j + 1) → α j (lab j (srcAt E e)) = e

/-- The entry of `sided_parents` of an edge `e` of iteration `j`. -/
def sidedVal (P : Points V W) (value : ℕ → ℕ) (lab : ℕ → ℕ → ℕ) (α : ℕ → ℕ → ℕ) (E : List (WeightedEdge W)) (j e : ℕ) : ℤ :=
  if keyAt P value E e < keyAt P value E (α (j + 1) (lab (j + 1) (srcAt E e))) then
    ((2 * α (j + 1) (lab (j + 1) (srcAt E e)) +
      (if lab (j + 1) (srcAt E (α (j + 1) (lab (j + 1) (srcAt E e)))) = lab (j + 1) (srcAt E e) then 1 else 0) : ℕ) : ℤ)
  else -3 - (α (j + 1) (lab (j + 1) (srcAt E e)) : ℤ)

/-- The entries of `sided_parents` written in iterations `1, …, k - 1`. -/
def SidedOk (P : Points V W) (value : ℕ → ℕ) (k : ℕ) (off : ℕ → ℕ) (lab : ℕ → ℕ → ℕ) (α : ℕ → ℕ → ℕ)
    (E : List (WeightedEdge W)) (sided : ℕ → Option ℤ) : Prop :=
  ∀ j, j + 1 < k → ∀ e, off j ≤ e → e < off (j + 1) → sided e = some (sidedVal P value lab α E j e)

variable {k : ℕ} {off : ℕ → ℕ} {lab : ℕ → ℕ → ℕ} {α : ℕ → ℕ → ℕ} {E : List (WeightedEdge W)}

omit [SemilatticeSup V] in
lemma Hist.off_mono (h : Hist P value n k off lab α E) {i j : ℕ} (hij : i ≤ j) (hj : j ≤ k) : off i ≤ off j := by
  induction j, hij using Nat.le_induction with
  | base => exact le_rfl
  | succ j hij ih => exact (ih (by omega)).trans (h.off_lt j (by omega)).le

omit [SemilatticeSup V] in
/-- More edges. -/
lemma Hist.append (h : Hist P value n k off lab α E) (F : List (WeightedEdge W)) :
    Hist P value n k off lab α (E ++ F) := by
  have hle : ∀ j ≤ k, off j ≤ E.length := fun j hj => (h.off_mono hj le_rfl).trans h.off_le
  have hs : ∀ e, e < off k → srcAt (E ++ F) e = srcAt E e ∧ tgtAt (E ++ F) e = tgtAt E e := by
    intro e he
    unfold srcAt tgtAt
    rw [edgeAt_append (lt_of_lt_of_le he h.off_le)]
    exact ⟨rfl, rfl⟩
  have hlt : ∀ j < k, ∀ e, e < off (j + 1) → e < off k := fun j hj e he =>
    lt_of_lt_of_le he (h.off_mono (by omega) le_rfl)
  refine ⟨h.off_zero, h.off_lt, ?_, h.lab_zero, ?_, h.alpha_mem, ?_, ?_⟩
  · rw [List.length_append]; have := h.off_le; omega
  · intro j hj u hu v hv
    rw [List.take_append_of_le_length (hle j hj)]
    exact h.conn j hj u hu v hv
  · intro j hj v hv
    obtain ⟨h1, h2⟩ := hs _ (hlt j hj _ (h.alpha_mem j hj v hv).2)
    rw [h1, h2]
    exact h.alpha_best j hj v hv
  · intro j hj e h1 h2
    rw [(hs e (hlt j hj e h2)).1]
    exact h.onto j hj e h1 h2

omit [SemilatticeSup V] in
lemma keyAt_append {F : List (WeightedEdge W)} {e : ℕ} (he : e < E.length) :
    keyAt P value (E ++ F) e = keyAt P value E e ∧ srcAt (E ++ F) e = srcAt E e := by
  unfold keyAt srcAt tgtAt
  rw [edgeAt_append he]
  exact ⟨rfl, rfl⟩

omit [BoundedOrder W] [SemilatticeSup V] in
/-- The order of the weighted edges is the order of the keys. -/
lemma lt_iff {a b : WeightedEdge W} (ha : a.weight = P.weight (value a.source) (value a.target))
    (hb : b.weight = P.weight (value b.source) (value b.target)) :
    a.lt b = true ↔ ekey P value (a.source, a.target) < ekey P value (b.source, b.target) := by
  rw [Mst.weighted_lt_iff, ha, hb]
  unfold ekey
  rw [Prod.Lex.toLex_lt_toLex, Prod.Lex.toLex_lt_toLex]

end ArborX.Hdbscan
