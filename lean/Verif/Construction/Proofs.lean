import Verif.Construction.Model
import Mathlib.Tactic.Linarith
import Mathlib.Tactic.SplitIfs
import Mathlib.Algebra.BigOperators.Group.Finset.Basic
import Mathlib.Algebra.Order.BigOperators.Group.Finset

set_option linter.unusedSectionVars false

namespace ArborX.Construction

open Function (update)

variable {α V : Type} 

/-- Hypotheses on the split keys. -/
structure Good (P : Params α V) : Prop where
  pos : 1 ≤ P.m
  lt_max : ∀ i < P.m, P.key i < P.maxv
  adj : ∀ i, i + 1 < P.m → P.key i ≠ P.key (i + 1)

variable (P : Params α V)

def dR (r : ℕ) : ℤ := delta P r
def dL (l : ℕ) : ℤ := delta P ((l : ℤ) - 1)

lemma dR_lt {r : ℕ} (h : r < P.m) : dR P r = P.key r := by
  simp only [dR, delta]; rw [if_neg (by omega)]; simp
lemma dR_ge {r : ℕ} (h : P.m ≤ r) : dR P r = P.maxv := by
  simp only [dR, delta]; rw [if_pos (by omega)]
lemma dL_zero : dL P 0 = P.maxv := by
  simp only [dL, delta]; rw [if_pos (by omega)]
lemma dL_succ (l : ℕ) : dL P (l+1) = dR P l := by
  simp only [dL, dR]; congr 1; push_cast; omega

lemma dL_pos {l : ℕ} (h : 0 < l) : dL P l = dR P (l-1) := by
  obtain ⟨k, rfl⟩ : ∃ k, l = k+1 := ⟨l-1, by omega⟩
  simpa using dL_succ P k

variable {P}

lemma dR_le (g : Good P) (r : ℕ) : dR P r ≤ P.maxv := by
  by_cases h : r < P.m
  · rw [dR_lt P h]; exact (g.lt_max r h).le
  · rw [dR_ge P (by omega)]

lemma dL_le (g : Good P) (l : ℕ) : dL P l ≤ P.maxv := by
  cases l with
  | zero => rw [dL_zero]
  | succ k => rw [dL_succ]; exact dR_le g k

variable (P)

/-- left child iff -/
def isLeft (l r : ℕ) : Prop := dR P r < dL P l

instance (l r : ℕ) : Decidable (isLeft P l r) := by unfold isLeft; infer_instance

def karras (l r : ℕ) : ℕ := if isLeft P l r then r else l
def idOf (l r : ℕ) : ℕ := if l = r then l else internalIndex P (karras P l r)
def ropeOf (r : ℕ) : Option ℕ := setRope P r (dR P r)

/-- splits inside `[l,r)` are below the two neighbours -/
def IsNode (l r : ℕ) : Prop :=
  l ≤ r ∧ r ≤ P.m ∧ ∀ s, l ≤ s → s < r → dR P s < dL P l ∧ dR P s ≤ dR P r

variable {P}

lemma IsNode.leaf {i : ℕ} (h : i ≤ P.m) : IsNode P i i :=
  ⟨le_rfl, h, fun s h1 h2 => by omega⟩

lemma IsNode.merge {l p r : ℕ} (ha : IsNode P l p) (hb : IsNode P (p+1) r)
    (h1 : isLeft P l p) (h2 : ¬ isLeft P (p+1) r) : IsNode P l r := by
  obtain ⟨a1, a2, a3⟩ := ha
  obtain ⟨b1, b2, b3⟩ := hb
  unfold isLeft at h1 h2
  rw [dL_succ] at h2
  refine ⟨by omega, b2, fun s hs1 hs2 => ?_⟩
  rcases lt_trichotomy s p with h | h | h
  · have := a3 s hs1 h; constructor <;> linarith
  · subst h; exact ⟨h1, not_lt.mp h2⟩
  · have := b3 s (by omega) hs2
    rw [dL_succ] at this
    constructor <;> linarith

lemma isLeft_lt (g : Good P) {l r : ℕ} (h : isLeft P l r) : r < P.m := by
  by_contra h'
  unfold isLeft at h
  rw [dR_ge P (by omega)] at h
  exact absurd (dL_le g l) (not_le.mpr h)

lemma not_isLeft_zero (g : Good P) {r : ℕ} (h : ¬ isLeft P 0 r) : P.m ≤ r := by
  by_contra h'
  apply h
  unfold isLeft
  rw [dL_zero, dR_lt P (by omega)]
  exact g.lt_max r (by omega)

/-- rope of a left child is the id of its sibling -/
lemma ropeOf_left (g : Good P) {l p r : ℕ} (hb : IsNode P (p+1) r)
    (h1 : isLeft P l p) (h2 : ¬ isLeft P (p+1) r) :
    ropeOf P p = some (idOf P (p+1) r) := by
  have hp := isLeft_lt g h1
  have e : delta P ((p:ℤ) + 1) = dR P (p+1) := by unfold dR; push_cast; rfl
  unfold ropeOf setRope
  rw [if_pos (by omega), e]
  congr 1
  unfold idOf karras
  rw [if_neg h2]
  by_cases hr : p + 1 = r
  · rw [if_pos hr]
    subst hr
    rw [if_pos]
    unfold isLeft at h2
    rw [dL_succ] at h2
    rcases lt_or_eq_of_le (not_lt.mp h2) with h | h
    · exact h
    · exfalso
      by_cases h3 : p + 1 < P.m
      · rw [dR_lt P hp, dR_lt P h3] at h
        exact g.adj p h3 h
      · rw [dR_lt P hp, dR_ge P (by omega)] at h
        exact absurd (g.lt_max p hp) (by omega)
  · rw [if_neg hr, if_neg]
    have := (hb.2.2 (p+1) le_rfl (by have := hb.1; omega)).1
    rw [dL_succ] at this
    exact not_lt.mpr this.le

variable [SemilatticeSup V] [OrderBot V]
variable (P)

abbrev vl (i : ℕ) : V := P.vol (P.value i)

/-- tree over `[l,r]` finished in memory -/
inductive Built (leaf : ℕ → Option (LeafNode α)) (internal : ℕ → Option (InternalNode V)) :
    ℕ → ℕ → BTree → Prop
  | leaf (i : ℕ) : leaf i = some ⟨ropeOf P i, P.value i⟩ → Built leaf internal i i (.leaf i)
  | node (l p r : ℕ) (a b : BTree) : Built leaf internal l p a → Built leaf internal (p+1) r b →
      isLeft P l p → ¬ isLeft P (p+1) r →
      internal (karras P l r) = some ⟨idOf P l p, ropeOf P r, (BTree.node a b).vol (vl P)⟩ →
      Built leaf internal l r (.node a b)

variable {P}

lemma Built.le {L I} {l r : ℕ} {T : BTree} (h : Built P L I l r T) : l ≤ r := by
  induction h with
  | leaf => exact le_rfl
  | node => omega

lemma Built.isNode {L I} {l r : ℕ} {T : BTree} (h : Built P L I l r T) (hr : r ≤ P.m) :
    IsNode P l r := by
  induction h with
  | leaf => exact IsNode.leaf hr
  | node l p r a b ha hb h1 h2 _ iha ihb =>
    have := hb.le
    exact (iha (by omega)).merge (ihb hr) h1 h2

lemma Built.frame {L I L' I'} {l r : ℕ} {T : BTree} (h : Built P L I l r T) :
    (∀ i, l ≤ i → i ≤ r → L' i = L i) → (∀ k, l < k → k < r → I' k = I k) →
    (l < r → I' (karras P l r) = I (karras P l r)) → Built P L' I' l r T := by
  induction h with
  | leaf i hi => intro hL _ _; exact .leaf i ((hL i le_rfl le_rfl).trans hi)
  | node l p r a b ha hb h1 h2 hk iha ihb =>
    intro hL hI hkk
    have la := ha.le
    have lb := hb.le
    refine .node l p r a b (iha (fun i x y => hL i x (by omega)) (fun k x y => hI k x (by omega)) ?_)
      (ihb (fun i x y => hL i (by omega) y) (fun k x y => hI k (by omega) y) ?_) h1 h2
      ((hkk (by omega)).trans hk)
    · intro h; rw [karras, if_pos h1]; exact hI _ h (by omega)
    · intro h; rw [karras, if_neg h2]; exact hI _ (by omega) h

lemma Built.leaves {L I} {l r : ℕ} {T : BTree} (h : Built P L I l r T) :
    T.leaves = List.range' l (r + 1 - l) := by
  induction h with
  | leaf i => simp [BTree.leaves]
  | node l p r a b ha hb h1 h2 hk iha ihb =>
    have la := ha.le
    have lb := hb.le
    rw [BTree.leaves, iha, ihb]
    have e1 : p + 1 = l + 1 * (p + 1 - l) := by omega
    have e2 : r + 1 - l = (p + 1 - l) + (r + 1 - (p + 1)) := by omega
    conv_lhs => rw [show List.range' (p+1) (r + 1 - (p + 1)) = List.range' (l + 1 * (p + 1 - l)) (r + 1 - (p + 1)) by rw [← e1]]
    rw [List.range'_append, ← e2]

/-- uniqueness: the tree depends only on the keys -/
lemma Built.unique {L I L' I'} {l r : ℕ} {T T' : BTree} (h : Built P L I l r T)
    (h' : Built P L' I' l r T') (hr : r ≤ P.m) : T = T' := by
  induction h generalizing T' with
  | leaf i =>
    generalize hi : i = j at h'
    cases h' with
    | leaf => rfl
    | node _ p _ a b ha hb => have := ha.le; have := hb.le; omega
  | node l p r a b ha hb h1 h2 hk iha ihb =>
    cases h' with
    | leaf i => have := ha.le; have := hb.le; omega
    | node _ p' _ a' b' ha' hb' h1' h2' hk' =>
      have hp : p = p' := by
        have lb := hb.le
        have lb' := hb'.le
        have na := ha.isNode (by omega)
        have nb := hb.isNode (by omega)
        have na' := ha'.isNode (by omega)
        have nb' := hb'.isNode (by omega)
        have la := ha.le
        have la' := ha'.le
        rcases lt_trichotomy p p' with h | h | h
        · -- p < p': p in left part of second: key p ≤ key p'; p' in right of first: key p' < key p
          have x := (na'.2.2 p la h).2
          have y := (nb.2.2 p' (by omega) (by omega)).1
          rw [dL_succ] at y; linarith
        · exact h
        · have x := (na.2.2 p' la' h).2
          have y := (nb'.2.2 p (by omega) (by omega)).1
          rw [dL_succ] at y; linarith
      subst hp
      have := hb.le
      rw [iha ha' (by omega), ihb hb' hr]

lemma Built.layout (g : Good P) {L I} {l r : ℕ} {T : BTree} (h : Built P L I l r T) (hr : r ≤ P.m) :
    Layout ⟨P.m + 1, L, I⟩ P.value P.vol T (idOf P l r) (ropeOf P r) := by
  induction h with
  | leaf i hi => exact ⟨by simp [idOf], by simp; omega, hi⟩
  | node l p r a b ha hb h1 h2 hk iha ihb =>
    have la := ha.le
    have lb := hb.le
    refine ⟨idOf P l p, idOf P (p+1) r, ?_, ?_, ?_, ihb hr⟩
    · simp only [idOf]; rw [if_neg (by omega)]; simp only [internalIndex]; omega
    · have : idOf P l r - (P.m + 1) = karras P l r := by
        simp only [idOf]; rw [if_neg (by omega)]; simp only [internalIndex]; omega
      simpa only [this] using hk
    · rw [← ropeOf_left g (hb.isNode hr) h1 h2]
      exact iha (by omega)

end ArborX.Construction
