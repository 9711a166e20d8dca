import Mathlib.Data.Multiset.AddSub

/-!
# Specification vocabulary for the heap and the priority queue (property C13)
-/

namespace ArborX.Heap

variable {T : Type}

/-- Strict weak order, in the form: asymmetric and negatively transitive. -/
structure StrictWeak (comp : T → T → Bool) : Prop where
  asymm : ∀ x y, comp x y = true → comp y x = false
  negtrans : ∀ x y z, comp x y = false → comp y z = false → comp x z = false

/-- `c` is a child of `p` in the implicit binary tree of an array. -/
def Child (p c : ℕ) : Prop := c = 2 * p + 1 ∨ c = 2 * p + 2

/-- Specification of a max-heap on the first `n` elements. -/
def IsHeap (comp : T → T → Bool) (a : List T) (n : ℕ) : Prop :=
  ∀ p c x y, Child p c → c < n → a[p]? = some x → a[c]? = some y → comp x y = false

/-- The operations a user of the queue can perform. -/
inductive Op (T : Type) where
  | push (v : T)
  | pop
  | popPush (v : T)

/-- `t` is a maximum of the multiset `M`. -/
def IsMax (comp : T → T → Bool) (t : T) (M : Multiset T) : Prop :=
  t ∈ M ∧ ∀ x ∈ M, comp t x = false

/-- What a bounded priority queue of capacity `cap` is: a multiset; `push` adds, `pop`
removes and reports a maximum, `popPush` removes and reports a maximum and adds. -/
inductive Step (comp : T → T → Bool) (cap : ℕ) : Multiset T → Op T → Option T → Multiset T → Prop
  | push {M v} : M.card < cap → Step comp cap M (.push v) none (v ::ₘ M)
  | pop {M t} : IsMax comp t (t ::ₘ M) → Step comp cap (t ::ₘ M) .pop (some t) M
  | popPush {M t v} : IsMax comp t (t ::ₘ M) → Step comp cap (t ::ₘ M) (.popPush v) (some t) (v ::ₘ M)

/-- A history: operations, reported maxima, final multiset. -/
inductive Steps (comp : T → T → Bool) (cap : ℕ) :
    Multiset T → List (Op T) → List (Option T) → Multiset T → Prop
  | nil {M} : Steps comp cap M [] [] M
  | cons {M M' M'' o os t ts} : Step comp cap M o t M' → Steps comp cap M' os ts M'' →
      Steps comp cap M (o :: os) (t :: ts) M''

end ArborX.Heap
