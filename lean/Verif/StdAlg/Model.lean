import Mathlib.Data.List.Basic

/-!
# Model of the kernel versions of `nth_element`, `upper_bound` and `lower_bound`

Models `src/kokkos_ext/ArborX_KokkosExtKernelStdAlgorithms.hpp`. A range is a list;
iterators are positions; an access outside of the list makes the result `none`. `lt` is
`operator<` of the element type.
-/

namespace ArborX.StdAlg

variable {T : Type} (lt : T → T → Bool)

/-- `kokkos_swap(*i, *j)`. -/
def swap (a : List T) (i j : ℕ) : Option (List T) :=
  match a[i]?, a[j]? with
  | some x, some y => some ((a.set i y).set j x)
  | _, _ => none

/-- The loop of the Lomuto partition (lines 35-40). `k` counts the remaining
iterations, i.e. `it_j = right - k`. -/
def partLoop (a : List T) (right i : ℕ) : ℕ → Option (List T × ℕ)
  | 0 => some (a, i)
  | k + 1 =>
    match a[right - (k + 1)]?, a[right]? with
    | some x, some p =>
      if lt x p then
        match swap a (right - (k + 1)) i with
        | none => none
        | some a' => partLoop a' right (i + 1) k
      else partLoop a right i k
    | _, _ => none

/-- `partition(left, right, pivot)` (lines 27-43). -/
def partition (a : List T) (left right pivot : ℕ) : Option (List T × ℕ) :=
  match swap a pivot (right - 1) with
  | none => none
  | some a1 =>
    match partLoop lt a1 (right - 1) left (right - 1 - left) with
    | none => none
    | some (a2, i) =>
      match swap a2 i (right - 1) with
      | none => none
      | some a3 => some (a3, i)

/-- The quickselect loop (lines 46-62); `none` also when the fuel is exhausted. -/
def nthLoop : ℕ → List T → ℕ → ℕ → ℕ → Option (List T)
  | 0, _, _, _, _ => none
  | fuel + 1, a, first, nth, last =>
    if first = last then some a
    else match partition lt a first last nth with
      | none => none
      | some (a', pivot) =>
        if pivot = nth then some a'
        else if nth < pivot then nthLoop fuel a' first nth pivot
        else nthLoop fuel a' (pivot + 1) nth last

/-- `nth_element(first, nth, last)` (lines 20-63). -/
def nthElement (fuel : ℕ) (a : List T) (first nth last : ℕ) : Option (List T) :=
  if first = last ∨ nth = last then some a else nthLoop lt fuel a first nth last

/-- The loop of `upper_bound` (lines 69-82). -/
def upperLoop (a : List T) (v : T) (first count : ℕ) : Option ℕ :=
  if _h : 0 < count then
    match a[first + count / 2]? with
    | none => none
    | some x =>
      if !(lt v x) then upperLoop a v (first + (count / 2 + 1)) (count - (count / 2 + 1))
      else upperLoop a v first (count / 2)
  else some first
  termination_by count

/-- `upper_bound` (lines 65-84). -/
def upperBound (a : List T) (first last : ℕ) (v : T) : Option ℕ :=
  upperLoop lt a v first (last - first)

/-- The loop of `lower_bound` (lines 90-103). -/
def lowerLoop (a : List T) (v : T) (first count : ℕ) : Option ℕ :=
  if _h : 0 < count then
    match a[first + count / 2]? with
    | none => none
    | some x =>
      if lt x v then lowerLoop a v (first + (count / 2 + 1)) (count - (count / 2 + 1))
      else lowerLoop a v first (count / 2)
  else some first
  termination_by count

/-- `lower_bound` (lines 86-105). -/
def lowerBound (a : List T) (first last : ℕ) (v : T) : Option ℕ :=
  lowerLoop lt a v first (last - first)

end ArborX.StdAlg
