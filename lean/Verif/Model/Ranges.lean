import Verif.Model.Base

/-!
# Range helpers

`include/uri/find_last.hpp` and `include/uri/starts_with.hpp` (the branches used when the standard
library does not provide these).  A range is a list; an iterator is a position in it; the
iterators of two equal positions are equal.
-/

namespace Verif
variable {α β γ : Type}

/-- The loop of `find_last_forward` (find_last.hpp:31-35): remaining elements, position of
`first`, `found`.  Returns the final `first` and `found`. -/
def findLastForwardLoop [DecidableEq β] (proj : α → β) (value : β) : List α → Nat → Option Nat → Nat × Option Nat
  | [], first, found => (first, found)
  | x :: xs, first, found => findLastForwardLoop proj value xs (first + 1) (if proj x = value then some first else found)

/-- find_last.hpp:24-40 `find_last_forward`: begin and end of the resulting subrange. -/
def findLastForward [DecidableEq β] (proj : α → β) (value : β) (l : List α) : Nat × Nat :=
  match findLastForwardLoop proj value l 0 none with
  | (first, none) => (first, first)
  | (_, some i) => (i, l.length)

/-- `std::ranges::find` on reverse iterators: `base` is the base position of the iterator; it
refers to the element before it, and `rend` has base 0. -/
def rfind [DecidableEq β] (proj : α → β) (value : β) (l : List α) : Nat → Nat
  | 0 => 0
  | base + 1 =>
      match l[base]? with
      | none => rfind proj value l base  -- not reached: base is within the range
      | some x => if proj x = value then base + 1 else rfind proj value l base

/-- find_last.hpp:42-64 `find_last_bidi`.  The `assert`s of the debug build are modelled: they
compare with `find_last_forward`. -/
def findLastBidi [DecidableEq β] (proj : α → β) (value : β) (l : List α) : M (Nat × Nat) :=
  if l.length = 0 then .ok (l.length, l.length)
  else
    let rb := rfind proj value l l.length
    if rb = 0 then .ok (l.length, l.length)
    else if findLastForward proj value l = (rb - 1, l.length) then .ok (rb - 1, l.length)
    else .error .assertion

/-- find_last.hpp:73-84 `find_last_fn::operator ()`; `bidi` is the `if constexpr` condition. -/
def findLast [DecidableEq β] (bidi : Bool) (proj : α → β) (value : β) (l : List α) : M (Nat × Nat) :=
  if bidi then findLastBidi proj value l else .ok (findLastForward proj value l)

/-- `std::ranges::mismatch`: what is left of both ranges. -/
def mismatch (pred : γ → γ → Bool) (proj1 : α → γ) (proj2 : β → γ) : List α → List β → List α × List β
  | x :: xs, y :: ys => if pred (proj1 x) (proj2 y) then mismatch pred proj1 proj2 xs ys else (x :: xs, y :: ys)
  | xs, ys => (xs, ys)

/-- starts_with.hpp:28-42 `starts_with_fn::operator ()`: `in2 == last2`. -/
def startsWith (pred : γ → γ → Bool) (proj1 : α → γ) (proj2 : β → γ) (l1 : List α) (l2 : List β) : Bool :=
  (mismatch pred proj1 proj2 l1 l2).2.isEmpty

end Verif
