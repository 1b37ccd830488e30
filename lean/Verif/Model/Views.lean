import Verif.Model.Shared

/-!
# Model: copies of a transcode view

include/uri/icubaby.hpp:2020-2060, 2073-2231.  A pipeline (`text | views::transcode<...> | ...`), and any function that takes a view
by value, copies the view; the copy has a `well_formed_` of its own.  An iterator points to the view it was obtained
from (2196 `parent_`) and goes on doing so when it is copied.
-/

namespace Verif.Icu

/-- The views and the iterators of a program, in the order in which they were made: for each view its
`well_formed_` (icubaby.hpp:2059), for each iterator the number of the view it points to and the rest of it.  All views
are copies of one view, so the input is the same. -/
structure Many (ι ο : Type) (T : Transcoder ι ο) where
  wfs : List Bool
  its : List (Nat × ViewIt ι ο T)

/-- What a program does: copying view `v`, `begin ()` of view `v`, copying iterator `i`, assigning iterator `j` to
iterator `i`, `++` on iterator `i`.  Assignments to a view are left out: they would replace the input under
the iterators that the view has. -/
inductive ManyOp
  | copyView (v : Nat)
  | begin (v : Nat)
  | copy (i : Nat)
  | assign (i j : Nat)
  | incr (i : Nat)

section
variable {ι ο : Type} (T : Transcoder ι ο) (cap : Nat) (s : List ι)

/-- Iterator number `i`; a program naming one it does not have is at fault. -/
def Many.get {T : Transcoder ι ο} (w : Many ι ο T) (i : Nat) : M (Nat × ViewIt ι ο T) :=
  match w.its[i]? with
  | some it => .ok it
  | none => .error .outOfRange

/-- `well_formed ()` of view number `v` (icubaby.hpp:2049). -/
def Many.wellFormed {T : Transcoder ι ο} (w : Many ι ο T) (v : Nat) : M Bool :=
  match w.wfs[v]? with
  | some b => .ok b
  | none => .error .outOfRange

/-- icubaby.hpp:2121-2125 `operator==` of iterators `i` and `j`. -/
def Many.same {T : Transcoder ι ο} (w : Many ι ο T) (i j : Nat) : M Bool := do
  let a ← w.get i
  let b ← w.get j
  .ok (a.2.eq b.2 && a.1 == b.1)

/-- icubaby.hpp:2038-2044, 2088-2096, 2121-2125 `it == view.end ()` for iterator `i` and view `v`, where `end ()` is an iterator. -/
def Many.isEnd {T : Transcoder ι ο} (w : Many ι ο T) (i v : Nat) : M Bool := do
  let a ← w.get i
  let _ ← w.wellFormed v
  .ok (a.2.atEnd && a.1 == v)

/-- icubaby.hpp:2029-2060 the implicit copy constructor of the view; 2036, 2088-2096 `begin`; 2106-2113 `++`; copies. -/
def Many.step (w : Many ι ο T) : ManyOp → M (Many ι ο T)
  | .copyView v => do
      let b ← w.wellFormed v
      .ok { w with wfs := w.wfs ++ [b] }
  | .begin v => do
      let b ← w.wellFormed v
      let it ← (if s.isEmpty then .ok { current := s, next := s, buf := [], tr := T.init, parentWf := b } else
        fill T cap { current := s, next := s, buf := [], tr := T.init, parentWf := b } : M (ViewIt ι ο T))
      .ok { wfs := w.wfs.set v it.parentWf, its := w.its ++ [(v, it)] }
  | .copy i => do
      let it ← w.get i
      .ok { w with its := w.its ++ [it] }
  | .assign i j => do
      let _ ← w.get i
      let it ← w.get j
      .ok { w with its := w.its.set i it }
  | .incr i => do
      let it ← w.get i
      let b ← w.wellFormed it.1
      let it' ← { it.2 with parentWf := b }.incr T cap
      .ok { wfs := w.wfs.set it.1 it'.parentWf, its := w.its.set i (it.1, it') }

/-- A program, from the construction of the first view on. -/
def useViews (ops : List ManyOp) : M (Many ι ο T) :=
  ops.foldlM (Many.step T cap s) { wfs := [true], its := [] }

end

end Verif.Icu
