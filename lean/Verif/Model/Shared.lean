import Verif.Model.Icubaby

/-!
# Model: several iterators over one transcode view

include/uri/icubaby.hpp:2020-2060, 2073-2231.  The iterators of a view hold a pointer to it and update its
`well_formed_` member, which is `mutable`; so they share it.
-/

namespace Verif.Icu

/-- icubaby.hpp:2059 the view's `well_formed_`, and the iterators obtained from it so far.  (Their own
`parentWf` is not looked at: before an operation it is set to `wf`, and `wf` to it afterwards.) -/
structure Shared (ι ο : Type) (T : Transcoder ι ο) where
  wf : Bool
  its : List (ViewIt ι ο T)

/-- What a program does: `begin ()`, copying iterator `i` (2074: the implicit copy constructor), assigning
iterator `j` to iterator `i`, `++` on iterator `i`.  The copy made by postfix `++` (2115-2119) is a copy
followed by `++`. -/
inductive ViewOp
  | begin
  | copy (i : Nat)
  | assign (i j : Nat)
  | incr (i : Nat)

section
variable {ι ο : Type} (T : Transcoder ι ο) (cap : Nat) (s : List ι)

/-- Iterator number `i`; a program naming one it does not have is at fault. -/
def Shared.get {T : Transcoder ι ο} (w : Shared ι ο T) (i : Nat) : M (ViewIt ι ο T) :=
  match w.its[i]? with
  | some it => .ok it
  | none => .error .outOfRange

/-- icubaby.hpp:2036, 2088-2096 `begin`; 2106-2113 `++`; copies. -/
def Shared.step (w : Shared ι ο T) : ViewOp → M (Shared ι ο T)
  | .begin => do
      let it : ViewIt ι ο T := { current := s, next := s, buf := [], tr := T.init, parentWf := w.wf }
      let it ← if s.isEmpty then .ok it else fill T cap it
      .ok { wf := it.parentWf, its := w.its ++ [it] }
  | .copy i => do
      let it ← w.get i
      .ok { w with its := w.its ++ [it] }
  | .assign i j => do
      let _ ← w.get i
      let it ← w.get j
      .ok { w with its := w.its.set i it }
  | .incr i => do
      let it ← w.get i
      let it ← { it with parentWf := w.wf }.incr T cap
      .ok { wf := it.parentWf, its := w.its.set i it }

/-- A program, from the construction of the view on. -/
def useView (ops : List ViewOp) : M (Shared ι ο T) :=
  ops.foldlM (Shared.step T cap s) { wf := true, its := [] }

end

end Verif.Icu
