import Verif.Model.Icubaby

/-!
# Model: the output iterator adaptor of icubaby

include/uri/icubaby.hpp:607-690 `icubaby::iterator`, and the overloads of `end_cp` that take one (752-759 and the same in the other
transcoders).  An adaptor holds a pointer to the transcoder, so all copies of it share the transcoder's state; the output
iterator it wraps (`out_`) is its own.
-/

namespace Verif.Icu.Out

/-- A kind of output iterator: what it writes to (`W`), its own state (`P`), `*out = c; ++out`. -/
structure Dest (ο W P : Type) where
  put : W → P → ο → M (W × P)

/-- A pointer into an array: the position is the iterator's own.  Writing at the end of the array is undefined. -/
def pointer (ο : Type) : Dest ο (List ο) Nat where
  put w p c := if p < w.length then .ok (w.set p c, p + 1) else .error .outOfRange

/-- `std::back_inserter`: appends to the container. -/
def appender (ο : Type) : Dest ο (List ο) Unit where
  put w _ c := .ok (w ++ [c], ())

/-- The code units that one call of a transcoder writes. -/
def putAll {ο W P : Type} (D : Dest ο W P) : W → P → List ο → M (W × P)
  | w, p, [] => .ok (w, p)
  | w, p, c :: cs => D.put w p c >>= fun x => putAll D x.1 x.2 cs

/-- A program's transcoder, what is written to, and its adaptors (the `out_` of each; icubaby.hpp:688). -/
structure World {ι ο : Type} (T : Transcoder ι ο) (W P : Type) where
  st : T.σ
  w : W
  its : List P

/-- What a program does. -/
inductive Op (ι : Type)
  /-- `*it = c`, with `++it` before or after or not at all (icubaby.hpp:659-662, 668, 671). -/
  | assign (i : Nat) (c : ι)
  /-- `*it++ = c` (icubaby.hpp:674: the adaptor returned is a copy). -/
  | post (i : Nat) (c : ι)
  /-- `it = t.end_cp (it)`. -/
  | endCp (i : Nat)
  /-- Copying an adaptor. -/
  | copy (i : Nat)
  /-- Assigning one to another. -/
  | set (i j : Nat)

section
variable {ι ο W P : Type} (T : Transcoder ι ο) (D : Dest ο W P)

/-- Adaptor number `i`; a program naming one it does not have is at fault. -/
def World.get {T : Transcoder ι ο} (x : World T W P) (i : Nat) : M P :=
  match x.its[i]? with
  | some p => .ok p
  | none => .error .outOfRange

/-- icubaby.hpp:659-662 `out_ = (*transcoder_) (value, out_)`: the new state, what has been written to, and the new `out_`. -/
def World.call {T : Transcoder ι ο} (D : Dest ο W P) (x : World T W P) (p : P) (r : M (T.σ × List ο)) : M (T.σ × W × P) :=
  r >>= fun so => putAll D x.w p so.2 >>= fun wp => .ok (so.1, wp.1, wp.2)

/-- One operation. -/
def World.step {T : Transcoder ι ο} (D : Dest ο W P) (x : World T W P) : Op ι → M (World T W P)
  | .assign i c => x.get i >>= fun p => x.call D p (T.step x.st c) >>= fun y => .ok ⟨y.1, y.2.1, x.its.set i y.2.2⟩
  | .post i c => x.get i >>= fun p => x.call D p (T.step x.st c) >>= fun y => .ok ⟨y.1, y.2.1, x.its⟩
  | .endCp i => x.get i >>= fun p => x.call D p (T.endCp x.st) >>= fun y => .ok ⟨y.1, y.2.1, x.its.set i y.2.2⟩
  | .copy i => x.get i >>= fun p => .ok { x with its := x.its ++ [p] }
  | .set i j => x.get i >>= fun _ => x.get j >>= fun p => .ok { x with its := x.its.set i p }

/-- A program that starts with a new transcoder and one adaptor. -/
def program (w : W) (p : P) (ops : List (Op ι)) : M (World T W P) :=
  ops.foldlM (World.step D) ⟨T.init, w, [p]⟩

end

end Verif.Icu.Out
