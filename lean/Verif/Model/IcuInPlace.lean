import Verif.Model.Icubaby

/-!
# Transcoding when text and output are in the same memory

The transcoders of include/uri/icubaby.hpp write to any output iterator, also to one that points into the memory the text is read from.  Here memory
is a list of code units; text and output are given by their positions in it.  A transcoder takes its code unit by value, so that within a call the
memory is only written; the iterator of `transcode_view` reads the memory in its constructor and in `operator++`.
-/

namespace Verif.Icu.Same

variable {α : Type}

/-- `*pos`. -/
def get (m : List α) (pos : Nat) : M α :=
  match m[pos]? with
  | some c => .ok c
  | none => .error .outOfRange

/-- `*out = c`. -/
def put (m : List α) (pos : Nat) (c : α) : M (List α) :=
  if pos < m.length then .ok (m.set pos c) else .error .outOfRange

/-- `*(out++) = c` for what one call of a transcoder writes. -/
def putAll : List α → Nat → List α → M (List α × Nat)
  | m, out, [] => .ok (m, out)
  | m, out, c :: cs => put m out c >>= fun m => putAll m (out + 1) cs

/-- The loop `for (; first != last; ++first) out = transcoder (*first, out);` (and a copy through `icubaby::iterator`, icubaby.hpp:629-690).
`fuel` bounds the number of turns. -/
def feedLoop (T : Transcoder α α) (last : Nat) : Nat → T.σ → List α → Nat → Nat → M (T.σ × List α × Nat)
  | 0, _, _, _, _ => .error .diverge
  | fuel + 1, st, m, first, out =>
      if first = last then .ok (st, m, out)
      else get m first >>= fun c => T.step st c >>= fun p => putAll m out p.2 >>= fun q => feedLoop T last fuel p.1 q.1 (first + 1) q.2

/-- That loop with a new transcoder and then `out = transcoder.end_cp (out)`: the transcoder, the memory and the output iterator afterwards. -/
def runAt (T : Transcoder α α) (m : List α) (first last out : Nat) : M (T.σ × List α × Nat) :=
  feedLoop T last (last - first + 1) T.init m first out >>= fun r =>
    T.endCp r.1 >>= fun p => putAll r.2.1 r.2.2 p.2 >>= fun q => .ok (p.1, q.1, q.2)

/-- The iterator of `transcode_view` (icubaby.hpp:2074-2197) over a part of the memory. -/
structure It (T : Transcoder α α) where
  current : Nat
  next : Nat
  buf : List α
  tr : T.σ
  parentWf : Bool

section
variable (T : Transcoder α α) (cap last : Nat)

/-- icubaby.hpp:2214-2218: the loop of `fill`; overrunning `out_` is `assertion` (2216).  `fuel` bounds the number of turns. -/
def fillLoop (m : List α) : Nat → T.σ → Nat → M (T.σ × Nat × List α)
  | 0, _, _ => .error .diverge
  | fuel + 1, st, pos =>
      if pos = last then .ok (st, pos, [])
      else get m pos >>= fun c => T.step st c >>= fun p =>
        if p.2.length > cap then .error .assertion
        else if p.2.isEmpty then fillLoop m fuel p.1 (pos + 1)
        else .ok (p.1, pos + 1, p.2)

/-- icubaby.hpp:2204-2231 `fill`, and the assignment of its result to `current_`. -/
def fill (m : List α) (it : It T) : M (It T) :=
  if !it.buf.isEmpty then .error .assertion
  else fillLoop T cap last m (last - it.next + 1) it.tr it.next >>= fun p =>
    (if p.2.1 = last then T.endCp p.1 else .ok (p.1, [])) >>= fun q =>
    if (p.2.2 ++ q.2).length > cap then .error .assertion
    else .ok { current := it.next, next := p.2.1, buf := p.2.2 ++ q.2, tr := q.1, parentWf := it.parentWf && T.wellFormed q.1 }

/-- icubaby.hpp:2036 `begin` and 2088-2096 the constructor. -/
def viewBegin (m : List α) (first : Nat) : M (It T) :=
  let it : It T := { current := first, next := first, buf := [], tr := T.init, parentWf := true }
  if first = last then .ok it else fill T cap last m it

/-- icubaby.hpp:2106-2113 `operator++`. -/
def incr (m : List α) (it : It T) : M (It T) :=
  match it.buf with
  | [] => .error .assertion
  | _ :: b => if b.isEmpty then fill T cap last m { it with buf := b } else .ok { it with buf := b }

/-- icubaby.hpp:2103, 2148-2151 `operator*`. -/
def deref (it : It T) : M α :=
  match it.buf with
  | [] => .error .assertion
  | c :: _ => .ok c

/-- `std::ranges::copy` from an iterator to the end of the view: `for (; it != end; ++it, ++out) *out = *it;`.  The increment reads the memory after
the assignment. -/
def copyLoop : Nat → List α → It T → Nat → M (It T × List α × Nat)
  | 0, _, _, _ => .error .diverge
  | fuel + 1, m, it, out =>
      if it.current = last then .ok (it, m, out)
      else deref T it >>= fun c => put m out c >>= fun m => incr T cap last m it >>= fun it => copyLoop fuel m it (out + 1)

/-- `std::ranges::copy (std::ranges::subrange {first, last} | transcode, out)`: the memory and the output iterator afterwards, and `well_formed ()` of
the view. -/
def viewCopyAt (m : List α) (first out : Nat) : M (List α × Nat × Bool) :=
  viewBegin T cap last m first >>= fun it =>
    copyLoop T cap last (cap * (last - first) + 1) m it out >>= fun r => .ok (r.2.1, r.2.2, r.1.parentWf)

end

end Verif.Icu.Same
