import Verif.Model.Pct

/-!
# Percent coding when text and output are in the same memory

`pctencode` (include/uri/pctencode.hpp:56-70) and algorithms over the iterators of include/uri/pctdecode.hpp write to any output iterator, also to
one that points into the memory the text is read from.  Here memory is a byte string; text and output are given by their positions in it.
`operator*` and `operator++` of an iterator each read the memory anew.
-/

namespace Verif.InPlace

/-- `*out = c`. -/
def writeAt (m : Str) (pos : Nat) (c : UInt8) : M Str :=
  if pos < m.length then .ok (m.set pos c) else .error .outOfRange

/-- pctencode.hpp:63-67: what is written for one character; each `*(out++) = …` in turn. -/
def writeEncoded (es : UInt8) (m : Str) (out : Nat) (c : UInt8) : M (Str × Nat) :=
  if needsPctencodeB c es then
    writeAt m out 0x25 >>= fun m =>
    dec2hex ((c.toNat >>> 4) &&& 0xF) >>= fun hi =>
    writeAt m (out + 1) hi >>= fun m =>
    dec2hex (c.toNat &&& 0xF) >>= fun lo =>
    writeAt m (out + 2) lo >>= fun m => .ok (m, out + 3)
  else writeAt m out c >>= fun m => .ok (m, out + 1)

/-- pctencode.hpp:59-69 the loop of `pctencode (first, last, out, encodeset)`.  `fuel` bounds the number of turns. -/
def encodeLoop (es : UInt8) (last : Nat) : Nat → Str → Nat → Nat → M (Str × Nat)
  | 0, _, _, _ => .error .diverge
  | fuel + 1, m, first, out =>
      if first = last then .ok (m, out)
      else
        readAt m first >>= fun c =>
        writeEncoded es m out c >>= fun r => encodeLoop es last fuel r.1 (first + 1) r.2

/-- pctencode.hpp:56-70 `pctencode (first, last, out, encodeset)` in memory `m`: the memory afterwards and what is returned. -/
def pctencodeAt (es : UInt8) (m : Str) (first last out : Nat) : M (Str × Nat) :=
  encodeLoop es last (last - first + 1) m first out

/-- `std::copy` (and `std::ranges::copy` of the view): `for (; it != last; ++it, ++out) *out = *it;` with iterators from pctdecode.hpp:258-297
(131-206 for the view): `operator*` is `deref` (74-89), `operator++` is `increment` (60-72), which reads the memory after the assignment. -/
def copyLoop (last : Nat) : Nat → Str → Nat → Nat → M (Str × Nat)
  | 0, _, _, _ => .error .diverge
  | fuel + 1, m, pos, out =>
      if pos = last then .ok (m, out)
      else
        pctDeref m pos last >>= fun c =>
        writeAt m out c >>= fun m =>
        pctIncrement m pos last >>= fun pos => copyLoop last fuel m pos (out + 1)

/-- `std::copy (pctdecode_iterator {first, last}, pctdecode_iterator {last, last}, out)`. -/
def copyAt (m : Str) (first last out : Nat) : M (Str × Nat) := copyLoop last (last - first + 1) m first out

/-- The loop `while (it != last) *out++ = *it++;`: `operator++ (int)` (pctdecode.hpp:286-290, 175-179) copies the iterator and
increments it; the copy is dereferenced and the value assigned after that. -/
def postLoop (last : Nat) : Nat → Str → Nat → Nat → M (Str × Nat)
  | 0, _, _, _ => .error .diverge
  | fuel + 1, m, pos, out =>
      if pos = last then .ok (m, out)
      else
        pctIncrement m pos last >>= fun next =>
        pctDeref m pos last >>= fun c =>
        writeAt m out c >>= fun m => postLoop last fuel m next (out + 1)

/-- That loop from `first` to `last`. -/
def postAt (m : Str) (first last out : Nat) : M (Str × Nat) := postLoop last (last - first + 1) m first out

end Verif.InPlace
