import Verif.Model.Base

/-!
# Percent encoding and decoding

`include/uri/pctencode.hpp`, `lib/uri/pctencode.cpp`, `include/uri/pctdecode.hpp` and the size
functions of `lib/uri/parts.cpp`.  An output iterator is the list of bytes written to it.
-/

namespace Verif

namespace EncSet
/-- pctencode.hpp:31-41 `enum class pctencode_set : std::uint8_t`: `none`. -/
def none : UInt8 := 0
/-- pctencode.hpp:33 -/
def fragment : UInt8 := (1 : UInt8) <<< 0
/-- pctencode.hpp:34 -/
def query : UInt8 := (1 : UInt8) <<< 1
/-- pctencode.hpp:35 -/
def specialQuery : UInt8 := (1 : UInt8) <<< 2
/-- pctencode.hpp:36 -/
def path : UInt8 := (1 : UInt8) <<< 3
/-- pctencode.hpp:37 -/
def userinfo : UInt8 := (1 : UInt8) <<< 4
/-- pctencode.hpp:38 -/
def component : UInt8 := (1 : UInt8) <<< 5
/-- pctencode.hpp:39 -/
def formUrlencoded : UInt8 := (1 : UInt8) <<< 6
end EncSet

/-- pctencode.hpp:26-29 `dec2hex`. -/
def dec2hex (v : Nat) : M UInt8 :=
  if v < 0x10 then .ok (UInt8.ofNat (v + (if v < 10 then 0x30 else 0x41 - 10))) else .error .assertion

/-- pctencode.cpp:58-95 the table `encode`. -/
def encodeTable : List UInt8 :=
  [0b01000000, 0b01111111, 0b01111110, 0b01100000, 0b11111111, 0b01100000, 0b01000100, 0b01000000,
   0b01000000, 0b00000000, 0b01100000, 0b01100000, 0b00000000, 0b00000000, 0b01110000,
   0b01110000, 0b01110000, 0b01111111, 0b01110000, 0b01111111, 0b01111000, 0b01110000,
   0b01110000, 0b01110000, 0b01110000, 0b01110000, 0b00000000, 0b01111000,
   0b01111000, 0b01110000, 0b01111000, 0b01000000]

/-- pctencode.cpp:122-128: the table lookup that ends `needs_pctencode`. -/
def needsLookup (c es : UInt8) : Bool :=
  if c.toNat ≥ encodeTable.length then false
  else (encodeTable.getD c.toNat 0 &&& es) != 0

/-- pctencode.cpp:116-121: the small letters are missing from the table. -/
def needsSmall (c es : UInt8) : Bool :=
  if c ≥ 0x61 - (0x21 + 10 + 26) then
    if c ≤ 0x7A - (0x21 + 10 + 26) then false else needsLookup (c - 26) es
  else needsLookup c es

/-- pctencode.cpp:110-115: the capital letters are missing from the table. -/
def needsCapital (c es : UInt8) : Bool :=
  if c ≥ 0x41 - (0x21 + 10) then
    if c ≤ 0x5A - (0x21 + 10) then false else needsSmall (c - 26) es
  else needsSmall c es

/-- pctencode.cpp:57-129 `needs_pctencode (std::uint_least8_t, pctencode_set)`; the arithmetic is
that of the 8-bit variable `c`. -/
def needsPctencodeB (c es : UInt8) : Bool :=
  if c ≤ 0x20 || c > 0x7E then true
  else
    let c := c - 0x21
    if c ≥ 0x30 - 0x21 then
      if c ≤ 0x39 - 0x21 then false else needsCapital (c - 10) es
    else needsCapital c es

/-- pctencode.cpp:132-136 `needs_pctencode (std::string_view, pctencode_set)` and
pctencode.hpp:47-52, the iterator version. -/
def needsPctencode (s : Str) (es : UInt8) : Bool := s.any (fun c => needsPctencodeB c es)

/-- pctencode.hpp:56-70 `pctencode (first, last, out, encodeset)`: what is written to `out`. -/
def pctencodeM (es : UInt8) : Str → M Str
  | [] => .ok []
  | c :: s =>
      if needsPctencodeB c es then do
        let hi ← dec2hex ((c.toNat >>> 4) &&& 0xF)
        let lo ← dec2hex (c.toNat &&& 0xF)
        let rest ← pctencodeM es s
        .ok (0x25 :: hi :: lo :: rest)
      else do
        let rest ← pctencodeM es s
        .ok (c :: rest)

/-- pctencode.hpp:72-78 `pctencode (std::string_view, pctencode_set)`. -/
def pctencode (s : Str) (es : UInt8) : M Str := pctencodeM es s

/-- lib/uri/parts.cpp:24-33 `pct_encoded_size`; `ro_sink_container` (parts.hpp:56-70) counts what
is pushed to it. -/
def pctEncodedSize (s : Str) (es : UInt8) : M Nat :=
  if !needsPctencode s es then .ok 0
  else do
    let sink ← pctencodeM es s
    .ok sink.length

/-! ### Decoding

A position is an index into the text `s`; the end of the range is `stop`.  Reading outside the
text is a fault. -/

/-- pctdecode.hpp:41 `bad`. -/
def hexBad : UInt8 := 0b10000

/-- pctdecode.hpp:43-55 `hex2dec`.  (`char` may be signed; no byte from 0x80 lies in the ranges
tested, whichever way.) -/
def hex2dec (digit : UInt8) : UInt8 :=
  if digit ≥ 0x61 && digit ≤ 0x66 then digit - (0x61 - 10)
  else if digit ≥ 0x41 && digit ≤ 0x46 then digit - (0x41 - 10)
  else if digit ≥ 0x30 && digit ≤ 0x39 then digit - 0x30
  else hexBad

/-- pctdecode.hpp:56-58 `either_bad`. -/
def eitherBad (n1 n2 : UInt8) : Bool := ((n1 ||| n2) &&& hexBad) != 0

/-- `*(pos)` on the text. -/
def readAt (s : Str) (pos : Nat) : M UInt8 :=
  match s[pos]? with
  | some c => .ok c
  | none => .error .outOfRange

/-- pctdecode.hpp:60-72 `increment`.  `&&` short-circuits. -/
def pctIncrement (s : Str) (pos stop : Nat) : M Nat := do
  let remaining : Int := stop - pos
  if remaining ≤ 0 then .error .assertion
  else if remaining < 3 then .ok (pos + 1)
  else
    let c ← readAt s pos
    if c ≠ 0x25 then .ok (pos + 1)
    else
      let h ← readAt s (pos + 1)
      let l ← readAt s (pos + 2)
      if eitherBad (hex2dec h) (hex2dec l) then .ok (pos + 1) else .ok (pos + 3)

/-- pctdecode.hpp:74-89 `deref`.  The reference to the iterator's `hex_` member is modelled by the
value stored there. -/
def pctDeref (s : Str) (pos stop : Nat) : M UInt8 := do
  let c ← readAt s pos
  let dist : Int := stop - pos
  if c ≠ 0x25 || dist < 3 then .ok c
  else
    let nhi := hex2dec (← readAt s (pos + 1))
    let nlo := hex2dec (← readAt s (pos + 2))
    if eitherBad nhi nlo then .ok c
    else .ok ((nhi <<< 4) ||| nlo)

/-- pctdecode.hpp:92-95 `needs_pctdecode`. -/
def needsPctdecode (s : Str) : Bool := s.any (· == 0x25)

/-- pctdecode.hpp:258-297 `pctdecode_iterator`: `pos_` and `end_`. -/
structure PctIter where
  pos : Nat
  stop : Nat
  deriving DecidableEq, Repr

/-- pctdecode.hpp:271-275 `pctdecode_iterator::operator==`. -/
def PctIter.eq (a b : PctIter) : M Bool :=
  if a.stop = b.stop then .ok (a.pos == b.pos && a.stop == b.stop) else .error .assertion

/-- The range-based `for` over `[it, last)` of `pctdecode_iterator`s collecting `*it`;
`operator*` is pctdecode.hpp:277-279 and `operator++` 282-285.  `fuel` bounds the number of
iterations; running out of it is the fault `diverge`. -/
def pctIterLoop (s : Str) (last : PctIter) : Nat → PctIter → M Str
  | 0, _ => .error .diverge
  | fuel + 1, it => do
      if ← it.eq last then .ok []
      else
        let c ← pctDeref s it.pos it.stop
        let pos ← pctIncrement s it.pos it.stop
        let rest ← pctIterLoop s last fuel { it with pos := pos }
        .ok (c :: rest)

/-- pctdecode.hpp:302-309 `pctdecode_begin` -/
def pctdecodeBegin (s : Str) : PctIter := ⟨0, s.length⟩
/-- pctdecode.hpp:306-309 `pctdecode_end`. -/
def pctdecodeEnd (s : Str) : PctIter := ⟨s.length, s.length⟩

/-- pctdecode.hpp:323-340 `pctdecoder (first, last)` on a part of the text: its `begin_` and
`end_`. -/
def pctdecoder (first last : Nat) : PctIter × PctIter := (⟨first, last⟩, ⟨last, last⟩)

/-- pctdecode.hpp:345-352 `pctdecode`. -/
def pctdecode (s : Str) : M Str :=
  let (b, e) := pctdecoder 0 s.length
  pctIterLoop s e (s.length + 1) b

/-- pctdecode.hpp:97-206 `pctdecode_view` over a common range: the loop of an algorithm over
`[begin (), end ())`.  An iterator is `pos_`; `operator==` (181-185) compares the positions only;
`operator*` (160-163) and `operator++` (170-173) use the end of the parent's base. -/
def pctViewLoop (s : Str) (last : Nat) : Nat → Nat → M Str
  | 0, _ => .error .diverge
  | fuel + 1, pos =>
      if pos == last then .ok []
      else do
        let c ← pctDeref s pos s.length
        let pos ← pctIncrement s pos s.length
        let rest ← pctViewLoop s last fuel pos
        .ok (c :: rest)

/-- `std::ranges::copy (str | views::pctdecode, out)` (parts.hpp:368). -/
def pctViewCopy (s : Str) : M Str := pctViewLoop s s.length (s.length + 1) 0

/-- pctdecode.hpp:187-190 `iter_move` of the view's iterator: that of the underlying position. -/
def pctIterMove (s : Str) (pos : Nat) : M UInt8 := readAt s pos

/-- lib/uri/parts.cpp:35-40 `pct_decoded_size`. -/
def pctDecodedSize (s : Str) : M Nat :=
  if !needsPctdecode s then .ok 0
  else do
    let r ← pctdecode s
    .ok r.length

end Verif
