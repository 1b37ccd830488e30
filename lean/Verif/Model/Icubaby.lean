import Verif.Model.Base

/-!
# icubaby: UTF transcoders

`include/uri/icubaby.hpp`.  A `char8` is a byte, a `char16_t` a `UInt16`, a `char32_t` a natural
number (below 2^32 where that matters).  An output iterator is the list of what is written to it;
where the code writes into a fixed array, the model checks the size.
-/

namespace Verif.Icu

/-- icubaby.hpp:288 `replacement_char`. -/
def replacementChar : Nat := 0xFFFD

/-- icubaby.hpp:378-380 `is_high_surrogate`. -/
def isHighSurrogate (c : Nat) : Bool := decide (c ≥ 0xD800) && decide (c ≤ 0xDBFF)
/-- icubaby.hpp:385-387 `is_low_surrogate`. -/
def isLowSurrogate (c : Nat) : Bool := decide (c ≥ 0xDC00) && decide (c ≤ 0xDFFF)
/-- icubaby.hpp:392-394 `is_surrogate`. -/
def isSurrogate (c : Nat) : Bool := isHighSurrogate c || isLowSurrogate c
/-- icubaby.hpp:310 `max_code_point`. -/
def maxCodePoint : Nat := 0x10FFFF

/-- icubaby.hpp:403-406 `is_code_point_start (char8)`. -/
def isCodePointStart8 (c : UInt8) : Bool := (c &&& 0xC0) != 0x80
/-- icubaby.hpp:411-413 `is_code_point_start (char16_t)`. -/
def isCodePointStart16 (c : UInt16) : Bool := !isLowSurrogate c.toNat
/-- icubaby.hpp:418-420 `is_code_point_start (char32_t)`. -/
def isCodePointStart32 (c : Nat) : Bool := !isSurrogate c && decide (c ≤ maxCodePoint)

/-- icubaby.hpp:435-439 `length`: `std::ranges::count_if`, for the `is_code_point_start` of the
encoding. -/
def length {ι : Type} (start : ι → Bool) : List ι → Nat
  | [] => 0
  | c :: s => (if start c then 1 else 0) + length start s

/-- icubaby.hpp:482-490 `index`: `std::ranges::find_if` with the captured `count`; the offset of the
iterator returned. -/
def indexLoop {ι : Type} (start : ι → Bool) (pos : Nat) : List ι → Nat → Nat → Nat
  | [], _, off => off
  | c :: s, count, off =>
      if start c then (if count = pos then off else indexLoop start pos s (count + 1) (off + 1))
      else indexLoop start pos s count (off + 1)

/-- icubaby.hpp:482-490 `index`. -/
def index {ι : Type} (start : ι → Bool) (s : List ι) (pos : Nat) : Nat := indexLoop start pos s 0 0

/-- A transcoder object (icubaby.hpp:555-603): its members, `operator()`, `end_cp`, `well_formed`,
`partial`. -/
structure Transcoder (ι ο : Type) where
  σ : Type
  init : σ
  step : σ → ι → M (σ × List ο)
  endCp : σ → M (σ × List ο)
  wellFormed : σ → Bool
  isPartial : σ → Bool

/-- A loop that assigns every code unit of a list through `icubaby::iterator` (icubaby.hpp:629-690:
`operator=` calls the transcoder and keeps the output iterator). -/
def Transcoder.feed {ι ο : Type} (T : Transcoder ι ο) : T.σ → List ι → M (T.σ × List ο)
  | st, [] => .ok (st, [])
  | st, c :: s => do
      let (st, o) ← T.step st c
      let (st, os) ← T.feed st s
      .ok (st, o ++ os)

/-- Feeding all of a text to a new transcoder, then `end_cp`. -/
def Transcoder.run {ι ο : Type} (T : Transcoder ι ο) (s : List ι) : M (T.σ × List ο) := do
  let (st, o) ← T.feed T.init s
  let (st, e) ← T.endCp st
  .ok (st, o ++ e)

/-! ### UTF-32 to UTF-8 -/

/-- icubaby.hpp:776-780 `write2`. -/
def write2 (c : Nat) : Str := [UInt8.ofNat ((c >>> 6) ||| 0xC0), UInt8.ofNat ((c &&& 0x3F) ||| 0x80)]
/-- icubaby.hpp:786-791 `write3`. -/
def write3 (c : Nat) : Str :=
  [UInt8.ofNat ((c >>> 12) ||| 0xE0), UInt8.ofNat (((c >>> 6) &&& 0x3F) ||| 0x80), UInt8.ofNat ((c &&& 0x3F) ||| 0x80)]
/-- icubaby.hpp:797-803 `write4`. -/
def write4 (c : Nat) : Str :=
  [UInt8.ofNat ((c >>> 18) ||| 0xF0), UInt8.ofNat (((c >>> 12) &&& 0x3F) ||| 0x80),
   UInt8.ofNat (((c >>> 6) &&& 0x3F) ||| 0x80), UInt8.ofNat ((c &&& 0x3F) ||| 0x80)]

/-- icubaby.hpp:717-735 `operator()` and 808-812 `not_well_formed`, which calls `operator()` again;
`fuel` bounds that recursion.  The state is `well_formed_`. -/
def step32to8 : Nat → Bool → Nat → M (Bool × Str)
  | 0, _, _ => .error .diverge
  | fuel + 1, wf, c =>
      if c < 0x80 then .ok (wf, [UInt8.ofNat c])
      else if c < 0x800 then .ok (wf, write2 c)
      else if isSurrogate c then step32to8 fuel false replacementChar
      else if c < 0x10000 then .ok (wf, write3 c)
      else if c ≤ maxCodePoint then .ok (wf, write4 c)
      else step32to8 fuel false replacementChar

/-- icubaby.hpp:695-813 `transcoder<char32_t, char8>`. -/
def t32_8 : Transcoder Nat UInt8 where
  σ := Bool
  init := true
  step := step32to8 2
  endCp st := .ok (st, [])
  wellFormed st := st
  isPartial _ := false

/-! ### UTF-8 to UTF-32 -/

/-- icubaby.hpp:910-932 `utf8d_`. -/
def utf8d : List Nat := [
  0,0,0,0,0,0,0,0,0,0,0,0,0,0,0,0,  0,0,0,0,0,0,0,0,0,0,0,0,0,0,0,0,
  0,0,0,0,0,0,0,0,0,0,0,0,0,0,0,0,  0,0,0,0,0,0,0,0,0,0,0,0,0,0,0,0,
  0,0,0,0,0,0,0,0,0,0,0,0,0,0,0,0,  0,0,0,0,0,0,0,0,0,0,0,0,0,0,0,0,
  0,0,0,0,0,0,0,0,0,0,0,0,0,0,0,0,  0,0,0,0,0,0,0,0,0,0,0,0,0,0,0,0,
  1,1,1,1,1,1,1,1,1,1,1,1,1,1,1,1,  9,9,9,9,9,9,9,9,9,9,9,9,9,9,9,9,
  7,7,7,7,7,7,7,7,7,7,7,7,7,7,7,7,  7,7,7,7,7,7,7,7,7,7,7,7,7,7,7,7,
  8,8,2,2,2,2,2,2,2,2,2,2,2,2,2,2,  2,2,2,2,2,2,2,2,2,2,2,2,2,2,2,2,
  10,3,3,3,3,3,3,3,3,3,3,3,3,4,3,3, 11,6,6,6,5,8,8,8,8,8,8,8,8,8,8,8,
  0,12,24,36,60,96,84,12,12,12,48,72, 12,12,12,12,12,12,12,12,12,12,12,12,
  12, 0,12,12,12,12,12, 0,12, 0,12,12, 12,24,12,12,12,12,12,24,12,24,12,12,
  12,12,12,12,12,12,12,24,12,12,12,12, 12,24,12,12,12,12,12,12,12,24,12,12,
  12,12,12,12,12,12,12,36,12,36,12,12, 12,36,12,12,12,12,12,36,12,36,12,12,
  12,36,12,12,12,12,12,12,12,12,12,12]

/-- icubaby.hpp:933-939: the members; `code_point_` has 21 bits. -/
structure St8 where
  codePoint : Nat
  wf : Bool
  state : Nat
  deriving DecidableEq, Repr

/-- icubaby.hpp:938 the enumerators `accept` and `reject`. -/
def accept : Nat := 0
/-- icubaby.hpp:938. -/
def reject : Nat := 12

/-- An element of `utf8d_`; an index out of range is undefined (and asserted against). -/
def utf8At (i : Nat) : M Nat :=
  match utf8d[i]? with
  | some x => .ok x
  | none => .error .assertion

/-- icubaby.hpp:843-868 `operator()`. -/
def step8to32 (st : St8) (cu : UInt8) : M (St8 × List Nat) := do
  let ucu := cu.toNat
  let type ← utf8At ucu
  let cp := (if st.state ≠ accept then (ucu &&& 0x3F) ||| (st.codePoint <<< 6) else (0xFF >>> type) &&& ucu) % 2 ^ 21
  let state := (← utf8At (256 + st.state + type)) % 2 ^ 8
  if state = accept then .ok ({ st with codePoint := cp, state := state }, [cp])
  else if state = reject then .ok ({ codePoint := cp, wf := false, state := accept }, [replacementChar])
  else .ok ({ st with codePoint := cp, state := state }, [])

/-- icubaby.hpp:877-884 `end_cp`. -/
def endCp8to32 (st : St8) : M (St8 × List Nat) :=
  if st.state ≠ accept then .ok ({ st with wf := false, state := reject }, [replacementChar]) else .ok (st, [])

/-- icubaby.hpp:816-940 `transcoder<char8, char32_t>`. -/
def t8_32 : Transcoder UInt8 Nat where
  σ := St8
  init := ⟨0, true, accept⟩
  step := step8to32
  endCp := endCp8to32
  wellFormed st := st.wf
  isPartial st := decide (st.state ≠ accept)

/-! ### UTF-32 to UTF-16 -/

/-- icubaby.hpp:967-980 `operator()`, which calls itself; `fuel` bounds that recursion.  The
assignment to `well_formed_` follows the call. -/
def step32to16 : Nat → Bool → Nat → M (Bool × List UInt16)
  | 0, _, _ => .error .diverge
  | fuel + 1, wf, c =>
      if isSurrogate c || decide (c > maxCodePoint) then do
        let (_, o) ← step32to16 fuel wf replacementChar
        .ok (false, o)
      else if c ≤ 0xFFFF then .ok (wf, [UInt16.ofNat c])
      else .ok (wf, [UInt16.ofNat (0xD7C0 + (c >>> 10)), UInt16.ofNat (0xDC00 + (c &&& 0x3FF))])

/-- icubaby.hpp:944-1013 `transcoder<char32_t, char16_t>`. -/
def t32_16 : Transcoder Nat UInt16 where
  σ := Bool
  init := true
  step := step32to16 2
  endCp st := .ok (st, [])
  wellFormed st := st
  isPartial _ := false

/-! ### UTF-16 to UTF-32 -/

/-- icubaby.hpp:1126-1128: the members; `high_` has 10 bits. -/
structure St16 where
  high : Nat
  hasHigh : Bool
  wf : Bool
  deriving DecidableEq, Repr

/-- icubaby.hpp:1141-1147 `adjusted_high`. -/
def adjustedHigh (cu : Nat) : M Nat :=
  if cu ≥ 0xD800 ∧ cu - 0xD800 < 0xFFFF ∧ cu - 0xD800 < 2 ^ 10 then .ok (cu - 0xD800) else .error .assertion

/-- icubaby.hpp:1041-1084 `operator()`. -/
def step16to32 (st : St16) (cu16 : UInt16) : M (St16 × List Nat) :=
  let cu := cu16.toNat
  if st.hasHigh = false then
    if isHighSurrogate cu then do
      let h ← adjustedHigh cu
      .ok ({ st with high := h % 2 ^ 10, hasHigh := true }, [])
    else if isLowSurrogate cu then .ok ({ st with wf := false }, [replacementChar])
    else .ok (st, [cu])
  else if isLowSurrogate cu then
    .ok ({ st with high := 0, hasHigh := false }, [(st.high <<< 10) + (cu - 0xDC00) + 0x10000])
  else if isHighSurrogate cu then do
    let h ← adjustedHigh cu
    .ok ({ st with high := h % 2 ^ 10, wf := false }, [replacementChar])
  else .ok ({ high := 0, hasHigh := false, wf := false }, [replacementChar, cu])

/-- icubaby.hpp:1092-1100 `end_cp`. -/
def endCp16to32 (st : St16) : M (St16 × List Nat) :=
  if st.hasHigh then .ok ({ high := 0, hasHigh := false, wf := false }, [replacementChar]) else .ok (st, [])

/-- icubaby.hpp:1016-1148 `transcoder<char16_t, char32_t>`. -/
def t16_32 : Transcoder UInt16 Nat where
  σ := St16
  init := ⟨0, false, true⟩
  step := step16to32
  endCp := endCp16to32
  wellFormed st := st.wf
  isPartial st := st.hasHigh

/-! ### UTF-32 to UTF-32 -/

/-- icubaby.hpp:1926-1940 `operator()`. -/
def step32to32 (wf : Bool) (c : Nat) : M (Bool × List Nat) :=
  if decide (c > maxCodePoint) || isSurrogate c then .ok (false, [replacementChar]) else .ok (wf, [c])

/-- icubaby.hpp:1910-1975 `transcoder<char32_t, char32_t>`. -/
def t32_32 : Transcoder Nat Nat where
  σ := Bool
  init := true
  step := step32to32
  endCp st := .ok (st, [])
  wellFormed st := st
  isPartial _ := false

/-! ### The other conversions, through UTF-32 -/

/-- icubaby.hpp:1893-1897 `triangulator::copy`. -/
def triCopy {ι ο : Type} (A : Transcoder ι Nat) (B : Transcoder Nat ο) (mid : List Nat) (st : A.σ × B.σ) : M ((A.σ × B.σ) × List ο) := do
  let (b, o) ← B.feed st.2 mid
  .ok ((st.1, b), o)

/-- icubaby.hpp:1815-1898 `triangulator`, with an intermediate array of `cap` elements
(1803-1807 `triangulator_intermediate_code_units`); overrunning that array is `assertion`. -/
def triangulator {ι ο : Type} (cap : Nat) (A : Transcoder ι Nat) (B : Transcoder Nat ο) : Transcoder ι ο where
  σ := A.σ × B.σ
  init := (A.init, B.init)
  step st c := do
    let (a, mid) ← A.step st.1 c
    if mid.length > cap then .error .assertion
    else triCopy A B mid (a, st.2)
  endCp st := do
    let (a, mid) ← A.endCp st.1
    if mid.length > cap then .error .assertion
    else do
      let (st, o) ← triCopy A B mid (a, st.2)
      let (b, e) ← B.endCp st.2
      .ok ((st.1, b), o ++ e)
  wellFormed st := A.wellFormed st.1 && B.wellFormed st.2
  isPartial st := A.isPartial st.1

/-- icubaby.hpp:1902. -/
def t8_16 : Transcoder UInt8 UInt16 := triangulator 1 t8_32 t32_16
/-- icubaby.hpp:1904. -/
def t16_8 : Transcoder UInt16 UInt8 := triangulator 2 t16_32 t32_8
/-- icubaby.hpp:1906. -/
def t8_8 : Transcoder UInt8 UInt8 := triangulator 1 t8_32 t32_8
/-- icubaby.hpp:1908. -/
def t16_16 : Transcoder UInt16 UInt16 := triangulator 2 t16_32 t32_16

/-! ### The lazy view -/

/-- icubaby.hpp:2057-2069 `max_output_bytes` and 2171 the size of `out_`: for the conversion from
`char16_t` to `char8`, 6; to `char32_t`, 2; else the longest sequence of the target (363-369). -/
def maxOut8 : Nat := 4
/-- As `maxOut8`. -/
def maxOut16 : Nat := 2
/-- As `maxOut8`. -/
def maxOut32 : Nat := 1
/-- As `maxOut8`. -/
def maxOut16to8 : Nat := 6
/-- As `maxOut8`. -/
def maxOut16to32 : Nat := 2

/-- The iterator of `transcode_view` (icubaby.hpp:2074-2197).  `current` is `current_`, `next` is
`state_.next_`, both as the input that remains from there; `buf` is `state_.out_[first_ .. last_)`;
`tr` is `state_.transcoder_`; `parentWf` is the view's `well_formed_`, which the iterator updates.
Two input iterators into one text are equal iff the same number of elements remain. -/
structure ViewIt (ι ο : Type) (T : Transcoder ι ο) where
  current : List ι
  next : List ι
  buf : List ο
  tr : T.σ
  parentWf : Bool

section
variable {ι ο : Type} (T : Transcoder ι ο) (cap : Nat)

/-- icubaby.hpp:2214-2218: the loop of `fill`; overrunning `out_` is `assertion` (2216). -/
def fillLoop : T.σ → List ι → M (T.σ × List ι × List ο)
  | st, [] => .ok (st, [], [])
  | st, c :: s => do
      let (st, o) ← T.step st c
      if o.length > cap then .error .assertion
      else if o.isEmpty then fillLoop st s
      else .ok (st, s, o)

/-- icubaby.hpp:2204-2231 `fill`, and the assignment of its result to `current_`. -/
def fill (it : ViewIt ι ο T) : M (ViewIt ι ο T) :=
  if !it.buf.isEmpty then .error .assertion
  else do
    let (st, rest, o) ← fillLoop T cap it.tr it.next
    let (st, e) ← if rest.isEmpty then T.endCp st else .ok (st, [])
    if (o ++ e).length > cap then .error .assertion
    else .ok { current := it.next, next := rest, buf := o ++ e, tr := st, parentWf := it.parentWf && T.wellFormed st }

/-- icubaby.hpp:2036 `begin` and 2088-2096 the constructor. -/
def viewBegin (s : List ι) : M (ViewIt ι ο T) :=
  let it : ViewIt ι ο T := { current := s, next := s, buf := [], tr := T.init, parentWf := true }
  if s.isEmpty then .ok it else fill T cap it

/-- icubaby.hpp:2121-2125, 2243 `operator==` with the end of the view. -/
def ViewIt.atEnd {T : Transcoder ι ο} (it : ViewIt ι ο T) : Bool := it.current.isEmpty

/-- icubaby.hpp:2103, 2148-2151 `operator*`. -/
def ViewIt.deref {T : Transcoder ι ο} (it : ViewIt ι ο T) : M ο :=
  match it.buf with
  | [] => .error .assertion
  | c :: _ => .ok c

/-- icubaby.hpp:2106-2113 `operator++`. -/
def ViewIt.incr (it : ViewIt ι ο T) : M (ViewIt ι ο T) :=
  match it.buf with
  | [] => .error .assertion
  | _ :: b => if b.isEmpty then fill T cap { it with buf := b } else .ok { it with buf := b }

/-- icubaby.hpp:2121-2125 `operator==` of two iterators of one view. -/
def ViewIt.eq {T : Transcoder ι ο} (a b : ViewIt ι ο T) : Bool := a.current.length == b.current.length

/-- A loop from an iterator to the end of the view, collecting the elements; `fuel` bounds its
iterations. -/
def viewLoop : Nat → ViewIt ι ο T → M (ViewIt ι ο T × List ο)
  | 0, _ => .error .diverge
  | fuel + 1, it =>
      if it.atEnd then .ok (it, [])
      else do
        let c ← it.deref
        let it ← it.incr T cap
        let (it, cs) ← viewLoop fuel it
        .ok (it, c :: cs)

/-- A loop over `view | transcode`, at most `cap` elements being produced per element of the input:
the elements and `well_formed ()` of the view afterwards. -/
def viewRun (s : List ι) : M (List ο × Bool) := do
  let it ← viewBegin T cap s
  let (it, cs) ← viewLoop T cap (cap * s.length + 1) it
  .ok (cs, it.parentWf)

end

/-! ### Bytes of unknown encoding -/

/-- icubaby.hpp:1151-1158 `encoding`. -/
inductive Encoding
  | unknown | utf8 | utf16be | utf16le | utf32be | utf32le
  deriving DecidableEq, Repr

/-- icubaby.hpp:1425-1484 `states`. -/
inductive States
  | start
  | utf8_bom_byte1 | utf8_bom_byte2
  | utf16_be_bom_byte1
  | utf32_be_bom_byte2 | utf32_be_bom_byte3
  | utf32_or_16_be_bom_byte1
  | utf32_or_16_le_bom_byte1 | utf32_or_16_le_bom_byte2 | utf32_le_bom_byte3
  | run_8
  | run_16be_byte0 | run_16be_byte1
  | run_16le_byte0 | run_16le_byte1
  | run_32be_byte0 | run_32be_byte1 | run_32be_byte2 | run_32be_byte3
  | run_32le_byte0 | run_32le_byte1 | run_32le_byte2 | run_32le_byte3
  deriving DecidableEq, Repr

/-- icubaby.hpp:1358-1420: the fields of a state: encoding in bits 4-5 (UTF-16, UTF-32, UTF-8,
unknown), endianness in bit 3 (set: little), run mode in bit 2, byte number in bits 0-1. -/
def mkState (enc endian run byte : UInt8) : UInt8 := (enc <<< 4) ||| (endian <<< 3) ||| (run <<< 2) ||| byte

open States in
/-- icubaby.hpp:1425-1484: the values of the enumerators. -/
def States.code : States → UInt8
  | start => mkState 3 0 0 0
  | utf8_bom_byte1 => mkState 2 0 0 1
  | utf8_bom_byte2 => mkState 2 0 0 2
  | utf16_be_bom_byte1 => mkState 0 0 0 1
  | utf32_be_bom_byte2 => mkState 1 0 0 2
  | utf32_be_bom_byte3 => mkState 1 0 0 3
  | utf32_or_16_be_bom_byte1 => mkState 1 0 0 1
  | utf32_or_16_le_bom_byte1 => mkState 1 1 0 1
  | utf32_or_16_le_bom_byte2 => mkState 1 1 0 2
  | utf32_le_bom_byte3 => mkState 1 1 0 3
  | run_8 => mkState 2 0 1 0
  | run_16be_byte0 => mkState 0 0 1 0
  | run_16be_byte1 => mkState 0 0 1 1
  | run_16le_byte0 => mkState 0 1 1 0
  | run_16le_byte1 => mkState 0 1 1 1
  | run_32be_byte0 => mkState 1 0 1 0
  | run_32be_byte1 => mkState 1 0 1 1
  | run_32be_byte2 => mkState 1 0 1 2
  | run_32be_byte3 => mkState 1 0 1 3
  | run_32le_byte0 => mkState 1 1 1 0
  | run_32le_byte1 => mkState 1 1 1 1
  | run_32le_byte2 => mkState 1 1 1 2
  | run_32le_byte3 => mkState 1 1 1 3

open States in
/-- All enumerators. -/
def States.all : List States := [start, utf8_bom_byte1, utf8_bom_byte2, utf16_be_bom_byte1, utf32_be_bom_byte2, utf32_be_bom_byte3,
  utf32_or_16_be_bom_byte1, utf32_or_16_le_bom_byte1, utf32_or_16_le_bom_byte2, utf32_le_bom_byte3, run_8, run_16be_byte0, run_16be_byte1,
  run_16le_byte0, run_16le_byte1, run_32be_byte0, run_32be_byte1, run_32be_byte2, run_32be_byte3, run_32le_byte0, run_32le_byte1,
  run_32le_byte2, run_32le_byte3]

/-- The assignment of a `states` made from a byte to `state_`.  Simplification: a value that is no
enumerator (legal in C++, but no `case` of any `switch`) is `assertion` when it is assigned. -/
def States.ofCode (b : UInt8) : M States :=
  match States.all.find? (fun s => s.code == b) with
  | some s => .ok s
  | none => .error .assertion

/-- icubaby.hpp:1490-1492 `is_run_mode`. -/
def isRunMode (s : States) : Bool := (s.code &&& 4) == 4
/-- icubaby.hpp:1497-1499 `is_little_endian`. -/
def isLittleEndian (s : States) : Bool := (s.code &&& 8) == 8
/-- icubaby.hpp:1508-1510 `byte_no`. -/
def byteNo (s : States) : Nat := (s.code &&& 3).toNat
/-- icubaby.hpp:1517-1521 `set_byte`, from and to the value of the state. -/
def setByteCode (c : UInt8) (n : Nat) : M UInt8 :=
  if n < 4 then .ok ((c &&& ~~~3) ||| UInt8.ofNat n) else .error .assertion
/-- icubaby.hpp:1533-1537 `set_run_mode`, from and to the value of the state. -/
def setRunModeCode (c : UInt8) : M UInt8 :=
  if (c &&& 4) == 0 then .ok ((c &&& ~~~4) ||| 4) else .error .assertion
/-- `state_ = set_byte (state, n)`. -/
def setByte (s : States) (n : Nat) : M States := do States.ofCode (← setByteCode s.code n)
/-- icubaby.hpp:1527 `next_byte`, assigned to `state_`. -/
def nextByte (s : States) : M States := setByte s (byteNo s + 1)
/-- icubaby.hpp:1262: `state_ = set_run_mode (set_byte (state_, 0))`. -/
def startRunMode (s : States) : M States := do States.ofCode (← setRunModeCode (← setByteCode s.code 0))

/-- icubaby.hpp:1173-1179 `boms`: rows of four bytes, the last ones zero-initialised. -/
def boms : List Str := [[0xFE, 0xFF, 0, 0], [0xFF, 0xFE, 0, 0], [0, 0, 0xFE, 0xFF], [0xFF, 0xFE, 0, 0], [0xEF, 0xBB, 0xBF, 0]]

/-- `details::boms[boms_index_from_state (state_)][byte_no (state_)]` (icubaby.hpp:1544-1551); an
index out of range is `assertion`. -/
def bomByte (s : States) : M UInt8 :=
  match boms[(s.code >>> 3).toNat]? with
  | none => .error .assertion
  | some row => match row[byteNo s]? with
    | none => .error .assertion
    | some b => .ok b

/-- `buffer_[i] = value`; an index out of range is `assertion`. -/
def bufSet (buf : Str) (i : Nat) (v : UInt8) : M Str := if i < buf.length then .ok (buf.set i v) else .error .assertion
/-- `buffer_[i]`. -/
def bufGet (buf : Str) (i : Nat) : M UInt8 :=
  match buf[i]? with
  | some b => .ok b
  | none => .error .assertion

section
variable {ο : Type} (T8 : Transcoder UInt8 ο) (T16 : Transcoder UInt16 ο) (T32 : Transcoder Nat ο)

/-- icubaby.hpp:1564 `transcoder_variant_`. -/
inductive Variant
  | mono | v8 (s : T8.σ) | v16 (s : T16.σ) | v32 (s : T32.σ)

/-- icubaby.hpp:1560-1564: the members. -/
structure StX where
  state : States
  buffer : Str
  var : Variant T8 T16 T32

variable {T8 T16 T32}

/-- icubaby.hpp:1612-1625 `run8_start`. -/
def run8Start (st : StX T8 T16 T32) (copy : Bool) : M (StX T8 T16 T32 × List ο) :=
  if isRunMode st.state then .error .assertion
  else match st.var with
    | .mono => do
        if copy && decide (byteNo st.state + 1 > st.buffer.length) then .error .assertion
        else do
          let (t, o) ← if copy then T8.feed T8.init (st.buffer.take (byteNo st.state + 1)) else .ok (T8.init, [])
          .ok ({ st with state := .run_8, var := .v8 t }, o)
    | _ => .error .assertion

/-- icubaby.hpp:1633-1640 `run16_start`. -/
def run16Start (st : StX T8 T16 T32) : M (StX T8 T16 T32) :=
  if isRunMode st.state then .error .assertion
  else match st.var with
    | .mono => .ok { st with state := if isLittleEndian st.state then .run_16le_byte0 else .run_16be_byte0, var := .v16 T16.init }
    | _ => .error .assertion

/-- icubaby.hpp:1589-1603 `start_state`. -/
def startState (st : StX T8 T16 T32) (v : UInt8) : M (StX T8 T16 T32 × List ο) := do
  let st := { st with buffer := ← bufSet st.buffer 0 v }
  if v == 0xEF then .ok ({ st with state := .utf8_bom_byte1 }, [])
  else if v == 0xFE then .ok ({ st with state := .utf16_be_bom_byte1 }, [])
  else if v == 0xFF then .ok ({ st with state := .utf32_or_16_le_bom_byte1 }, [])
  else if v == 0x00 then .ok ({ st with state := .utf32_or_16_be_bom_byte1 }, [])
  else run8Start st true

/-- icubaby.hpp:1695-1708 `char16_from_big_endian_buffer`, `char16_from_little_endian_buffer`. -/
def char16From (big : Bool) (buf : Str) (v : UInt8) : M UInt16 := do
  let b0 ← bufGet buf 0
  .ok (if big then UInt16.ofNat ((b0.toNat <<< 8) ||| v.toNat) else UInt16.ofNat ((v.toNat <<< 8) ||| b0.toNat))

/-- icubaby.hpp:1713-1718 `char32_from_big_endian_buffer`. -/
def char32FromBig (buf : Str) (v : UInt8) : M Nat := do
  let b0 ← bufGet buf 0
  let b1 ← bufGet buf 1
  let b2 ← bufGet buf 2
  .ok ((b0.toNat <<< 24) ||| (b1.toNat <<< 16) ||| (b2.toNat <<< 8) ||| v.toNat)

/-- icubaby.hpp:1724-1728 `char32_from_little_endian_buffer`.  `value << 24U` is the shift of
`std::byte`, whose result is a `std::byte`: the bits are lost. -/
def char32FromLittle (buf : Str) (v : UInt8) : M Nat := do
  let b0 ← bufGet buf 0
  let b1 ← bufGet buf 1
  let b2 ← bufGet buf 2
  .ok ((v.toNat <<< 24) % 256 ||| (b2.toNat <<< 16) ||| (b1.toNat <<< 8) ||| b0.toNat)

/-- icubaby.hpp:1653-1664 `run16`. -/
def run16 (st : StX T8 T16 T32) (v : UInt8) : M (StX T8 T16 T32 × List ο) :=
  if st.state ≠ .run_16be_byte1 ∧ st.state ≠ .run_16le_byte1 then .error .assertion
  else match st.var with
    | .v16 t => do
        let (t, o) ← T16.step t (← char16From (st.state == .run_16be_byte1) st.buffer v)
        .ok ({ st with state := ← setByte st.state 0, var := .v16 t }, o)
    | _ => .error .assertion

/-- icubaby.hpp:1677-1688 `run32`. -/
def run32 (st : StX T8 T16 T32) (v : UInt8) : M (StX T8 T16 T32 × List ο) :=
  if st.state ≠ .run_32be_byte3 ∧ st.state ≠ .run_32le_byte3 then .error .assertion
  else match st.var with
    | .v32 t => do
        let (t, o) ← T32.step t (← if st.state == .run_32be_byte3 then char32FromBig st.buffer v else char32FromLittle st.buffer v)
        .ok ({ st with state := ← setByte st.state 0, var := .v32 t }, o)
    | _ => .error .assertion

/-- icubaby.hpp:1243-1254: the `case` of a byte of a byte order mark that is not the last. -/
def bomStep (st : StX T8 T16 T32) (v : UInt8) : M (StX T8 T16 T32 × List ο) := do
  let st := { st with buffer := ← bufSet st.buffer (byteNo st.state) v }
  if v == (← bomByte st.state) then .ok ({ st with state := ← nextByte st.state }, [])
  else run8Start st true

/-- icubaby.hpp:1256-1267: the `case` of the last byte of a UTF-32 byte order mark. -/
def bom32Last (st : StX T8 T16 T32) (v : UInt8) : M (StX T8 T16 T32 × List ο) := do
  if byteNo st.state ≠ 3 then .error .assertion
  else do
    let st := { st with buffer := ← bufSet st.buffer 3 v }
    if v == (if isLittleEndian st.state then 0x00 else 0xFF) then
      .ok ({ st with state := ← startRunMode st.state, var := .v32 T32.init }, [])
    else run8Start st true

/-- icubaby.hpp:1269-1279: the `case` of a byte of a code unit that is not the last. -/
def runByte (st : StX T8 T16 T32) (v : UInt8) : M (StX T8 T16 T32 × List ο) := do
  let st := { st with buffer := ← bufSet st.buffer (byteNo st.state) v }
  .ok ({ st with state := ← nextByte st.state }, [])

/-- icubaby.hpp:1216-1295 `operator()`. -/
def stepX (st : StX T8 T16 T32) (v : UInt8) : M (StX T8 T16 T32 × List ο) :=
  match st.state with
  | .start => startState st v
  | .utf8_bom_byte2 => do
      let st := { st with buffer := ← bufSet st.buffer (byteNo st.state) v }
      run8Start st (v != (← bomByte st.state))
  | .utf16_be_bom_byte1 => do
      let st := { st with buffer := ← bufSet st.buffer (byteNo st.state) v }
      if v == (← bomByte st.state) then do
        .ok (← run16Start st, [])
      else run8Start st true
  | .utf32_or_16_le_bom_byte2 =>
      if v != 0x00 then do
        let st ← run16Start st
        .ok ({ st with state := .run_16le_byte1, buffer := ← bufSet st.buffer 0 v }, [])
      else bomStep st v
  | .utf8_bom_byte1 | .utf32_or_16_le_bom_byte1 | .utf32_or_16_be_bom_byte1 | .utf32_be_bom_byte2 => bomStep st v
  | .utf32_le_bom_byte3 | .utf32_be_bom_byte3 => bom32Last st v
  | .run_16be_byte0 | .run_16le_byte0 | .run_32be_byte0 | .run_32be_byte1 | .run_32be_byte2 | .run_32le_byte0 | .run_32le_byte1
  | .run_32le_byte2 => runByte st v
  | .run_8 => match st.var with
      | .v8 t => do
          let (t, o) ← T8.step t v
          .ok ({ st with var := .v8 t }, o)
      | _ => .error .assertion
  | .run_16be_byte1 | .run_16le_byte1 => run16 st v
  | .run_32be_byte3 | .run_32le_byte3 => run32 st v

/-- icubaby.hpp:1305-1319 `end_cp`. -/
def endCpX (st : StX T8 T16 T32) : M (StX T8 T16 T32 × List ο) :=
  match st.var with
  | .mono => run8Start st (st.state != .start)
  | .v8 t => do
      let (t, o) ← T8.endCp t
      .ok ({ st with var := .v8 t }, o)
  | .v16 t => do
      let (t, o) ← T16.endCp t
      .ok ({ st with var := .v16 t }, o)
  | .v32 t => do
      let (t, o) ← T32.endCp t
      .ok ({ st with var := .v32 t }, o)

/-- icubaby.hpp:1754-1768 `well_formed`. -/
def wellFormedX (st : StX T8 T16 T32) : Bool :=
  match st.var with
  | .mono => true
  | .v8 t => T8.wellFormed t
  | .v16 t => T16.wellFormed t
  | .v32 t => T32.wellFormed t

/-- icubaby.hpp:1734-1749 `partial`. -/
def partialX (st : StX T8 T16 T32) : Bool :=
  match st.var with
  | .mono => st.state != .start
  | .v8 t => T8.isPartial t
  | .v16 t => T16.isPartial t
  | .v32 t => T32.isPartial t

/-- icubaby.hpp:1772-1793 `selected_encoding`. -/
def selectedEncoding (st : StX T8 T16 T32) : M Encoding :=
  if isRunMode st.state then
    let e := (st.state.code >>> 4) &&& 3
    if e == 3 then .error .assertion
    else if e == 2 then .ok .utf8
    else if e == 0 then .ok (if isLittleEndian st.state then .utf16le else .utf16be)
    else .ok (if isLittleEndian st.state then .utf32le else .utf32be)
  else .ok .unknown

variable (T8 T16 T32)

/-- icubaby.hpp:1200-1730 `transcoder<std::byte, ToEncoding>`. -/
def tX : Transcoder UInt8 ο where
  σ := StX T8 T16 T32
  init := ⟨.start, [0, 0, 0, 0], .mono⟩
  step := stepX
  endCp := endCpX
  wellFormed := wellFormedX
  isPartial := partialX

end

/-- icubaby.hpp:1999 `tx_8`. -/
def tx_8 : Transcoder UInt8 UInt8 := tX t8_8 t16_8 t32_8
/-- icubaby.hpp:2001 `tx_16`. -/
def tx_16 : Transcoder UInt8 UInt16 := tX t8_16 t16_16 t32_16
/-- icubaby.hpp:2003 `tx_32`. -/
def tx_32 : Transcoder UInt8 Nat := tX t8_32 t16_32 t32_32

end Verif.Icu
