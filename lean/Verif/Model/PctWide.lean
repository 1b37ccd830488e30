import Verif.Model.Pct

/-!
# Percent coding of text in other character types

The templates of `pctencode.hpp` and `pctdecode.hpp` take iterators over any integral character type (`char16_t`, `char32_t`,
`wchar_t`, ...).  A unit is the natural number that its bits are as an unsigned value: conversions to `std::uint_least8_t`
and to `std::make_unsigned_t` (pctencode.hpp:61-62) are then the remainder by 256 and nothing at all; a negative value of
a signed type is a number above every character compared with here, as it is below every one of them in the code, and lies in
none of the ranges tested either way.
-/

namespace Verif.Wide

/-- Text of any character type: the values of its units. -/
abbrev WStr := List Nat

/-- pctencode.hpp:61: `needs_pctencode (static_cast<std::uint_least8_t> (c), encodeset)`. -/
def needsUnit (c : Nat) (es : UInt8) : Bool := needsPctencodeB (UInt8.ofNat c) es

/-- pctencode.hpp:47-52 `needs_pctencode (first, last, es)`: `c` is converted to the parameter's type implicitly. -/
def needsPctencode (s : WStr) (es : UInt8) : Bool := s.any (fun c => needsUnit c es)

/-- pctencode.hpp:56-70 `pctencode (first, last, out, encodeset)`: what is written to `out`. -/
def pctencode (es : UInt8) : WStr → M WStr
  | [] => .ok []
  | c :: s =>
      if needsUnit c es then do
        let hi ← dec2hex ((c >>> 4) &&& 0xF)
        let lo ← dec2hex (c &&& 0xF)
        let rest ← pctencode es s
        .ok (0x25 :: hi.toNat :: lo.toNat :: rest)
      else do
        let rest ← pctencode es s
        .ok (c :: rest)

/-- pctdecode.hpp:43-55 `hex2dec`. -/
def hex2dec (digit : Nat) : UInt8 :=
  if decide (digit ≥ 0x61) && decide (digit ≤ 0x66) then UInt8.ofNat (digit - (0x61 - 10))
  else if decide (digit ≥ 0x41) && decide (digit ≤ 0x46) then UInt8.ofNat (digit - (0x41 - 10))
  else if decide (digit ≥ 0x30) && decide (digit ≤ 0x39) then UInt8.ofNat (digit - 0x30)
  else hexBad

/-- `*(pos)` on the text. -/
def readAt (s : WStr) (pos : Nat) : M Nat :=
  match s[pos]? with
  | some c => .ok c
  | none => .error .outOfRange

/-- pctdecode.hpp:60-72 `increment`.  `&&` short-circuits. -/
def pctIncrement (s : WStr) (pos stop : Nat) : M Nat := do
  let remaining : Int := stop - pos
  if remaining ≤ 0 then .error .assertion
  else if remaining < 3 then .ok (pos + 1)
  else
    let c ← readAt s pos
    if c ≠ 0x25 then .ok (pos + 1)
    else
      let h ← readAt s (pos + 1)
      let l ← readAt s (pos + 2)
      if eitherBad (hex2dec h) (hex2dec l) then .ok (pos + 1) else .ok (pos + 3)

/-- pctdecode.hpp:74-89 `deref`: the value referred to. -/
def pctDeref (s : WStr) (pos stop : Nat) : M Nat := do
  let c ← readAt s pos
  let dist : Int := stop - pos
  if c ≠ 0x25 || dist < 3 then .ok c
  else
    let nhi := hex2dec (← readAt s (pos + 1))
    let nlo := hex2dec (← readAt s (pos + 2))
    if eitherBad nhi nlo then .ok c
    else .ok ((nhi <<< 4) ||| nlo).toNat

/-- pctdecode.hpp:92-95 `needs_pctdecode`. -/
def needsPctdecode (s : WStr) : Bool := s.any (· == 0x25)

/-- An algorithm over `[it, last)` of `pctdecode_iterator`s (pctdecode.hpp:258-297) collecting `*it`.  `fuel` bounds the
number of iterations; running out of it is the fault `diverge`. -/
def pctIterLoop (s : WStr) (last : PctIter) : Nat → PctIter → M WStr
  | 0, _ => .error .diverge
  | fuel + 1, it => do
      if ← it.eq last then .ok []
      else
        let c ← pctDeref s it.pos it.stop
        let pos ← pctIncrement s it.pos it.stop
        let rest ← pctIterLoop s last fuel { it with pos := pos }
        .ok (c :: rest)

/-- `std::copy (pctdecode_begin (s), pctdecode_end (s), out)` (pctdecode.hpp:302-309). -/
def pctdecode (s : WStr) : M WStr := pctIterLoop s ⟨s.length, s.length⟩ (s.length + 1) ⟨0, s.length⟩

/-- pctdecode.hpp:97-206 `pctdecode_view` over a common range: the loop of an algorithm over `[begin (), end ())`. -/
def pctViewLoop (s : WStr) (last : Nat) : Nat → Nat → M WStr
  | 0, _ => .error .diverge
  | fuel + 1, pos =>
      if pos == last then .ok []
      else do
        let c ← pctDeref s pos s.length
        let pos ← pctIncrement s pos s.length
        let rest ← pctViewLoop s last fuel pos
        .ok (c :: rest)

/-- `std::ranges::copy (s | views::pctdecode, out)`. -/
def pctViewCopy (s : WStr) : M WStr := pctViewLoop s s.length (s.length + 1) 0

end Verif.Wide
