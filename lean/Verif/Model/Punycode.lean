import Verif.Model.Ranges

/-!
# Punycode

`include/uri/punycode.hpp`.  A `char32_t` is a natural number (below 2^32 in the theorems); a
`std::size_t` is a natural number and the 64-bit arithmetic on it wraps explicitly, as does the
32-bit arithmetic on `unsigned`.  An output iterator is the list of what is written to it.
-/

namespace Verif

/-- 2^64: the values of `std::size_t`. -/
def szMod : Nat := 2 ^ 64
/-- `std::numeric_limits<std::size_t>::max ()`. -/
def szMax : Nat := 2 ^ 64 - 1
/-- 2^32: the values of `unsigned` and `char32_t`. -/
def u32Mod : Nat := 2 ^ 32

namespace Puny

/-- punycode.hpp:52 -/
def damp : Nat := 700
/-- punycode.hpp:53 -/
def base : Nat := 36
/-- punycode.hpp:54 -/
def tmin : Nat := 1
/-- punycode.hpp:55 -/
def tmax : Nat := 26
/-- punycode.hpp:56 -/
def skew : Nat := 38
/-- punycode.hpp:57 -/
def initialBias : Nat := 72
/-- punycode.hpp:58 -/
def initialN : Nat := 0x80
/-- punycode.hpp:59 -/
def delimiter : UInt8 := 0x2D

/-- punycode.hpp:37-41 `decode_error_code` (without `none`). -/
inductive Err
  | badInput | overflow
  deriving DecidableEq, Repr

/-- punycode.hpp:64-66 `is_basic_code_point`. -/
def isBasic (c : Nat) : Bool := decide (c < 0x80)

/-- punycode.hpp:72-80 `encode_digit`. -/
def encodeDigit (d : Nat) : M UInt8 :=
  if d < 36 then
    if d < 26 then .ok (UInt8.ofNat (d + 0x61)) else .ok (UInt8.ofNat (d - 26 + 0x30))
  else .error .assertion

/-- punycode.hpp:82-91 `clamp`. -/
def clamp (k bias : Nat) : Nat :=
  if k ≤ bias then tmin
  else if k ≥ (bias + tmax) % szMod then tmax
  else k - bias

/-- punycode.hpp:93-107 the loop of `encode_vli`; `fuel` bounds its iterations. -/
def encodeVliLoop (bias : Nat) : Nat → Nat → Nat → M Str
  | 0, _, _ => .error .diverge
  | fuel + 1, k, q =>
      let t := clamp k bias
      if q < t then do
        let d ← encodeDigit (q % u32Mod)
        .ok [d]
      else if base < t then .error .assertion
      else do
        let d ← encodeDigit ((t + (q - t) % (base - t)) % u32Mod)
        let rest ← encodeVliLoop bias fuel ((k + base) % u32Mod) ((q - t) / (base - t))
        .ok (d :: rest)

/-- punycode.hpp:93-107 `encode_vli`. -/
def encodeVli (q bias : Nat) : M Str := encodeVliLoop bias (q + 1) base q

/-- punycode.hpp:113-118: the loop and the result of `adapt`. -/
def adaptLoop : Nat → Nat → Nat → M Nat
  | 0, _, _ => .error .diverge
  | fuel + 1, delta, k =>
      if delta > ((base - tmin) * tmax) / 2 then adaptLoop fuel (delta / (base - tmin)) ((k + base) % u32Mod)
      else .ok ((k + ((base - tmin + 1) * delta) % szMod / ((delta + skew) % szMod)) % szMod)

/-- punycode.hpp:109-119 `adapt`. -/
def adapt (delta numpoints : Nat) (firsttime : Bool) : M Nat :=
  let delta := if firsttime then delta / damp else delta >>> 1
  let delta := (delta + delta / numpoints) % szMod
  adaptLoop (delta + 1) delta 0

/-- `std::sort`: any algorithm gives the same list. -/
def insertSorted (x : Nat) : List Nat → List Nat
  | [] => [x]
  | y :: ys => if x ≤ y then x :: y :: ys else y :: insertSorted x ys

/-- `std::sort`. -/
def sortL : List Nat → List Nat
  | [] => []
  | x :: xs => insertSorted x (sortL xs)

/-- `std::unique` followed by `erase`: of each run of equal elements the first stays. -/
def unique : List Nat → List Nat
  | [] => []
  | [x] => [x]
  | x :: y :: r => if x = y then unique (y :: r) else x :: unique (y :: r)

/-- punycode.hpp:121-127 `sort_and_remove_duplicates`. -/
def sortAndRemoveDuplicates (l : List Nat) : List Nat := unique (sortL l)

/-- The variables captured by the inner lambda (punycode.hpp:166): `output`, `delta`, `bias`,
`i`. -/
structure EncSt where
  out : Str
  delta : Nat
  bias : Nat
  i : Nat
  deriving DecidableEq, Repr

/-- punycode.hpp:166-176 the lambda applied to a code point of the input. -/
def encStep (numBasics n : Nat) (st : EncSt) (c : Nat) : M EncSt :=
  if c < n then .ok { st with delta := (st.delta + 1) % szMod }
  else if c = n then do
    let v ← encodeVli st.delta st.bias
    let b ← adapt st.delta ((st.i + 1) % szMod) (st.i == numBasics)
    .ok { out := st.out ++ v, delta := 0, bias := b, i := (st.i + 1) % szMod }
  else .ok st

/-- punycode.hpp:166-176 `std::ranges::for_each (range, …)`. -/
def encPass (numBasics n : Nat) : List Nat → EncSt → M EncSt
  | [], st => .ok st
  | c :: cs, st => do
      let st ← encStep numBasics n st c
      encPass numBasics n cs st

/-- punycode.hpp:161-179 the loop over the distinct non-basic code points; `n` and the captured
variables. -/
def encLoop (numBasics : Nat) (range : List Nat) : List Nat → Nat → EncSt → M EncSt
  | [], _, st => .ok st
  | m :: ms, n, st =>
      if m < n then .error .assertion
      else do
        let st := { st with delta := (st.delta + ((m - n) * ((st.i + 1) % szMod)) % szMod) % szMod }
        let st ← encPass numBasics m range st
        encLoop numBasics range ms ((m + 1) % szMod) { st with delta := (st.delta + 1) % szMod }

/-- punycode.hpp:131-182 `encode`: what is written to `output`, and the flag.  The returned input
iterator is the end of the range. -/
def encode (range : List Nat) (allowPlain : Bool) : M (Str × Bool) :=
  let basics := (range.filter isBasic).map UInt8.ofNat
  let nonBasic := range.filter (fun c => !isBasic c)
  let numBasics := basics.length
  if allowPlain && nonBasic.isEmpty then .ok (basics, false)
  else do
    let nonBasic := sortAndRemoveDuplicates nonBasic
    let out := if numBasics > 0 then basics ++ [delimiter] else basics
    let st ← encLoop numBasics range nonBasic initialN { out := out, delta := 0, bias := initialBias, i := numBasics }
    .ok (st.out, !nonBasic.isEmpty)

/-- punycode.hpp:197-207 `decode_digit`. -/
def decodeDigit (cp : UInt8) : Nat :=
  if cp ≥ 0x30 && cp ≤ 0x39 then cp.toNat - (0x30 - 26)
  else
    let cp := if cp ≥ 0x61 then cp - (0x61 - 0x41) else cp
    if cp ≥ 0x41 && cp ≤ 0x5A then cp.toNat - 0x41 else base

/-- punycode.hpp:209-220 `clampk`. -/
def clampk (k bias : Nat) : Nat :=
  if k ≤ bias then tmin
  else if k ≥ (bias + tmax) % szMod then tmax
  else k - bias

/-- punycode.hpp:230-254 the loop of `decode_vli`: the input from `first`, `w`, `k`, `vli`. -/
def decodeVliLoop (bias : Nat) : Str → Nat → Nat → Nat → M (Except Err (Nat × Str))
  | [], _, _, _ => .ok (.error .badInput)
  | c :: first, w, k, vli =>
      let digit := decodeDigit c
      if digit > base then .error .assertion
      else if digit ≥ base then .ok (.error .badInput)
      else if digit > (szMax - vli) / w then .ok (.error .overflow)
      else
        let vli := (vli + (digit * w) % szMod) % szMod
        let t := clampk k bias
        if digit < t then .ok (.ok (vli, first))
        else if w > szMax / (base - t) then .ok (.error .overflow)
        else decodeVliLoop bias first ((w * (base - t)) % szMod) ((k + base) % u32Mod) vli

/-- punycode.hpp:222-256 `decode_vli`. -/
def decodeVli (first : Str) (vli bias : Nat) : M (Except Err (Nat × Str)) := decodeVliLoop bias first 1 base vli

/-- punycode.hpp:268-274: the loop that copies the basic code points.  (`static_cast<char32_t>` of
a negative `char` is not a basic code point either, so the signedness of `char` is immaterial.) -/
def copyBasic : Str → Except Err (List Nat)
  | [] => .ok []
  | c :: s =>
      if !isBasic c.toNat then .error .badInput
      else match copyBasic s with
        | .ok r => .ok (c.toNat :: r)
        | .error e => .error e

/-- punycode.hpp:258-277 `copy_plain_ascii_part`: the characters copied and the remaining input.
`bidi` tells which implementation of `find_last` the iterator types select. -/
def copyPlain (bidi : Bool) (input : Str) : M (Except Err (List Nat × Str)) := do
  let (b, e) ← findLast bidi id delimiter input
  if b = e then .ok (.ok ([], input))
  else match copyBasic (input.take b) with
    | .error err => .ok (.error err)
    | .ok lit => .ok (.ok (lit, input.drop (b + 1)))

/-- `std::u32string::insert (index, 1, c)`: throws if `index > size ()`. -/
def insertAt (l : List Nat) (index c : Nat) : M (List Nat) :=
  if index ≤ l.length then .ok (l.take index ++ c :: l.drop index) else .error .outOfRange

/-- punycode.hpp:279-314 the loop of `decode_loop`; `fuel` bounds its iterations. -/
def decodeLoop : Nat → Str → List Nat → Nat → Nat → Nat → M (Except Err (List Nat × Str))
  | 0, _, _, _, _, _ => .error .diverge
  | fuel + 1, input, output, n, index, bias =>
      match input with
      | [] => .ok (.ok (output, []))
      | _ :: _ => do
          match ← decodeVli input index bias with
          | .error err => .ok (.error err)
          | .ok (vli, rest) =>
              let outputLength := (output.length + 1) % szMod
              let bias ← adapt ((vli + (szMod - index)) % szMod) outputLength (index == 0)
              if vli / outputLength > (u32Mod - 1 + (szMod - n)) % szMod then .ok (.error .overflow)
              else
                let n := (n + vli / outputLength) % szMod
                let index := vli % outputLength
                let output ← insertAt output index (n % u32Mod)
                decodeLoop fuel rest output n ((index + 1) % szMod) bias

/-- punycode.hpp:320-345 `decode`: the decoded string and the remaining input. -/
def decode (bidi : Bool) (input : Str) : M (Except Err (List Nat × Str)) := do
  match ← copyPlain bidi input with
  | .error err => .ok (.error err)
  | .ok (lit, rest) => decodeLoop (rest.length + 1) rest lit initialN 0 initialBias

end Puny
end Verif
