import Verif.Model.Punycode
import Verif.Model.Cost

/-!
# Punycode with its running time

The functions of `include/uri/punycode.hpp` again, each with a count of the steps it takes: one for each turn of each of its
loops, one for each element of a container copied, compared or moved (`std::u32string::insert` moves the elements after the
place of insertion).  `std::sort` of n elements counts n * (log2 n + 1), the order the standard demands.  Appending to a
string counts one per element, as the standard guarantees on average.

Forgetting the count gives the model of `Verif/Model/Punycode.lean`: that is proved in `Verif/Proofs/PunyCost.lean`.
-/

namespace Verif.Cost
open Puny

/-- punycode.hpp:93-107 the loop of `encode_vli`: one step a turn. -/
def vliLoop (bias : Nat) : Nat → Nat → Nat → CM Str
  | 0, _, _ => ret (.error .diverge)
  | fuel + 1, k, q =>
      tick 1 (if q < clamp k bias then andThen (ret (encodeDigit (q % u32Mod))) fun d => ret (.ok [d])
      else if base < clamp k bias then ret (.error .assertion)
      else andThen (ret (encodeDigit ((clamp k bias + (q - clamp k bias) % (base - clamp k bias)) % u32Mod))) fun d =>
        andThen (vliLoop bias fuel ((k + base) % u32Mod) ((q - clamp k bias) / (base - clamp k bias))) fun rest => ret (.ok (d :: rest)))

/-- punycode.hpp:93-107 `encode_vli`. -/
def vli (q bias : Nat) : CM Str := vliLoop bias (q + 1) base q

/-- punycode.hpp:113-118 the loop of `adapt`: one step a turn. -/
def adaptLoop : Nat → Nat → Nat → CM Nat
  | 0, _, _ => ret (.error .diverge)
  | fuel + 1, delta, k =>
      tick 1 (if delta > ((base - tmin) * tmax) / 2 then adaptLoop fuel (delta / (base - tmin)) ((k + base) % u32Mod)
      else ret (.ok ((k + ((base - tmin + 1) * delta) % szMod / ((delta + skew) % szMod)) % szMod)))

/-- punycode.hpp:109-119 `adapt`. -/
def adapt (delta numpoints : Nat) (firsttime : Bool) : CM Nat :=
  let delta := if firsttime then delta / damp else delta >>> 1
  let delta := (delta + delta / numpoints) % szMod
  adaptLoop (delta + 1) delta 0

/-- punycode.hpp:166-176 the lambda: one step, and those of `encode_vli` and `adapt`. -/
def encStep (numBasics n : Nat) (st : EncSt) (c : Nat) : CM EncSt :=
  tick 1 (if c < n then ret (.ok { st with delta := (st.delta + 1) % szMod })
  else if c = n then
    andThen (vli st.delta st.bias) fun v =>
    andThen (adapt st.delta ((st.i + 1) % szMod) (st.i == numBasics)) fun b =>
    ret (.ok { out := st.out ++ v, delta := 0, bias := b, i := (st.i + 1) % szMod })
  else ret (.ok st))

/-- punycode.hpp:166-176 `std::ranges::for_each (range, …)`. -/
def encPass (numBasics n : Nat) : List Nat → EncSt → CM EncSt
  | [], st => ret (.ok st)
  | c :: cs, st => andThen (encStep numBasics n st c) fun st => encPass numBasics n cs st

/-- punycode.hpp:161-179 the loop over the distinct non-basic code points: one step a turn and those of the pass. -/
def encLoop (numBasics : Nat) (range : List Nat) : List Nat → Nat → EncSt → CM EncSt
  | [], _, st => ret (.ok st)
  | m :: ms, n, st =>
      tick 1 (if m < n then ret (.error .assertion)
      else
        andThen (encPass numBasics m range { st with delta := (st.delta + ((m - n) * ((st.i + 1) % szMod)) % szMod) % szMod }) fun st =>
        encLoop numBasics range ms ((m + 1) % szMod) { st with delta := (st.delta + 1) % szMod })

/-- `std::sort` of `n` elements. -/
def sortSteps (n : Nat) : Nat := n * (n.log2 + 1)

/-- punycode.hpp:131-182 `encode`: one step for each code point in the first loop, then sorting and removing duplicates, then
the main loop. -/
def encode (range : List Nat) (allowPlain : Bool) : CM (Str × Bool) :=
  let basics := (range.filter isBasic).map UInt8.ofNat
  let nonBasic := range.filter (fun c => !isBasic c)
  let numBasics := basics.length
  tick (1 + range.length) (if allowPlain && nonBasic.isEmpty then ret (.ok (basics, false))
  else
    let distinct := sortAndRemoveDuplicates nonBasic
    let out := if numBasics > 0 then basics ++ [delimiter] else basics
    tick (sortSteps nonBasic.length + nonBasic.length)
      (andThen (encLoop numBasics range distinct initialN { out := out, delta := 0, bias := initialBias, i := numBasics }) fun st =>
        ret (.ok (st.out, !distinct.isEmpty))))

/-- punycode.hpp:230-254 the loop of `decode_vli`: one step a turn. -/
def decodeVliLoop (bias : Nat) : Str → Nat → Nat → Nat → CM (Except Err (Nat × Str))
  | [], _, _, _ => tick 1 (ret (.ok (.error .badInput)))
  | c :: first, w, k, vli =>
      tick 1 (if decodeDigit c > base then ret (.error .assertion)
      else if decodeDigit c ≥ base then ret (.ok (.error .badInput))
      else if decodeDigit c > (szMax - vli) / w then ret (.ok (.error .overflow))
      else if decodeDigit c < clampk k bias then ret (.ok (.ok ((vli + (decodeDigit c * w) % szMod) % szMod, first)))
      else if w > szMax / (base - clampk k bias) then ret (.ok (.error .overflow))
      else decodeVliLoop bias first ((w * (base - clampk k bias)) % szMod) ((k + base) % u32Mod) ((vli + (decodeDigit c * w) % szMod) % szMod))

/-- punycode.hpp:222-256 `decode_vli`. -/
def decodeVli (first : Str) (vli bias : Nat) : CM (Except Err (Nat × Str)) := decodeVliLoop bias first 1 base vli

/-- punycode.hpp:258-277 `copy_plain_ascii_part`: two steps for each character of the input, one for the search for the last
delimiter, the other for copying. -/
def copyPlain (bidi : Bool) (input : Str) : CM (Except Err (List Nat × Str)) :=
  tick (1 + 2 * input.length) (ret (Puny.copyPlain bidi input))

/-- `std::u32string::insert (index, 1, c)`: the elements from `index` move. -/
def insertAt (l : List Nat) (index c : Nat) : CM (List Nat) :=
  tick (1 + (l.length - index)) (ret (Puny.insertAt l index c))

/-- punycode.hpp:279-314 the loop of `decode_loop`. -/
def decodeLoop : Nat → Str → List Nat → Nat → Nat → Nat → CM (Except Err (List Nat × Str))
  | 0, _, _, _, _, _ => ret (.error .diverge)
  | fuel + 1, input, output, n, index, bias =>
      tick 1 (match input with
      | [] => ret (.ok (.ok (output, [])))
      | _ :: _ =>
          andThen (decodeVli input index bias) fun
          | .error err => ret (.ok (.error err))
          | .ok (vli, rest) =>
              andThen (adapt ((vli + (szMod - index)) % szMod) ((output.length + 1) % szMod) (index == 0)) fun bias =>
              if vli / ((output.length + 1) % szMod) > (u32Mod - 1 + (szMod - n)) % szMod then ret (.ok (.error .overflow))
              else
                andThen (insertAt output (vli % ((output.length + 1) % szMod)) ((n + vli / ((output.length + 1) % szMod)) % szMod % u32Mod)) fun output' =>
                decodeLoop fuel rest output' ((n + vli / ((output.length + 1) % szMod)) % szMod)
                  ((vli % ((output.length + 1) % szMod) + 1) % szMod) bias)

/-- punycode.hpp:320-345 `decode`. -/
def decode (bidi : Bool) (input : Str) : CM (Except Err (List Nat × Str)) :=
  andThen (copyPlain bidi input) fun
  | .error err => ret (.ok (.error err))
  | .ok (lit, rest) => decodeLoop (rest.length + 1) rest lit initialN 0 initialBias

end Verif.Cost
