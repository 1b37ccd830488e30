import Verif.Model.PartsCodec

/-!
# Percent coders and Punycode writing to an output iterator that throws

include/uri/pctencode.hpp, pctdecode.hpp, punycode.hpp and parts.hpp again: `*(out++) = c` may throw, and so may a request for memory
(strings that grow), as two oracles say.  No function of these files that writes to an output iterator is declared `noexcept`.
-/

namespace Verif.Wr

/-- What has been written, how many writes have been tried and how many requests for memory made. -/
structure S (ο : Type) where
  out : List ο
  tries : Nat
  allocs : Nat
  deriving DecidableEq, Repr

/-- Which writes and which requests for memory throw. -/
structure Faults where
  write : Nat → Bool
  alloc : Nat → Bool

/-- What a function does: its result, or `none` if an exception leaves it. -/
abbrev W (ο β : Type) := Faults → S ο → M (Option β × S ο)

section
variable {ο β γ : Type}

def ret (b : β) : W ο β := fun _ s => .ok (some b, s)

/-- One statement after the other. -/
def andThen (x : W ο β) (f : β → W ο γ) : W ο γ := fun o s =>
  match x o s with
  | .error e => .error e
  | .ok (none, s') => .ok (none, s')
  | .ok (some b, s') => f b o s'

/-- A computation that may be undefined but neither writes nor throws. -/
def lift (x : M β) : W ο β := fun _ s =>
  match x with
  | .error e => .error e
  | .ok b => .ok (some b, s)

/-- `*(out++) = c`. -/
def put (c : ο) : W ο Unit := fun o s =>
  if o.write s.tries then .ok (none, { s with tries := s.tries + 1 }) else .ok (some (), { s with out := s.out ++ [c], tries := s.tries + 1 })

/-- A request for memory. -/
def alloc : W ο Unit := fun o s => .ok (if o.alloc s.allocs then none else some (), { s with allocs := s.allocs + 1 })

/-- `std::copy` of a string. -/
def puts : List ο → W ο Unit
  | [] => ret ()
  | c :: cs => andThen (put c) fun _ => puts cs

end

/-! ### Percent coding -/

/-- pctencode.hpp:56-70 `pctencode (first, last, out, encodeset)`, as `pctencodeM`. -/
def pctencode (es : UInt8) : Str → W UInt8 Unit
  | [] => ret ()
  | c :: s =>
      if needsPctencodeB c es then
        andThen (put 0x25) fun _ =>
        andThen (lift (dec2hex ((c.toNat >>> 4) &&& 0xF))) fun hi =>
        andThen (put hi) fun _ =>
        andThen (lift (dec2hex (c.toNat &&& 0xF))) fun lo =>
        andThen (put lo) fun _ => pctencode es s
      else andThen (put c) fun _ => pctencode es s

/-- `std::copy (first, last, out)` of `pctdecode_iterator`s (pctdecode.hpp:258-297), as `pctIterLoop`. -/
def pctdecodeLoop (s : Str) (last : PctIter) : Nat → PctIter → W UInt8 Unit
  | 0, _ => lift (.error .diverge)
  | fuel + 1, it =>
      andThen (lift (it.eq last)) fun e =>
      if e then ret ()
      else
        andThen (lift (pctDeref s it.pos it.stop)) fun c =>
        andThen (put c) fun _ =>
        andThen (lift (pctIncrement s it.pos it.stop)) fun pos => pctdecodeLoop s last fuel { it with pos := pos }

/-- `std::copy` of a `pctdecoder` (pctdecode.hpp:323-340). -/
def pctdecode (s : Str) : W UInt8 Unit := pctdecodeLoop s (pctdecoder 0 s.length).2 (s.length + 1) (pctdecoder 0 s.length).1

/-! ### Punycode -/

/-- punycode.hpp:93-107 the loop of `encode_vli`, as `Puny.encodeVliLoop`. -/
def encodeVliLoop (bias : Nat) : Nat → Nat → Nat → W UInt8 Unit
  | 0, _, _ => lift (.error .diverge)
  | fuel + 1, k, q =>
      if q < Puny.clamp k bias then andThen (lift (Puny.encodeDigit (q % u32Mod))) put
      else if Puny.base < Puny.clamp k bias then lift (.error .assertion)
      else
        andThen (lift (Puny.encodeDigit ((Puny.clamp k bias + (q - Puny.clamp k bias) % (Puny.base - Puny.clamp k bias)) % u32Mod))) fun d =>
        andThen (put d) fun _ => encodeVliLoop bias fuel ((k + Puny.base) % u32Mod) ((q - Puny.clamp k bias) / (Puny.base - Puny.clamp k bias))

/-- `delta`, `bias` and `i` (punycode.hpp:154-160). -/
structure Vars where
  delta : Nat
  bias : Nat
  i : Nat
  deriving DecidableEq, Repr

/-- punycode.hpp:166-176 the lambda applied to a code point of the input, as `Puny.encStep`. -/
def encStep (numBasics n : Nat) (v : Vars) (c : Nat) : W UInt8 Vars :=
  if c < n then ret { v with delta := (v.delta + 1) % szMod }
  else if c = n then
    andThen (encodeVliLoop v.bias (v.delta + 1) Puny.base v.delta) fun _ =>
    andThen (lift (Puny.adapt v.delta ((v.i + 1) % szMod) (v.i == numBasics))) fun b =>
    ret ⟨0, b, (v.i + 1) % szMod⟩
  else ret v

/-- punycode.hpp:166-176 `std::ranges::for_each (range, …)`, as `Puny.encPass`. -/
def encPass (numBasics n : Nat) : List Nat → Vars → W UInt8 Vars
  | [], v => ret v
  | c :: cs, v => andThen (encStep numBasics n v c) fun v => encPass numBasics n cs v

/-- punycode.hpp:161-179, as `Puny.encLoop`. -/
def encLoop (numBasics : Nat) (range : List Nat) : List Nat → Nat → Vars → W UInt8 Vars
  | [], _, v => ret v
  | m :: ms, n, v =>
      if m < n then lift (.error .assertion)
      else
        andThen (encPass numBasics m range { v with delta := (v.delta + ((m - n) * ((v.i + 1) % szMod)) % szMod) % szMod }) fun v =>
        encLoop numBasics range ms ((m + 1) % szMod) { v with delta := (v.delta + 1) % szMod }

/-- punycode.hpp:140-147: the basic code points are written, the others collected (`non_basic += cp` may have to allocate). -/
def basicPass : List Nat → W UInt8 Unit
  | [] => ret ()
  | c :: cs =>
      if Puny.isBasic c then andThen (put (UInt8.ofNat c)) fun _ => basicPass cs
      else andThen alloc fun _ => basicPass cs

/-- punycode.hpp:131-182 `encode`, as `Puny.encode`: the flag. -/
def punyEncode (range : List Nat) (allowPlain : Bool) : W UInt8 Bool :=
  andThen (basicPass range) fun _ =>
  if allowPlain && (range.filter (fun c => !Puny.isBasic c)).isEmpty then ret false
  else
    andThen (if (range.filter Puny.isBasic).length > 0 then put Puny.delimiter else ret ()) fun _ =>
    andThen (encLoop (range.filter Puny.isBasic).length range (Puny.sortAndRemoveDuplicates (range.filter (fun c => !Puny.isBasic c))) Puny.initialN
      ⟨0, Puny.initialBias, (range.filter Puny.isBasic).length⟩) fun _ =>
    ret !(Puny.sortAndRemoveDuplicates (range.filter (fun c => !Puny.isBasic c))).isEmpty

/-! ### Host names -/

open Codec

/-- parts.hpp:131-146, as `punyEncodedLoop`.  `segment` is a string of its own: all the requests for memory made while a label is
encoded are taken as one, none of them being made after a write to `out` has begun. -/
def punyEncodedLoop (bound : Nat) : Nat → CpIter → W UInt8 Bool
  | 0, _ => lift (.error .diverge)
  | fuel + 1, it =>
      andThen (lift (labelLoop bound it)) fun x =>
      andThen alloc fun _ =>
      andThen (lift (Puny.encode x.1 true)) fun y =>
      andThen (if y.2 then puts idnaPrefix else ret ()) fun _ =>
      andThen (puts y.1) fun _ =>
      if x.2.atEnd then ret y.2
      else
        andThen (put 0x2E) fun _ =>
        andThen (lift (x.2.incr Icu.t8_32 Icu.maxOut32)) fun it =>
        andThen (punyEncodedLoop bound fuel it) fun b => ret (y.2 || b)

/-- parts.hpp:118-149 `puny_encoded`. -/
def punyEncoded (s : Str) : W UInt8 Bool :=
  andThen (lift (cpBegin s)) fun it => punyEncodedLoop (s.length + 1) (s.length + 1) it

/-- `std::ranges::copy` of a transcode view, as `Icu.viewLoop`. -/
def copyView : Nat → Icu.ViewIt Nat UInt8 Icu.t32_8 → W UInt8 Unit
  | 0, _ => lift (.error .diverge)
  | fuel + 1, it =>
      if it.atEnd then ret ()
      else
        andThen (lift it.deref) fun c =>
        andThen (put c) fun _ =>
        andThen (lift (it.incr Icu.t32_8 Icu.maxOut8)) fun it => copyView fuel it

/-- parts.hpp:201-203: `std::ranges::copy (dr->str | transcode<char32_t, char8_t>, out)`. -/
def copyTranscoded (str : List Nat) : W UInt8 Unit :=
  andThen (lift (Icu.viewBegin Icu.t32_8 Icu.maxOut8 str)) fun it => copyView (Icu.maxOut8 * str.length + 1) it

/-- parts.hpp:185-216, as `punyDecodedLoop`; the requests for memory of `punycode::decode` are taken as one, and nothing is written
before it returns. -/
def punyDecodedLoop : Nat → Str → W UInt8 (Except Puny.Err Bool)
  | 0, _ => lift (.error .diverge)
  | fuel + 1, first =>
      let view := first.takeWhile (fun c => isNotDot c.toNat)
      let sentinel := first.drop view.length
      let next (first : Str) (enc : Bool) : W UInt8 (Except Puny.Err Bool) :=
        match first with
        | [] => ret (.ok enc)
        | _ :: first =>
            andThen (put 0x2E) fun _ =>
            andThen (punyDecodedLoop fuel first) fun r => ret (r.map (enc || ·))
      if startsWith (· == ·) id id view idnaPrefix then
        andThen alloc fun _ =>
        andThen (lift (Puny.decode false (view.drop idnaPrefix.length))) fun d =>
        match d with
        | .error err => ret (.error err)
        | .ok (str, rest) => andThen (copyTranscoded str) fun _ => next (rest ++ sentinel) true
      else andThen (puts view) fun _ => next sentinel false

/-- parts.hpp:172-218 `puny_decoded`. -/
def punyDecoded (s : Str) : W UInt8 (Except Puny.Err Bool) := punyDecodedLoop (s.length + 1) s

end Verif.Wr
