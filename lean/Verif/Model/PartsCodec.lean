import Verif.Model.Icubaby
import Verif.Model.Pct
import Verif.Model.Punycode
import Verif.Model.Uri

/-!
# Encoding and decoding of a whole URI

`include/uri/parts.hpp`.  An output iterator is the list of bytes written to it; `ro_sink_container`
(parts.hpp:56-70) counts them.  A sum of sizes is a natural number: `std::size_t` is taken to be wide
enough for the size of the store.  Views of `p` are taken not to refer to the store's own memory.
-/

namespace Verif.Codec

/-- parts.hpp:26-35 `parts_field`. -/
inductive Field
  | scheme | userinfo | host | port | query | fragment | path
  deriving DecidableEq, Repr

/-- parts.hpp:26-35: the underlying values. -/
def Field.val : Field → Nat
  | .scheme => 0
  | .userinfo => 1
  | .host => 2
  | .port => 3
  | .query => 4
  | .fragment => 5
  | .path => 6

/-- parts.hpp:34 `parts_field::last`, the size of the bit set. -/
def fieldLast : Nat := 32

/-- parts.hpp:37-50 `pctencode_set_from_parts_field`. -/
def encSetOf : Field → UInt8
  | .userinfo => EncSet.userinfo
  | .path => EncSet.path
  | .query => EncSet.query
  | .fragment => EncSet.fragment
  | _ => EncSet.none

/-- parts.hpp:52 `idna_prefix`. -/
def idnaPrefix : Str := b! "xn--"

/-! ### The store

A `std::vector<char>` or `std::string`. -/

/-- What the allocator and the container's growth policy do: the address of the n-th allocation, and
how much more it holds than was asked for. -/
structure Heap where
  addr : Nat → Nat
  slack : Nat → Nat

/-- A contiguous container of `char`: `data ()`, `capacity ()`, its elements, and the number of
allocations so far.  Views into it are invalid after another allocation. -/
structure Store where
  addr : Nat
  cap : Nat
  chars : Str
  allocs : Nat
  deriving DecidableEq, Repr

/-- `clear ()`: the capacity stays. -/
def Store.clear (st : Store) : Store := { st with chars := [] }

/-- `reserve (n)`. -/
def Store.reserve (hp : Heap) (st : Store) (n : Nat) : Store :=
  if n ≤ st.cap then st
  else { addr := hp.addr st.allocs, cap := n + hp.slack st.allocs, chars := st.chars, allocs := st.allocs + 1 }

/-- `push_back (c)`. -/
def Store.pushBack (hp : Heap) (st : Store) (c : UInt8) : Store :=
  let st := st.reserve hp (st.chars.length + 1)
  { st with chars := st.chars ++ [c] }

/-- Writing to `std::back_inserter (store)`. -/
def Store.pushAll (hp : Heap) (st : Store) (s : Str) : Store := s.foldl (fun st c => st.pushBack hp c) st

/-! ### Visiting the strings of a `parts` value -/

section
variable {σ : Type} (f : SV → Nat → Field → σ → M (SV × σ))

/-- parts.hpp:78-80, …: a string that is present, with index 0. -/
def visit (fld : Field) (v : SV) (st : σ) : M (SV × σ) :=
  if v.ptr ≠ 0 then f v 0 fld st else .ok (v, st)

/-- parts.hpp:78-80, …: an optional string. -/
def visitOpt (fld : Field) (v : Option SV) (st : σ) : M (Option SV × σ) :=
  match v with
  | none => .ok (none, st)
  | some v => do
      let (v, st) ← visit f fld v st
      .ok (some v, st)

/-- parts.hpp:81-87: the segments of the path; `count` is an `unsigned`. -/
def visitSegments : List SV → Nat → σ → M (List SV × σ)
  | [], _, st => .ok ([], st)
  | v :: vs, count, st =>
      if v.ptr ≠ 0 then do
        let (v, st) ← f v count .path st
        let (vs, st) ← visitSegments vs ((count + 1) % u32Mod) st
        .ok (v :: vs, st)
      else do
        let (vs, st) ← visitSegments vs count st
        .ok (v :: vs, st)

/-- parts.hpp:88-99: the authority. -/
def visitAuthority (a : Option (Authority SV)) (st : σ) : M (Option (Authority SV) × σ) :=
  match a with
  | none => .ok (none, st)
  | some a => do
      let (userinfo, st) ← visitOpt f .userinfo a.userinfo st
      let (host, st) ← visit f .host a.host st
      let (port, st) ← visitOpt f .port a.port st
      .ok (some ⟨userinfo, host, port⟩, st)

/-- parts.hpp:75-106 `parts_strings`; `st` is what the function object refers to. -/
def partsStrings (p : Parts SV) (st : σ) : M (Parts SV × σ) := do
  let (scheme, st) ← visitOpt f .scheme p.scheme st
  let (segments, st) ← visitSegments f p.path.segments 0 st
  let (authority, st) ← visitAuthority f p.authority st
  let (query, st) ← visitOpt f .query p.query st
  let (fragment, st) ← visitOpt f .fragment p.fragment st
  .ok (⟨scheme, authority, ⟨p.path.absolute, segments⟩, query, fragment⟩, st)

end

/-! ### Host names -/

/-- parts.hpp:114-116 `is_not_dot`. -/
def isNotDot (c : Nat) : Bool := c != 0x2E

/-- An iterator of the view of a byte string as UTF-32 (parts.hpp:247-250 `convert_to_utf32`; the
`transform` is the identity on bytes). -/
abbrev CpIter := Icu.ViewIt UInt8 Nat Icu.t8_32

/-- `convert_to_utf32 (str).begin ()`. -/
def cpBegin (s : Str) : M CpIter := Icu.viewBegin Icu.t8_32 Icu.maxOut32 s

/-- A loop over `subrange{it, end} | take_while (is_not_dot)`: the code points and the iterator where
it ends.  `punycode::encode` makes several such loops, each from a copy of the iterator, which all yield
the same.  `fuel` bounds the iterations. -/
def labelLoop : Nat → CpIter → M (List Nat × CpIter)
  | 0, _ => .error .diverge
  | fuel + 1, it =>
      if it.atEnd then .ok ([], it)
      else do
        let c ← it.deref
        if isNotDot c then do
          let it ← it.incr Icu.t8_32 Icu.maxOut32
          let (cs, it) ← labelLoop fuel it
          .ok (c :: cs, it)
        else .ok ([], it)

/-- parts.hpp:131-146: the loop of `puny_encoded`; `bound` bounds the iterations of each inner loop. -/
def punyEncodedLoop (bound : Nat) : Nat → CpIter → M (Str × Bool)
  | 0, _ => .error .diverge
  | fuel + 1, it => do
      let (label, it) ← labelLoop bound it
      let (segment, nonAscii) ← Puny.encode label true
      let out := (if nonAscii then idnaPrefix else []) ++ segment
      if it.atEnd then .ok (out, nonAscii)
      else do
        let it ← it.incr Icu.t8_32 Icu.maxOut32
        let (rest, anyNeeded) ← punyEncodedLoop bound fuel it
        .ok (out ++ 0x2E :: rest, nonAscii || anyNeeded)

/-- parts.hpp:118-149 `puny_encoded (convert_to_utf32 (str), out)`: what is written, and
`any_non_ascii`. -/
def punyEncoded (s : Str) : M (Str × Bool) := do
  let it ← cpBegin s
  punyEncodedLoop (s.length + 1) (s.length + 1) it

/-- parts.hpp:151-160 `puny_encoded_size`. -/
def punyEncodedSize (s : Str) : M Nat := do
  let (out, anyNonAscii) ← punyEncoded s
  .ok (if anyNonAscii then out.length else 0)

/-- parts.hpp:185-216: the loop of `puny_decoded` from `first`: what is written, and `any_encoded` or
the error.  (A `char` converted to `char32_t` is 0x2E iff it is the byte 0x2E.)  `punycode::decode` is
given an iterator and a sentinel of another type, whence the forward version of `find_last`. -/
def punyDecodedLoop : Nat → Str → M (Str × Except Puny.Err Bool)
  | 0, _ => .error .diverge
  | fuel + 1, first => do
      let view := first.takeWhile (fun c => isNotDot c.toNat)
      let sentinel := first.drop view.length
      let next (out : Str) (first : Str) (enc : Bool) : M (Str × Except Puny.Err Bool) :=
        match first with
        | [] => .ok (out, .ok enc)
        | _ :: first => do
            let (rest, r) ← punyDecodedLoop fuel first
            .ok (out ++ 0x2E :: rest, r.map (enc || ·))
      if startsWith (· == ·) id id view idnaPrefix then do
        match ← Puny.decode false (view.drop idnaPrefix.length) with
        | .error err => .ok ([], .error err)
        | .ok (str, rest) => do
            let (out, _) ← Icu.viewRun Icu.t32_8 Icu.maxOut8 str
            next out (rest ++ sentinel) true
      else next view sentinel false

/-- parts.hpp:172-218 `puny_decoded`. -/
def punyDecoded (s : Str) : M (Str × Except Puny.Err Bool) := punyDecodedLoop (s.length + 1) s

/-- parts.hpp:220-234 `puny_decoded_size`. -/
def punyDecodedSize (s : Str) : M (Except Puny.Err Nat) := do
  let (out, r) ← punyDecoded s
  match r with
  | .ok anyEncoded => .ok (.ok (if anyEncoded then out.length else 0))
  | .error err => .ok (.error err)

/-! ### `encode` -/

/-- `static_cast<pft> (field) + index`, computed as `unsigned`. -/
def bitPos (fld : Field) (index : Nat) : Nat := (fld.val + index) % u32Mod

/-- parts.hpp:260-262, 338-340: `needs_encoding.set (pos, …)`. -/
def setBit (bits : Nat → Bool) (pos extra : Nat) : Nat → Bool :=
  if pos < fieldLast then fun k => if k = pos then bits k || decide (extra ≠ 0) else bits k else bits

/-- parts.hpp:255-256 and the like: the assertions at the beginning of each function object. -/
def entry (str : SV) (index : Nat) (fld : Field) : M Unit :=
  if str.ptr = 0 then .error .assertion
  else if index = 0 ∨ fld = .path then .ok () else .error .assertion

/-- parts.hpp:257-259: the size of a string when encoded, 0 if it need not be. -/
def encodedSize (fld : Field) (s : Str) : M Nat :=
  if fld = .host then punyEncodedSize s else pctEncodedSize s (encSetOf fld)

/-- What the function object of the first pass refers to: `required_size` and `needs_encoding`. -/
structure EncSize where
  required : Nat
  bits : Nat → Bool

/-- parts.hpp:253-265. -/
def encodeSize (str : SV) (index : Nat) (fld : Field) (st : EncSize) : M (SV × EncSize) := do
  entry str index fld
  let extra ← encodedSize fld str.chars
  .ok (str, { required := st.required + extra, bits := setBit st.bits (bitPos fld index) extra })

/-- `assert (b)`. -/
def check (b : Bool) : M Unit := if b then .ok () else .error .assertion

/-- parts.hpp:268-298. -/
def encodeWrite (hp : Heap) (bits : Nat → Bool) (str : SV) (index : Nat) (fld : Field) (store : Store) : M (SV × Store) := do
  entry str index fld
  let pos := bitPos fld index
  if pos < fieldLast ∧ bits pos = false then .ok (str, store)
  else
    let originalSize := store.chars.length
    if fld = .host then do
      let n ← punyEncodedSize str.chars
      check (n != 0)
      check (store.cap ≥ originalSize + n)
      let (out, _) ← punyEncoded str.chars
      let store := store.pushAll hp out
      check (originalSize + n == store.chars.length)
      .ok (⟨store.addr + originalSize, store.chars.drop originalSize⟩, store)
    else do
      let es := encSetOf fld
      check (fld = .path || needsPctencode str.chars es)
      if pos ≥ fieldLast ∧ needsPctencode str.chars es = false then .ok (str, store)
      else do
        let n ← pctEncodedSize str.chars es
        check (store.cap ≥ originalSize + n)
        let out ← pctencodeM es str.chars
        let store := store.pushAll hp out
        check (originalSize + n == store.chars.length)
        .ok (⟨store.addr + originalSize, store.chars.drop originalSize⟩, store)

/-- parts.hpp:238-301 `encode`: the result, and the store afterwards. -/
def encode (hp : Heap) (store : Store) (p : Parts SV) : M (Parts SV × Store) := do
  let store := store.clear
  let (result, st) ← partsStrings encodeSize p ⟨0, fun _ => false⟩
  let store := store.reserve hp st.required
  let (result, store) ← partsStrings (encodeWrite hp st.bits) result store
  check (st.required == store.chars.length)
  .ok (result, store)

/-! ### `decode` -/

/-- What the function object of the first pass refers to: `required_size`, `error`, `needs_encoding`. -/
structure DecSize where
  required : Nat
  error : Option Puny.Err
  bits : Nat → Bool

/-- parts.hpp:324-336: the size of a string when decoded, 0 if it need not be; or the error. -/
def decodedSize (fld : Field) (s : Str) : M (Except Puny.Err Nat) :=
  if fld = .host then punyDecodedSize s
  else do
    let n ← pctDecodedSize s
    .ok (.ok n)

/-- parts.hpp:316-343. -/
def decodeSize (str : SV) (index : Nat) (fld : Field) (st : DecSize) : M (SV × DecSize) := do
  entry str index fld
  match st.error with
  | some _ => .ok (str, st)
  | none => do
      match ← decodedSize fld str.chars with
      | .ok extra => .ok (str, { required := st.required + extra, error := none, bits := setBit st.bits (bitPos fld index) extra })
      | .error err => .ok (str, { required := st.required, error := some err, bits := setBit st.bits (bitPos fld index) 0 })

/-- parts.hpp:349-371. -/
def decodeWrite (hp : Heap) (bits : Nat → Bool) (str : SV) (index : Nat) (fld : Field) (store : Store) : M (SV × Store) := do
  entry str index fld
  check (fld.val < fieldLast)
  let pos := bitPos fld index
  if pos < fieldLast ∧ bits pos = false then .ok (str, store)
  else
    let originalSize := store.chars.length
    if fld = .host then do
      let (out, _) ← punyDecoded str.chars
      let store := store.pushAll hp out
      .ok (⟨store.addr + originalSize, store.chars.drop originalSize⟩, store)
    else do
      let n ← pctDecodedSize str.chars
      if pos ≥ fieldLast ∧ n = 0 then .ok (str, store)
      else do
        check (n > 0)
        let out ← pctViewCopy str.chars
        let store := store.pushAll hp out
        .ok (⟨store.addr + originalSize, store.chars.drop originalSize⟩, store)

/-- parts.hpp:303-374 `decode`: the result or the error, and the store afterwards. -/
def decode (hp : Heap) (store : Store) (p : Parts SV) : M (Except Puny.Err (Parts SV) × Store) := do
  let store := store.clear
  let (result, st) ← partsStrings decodeSize p ⟨0, none, fun _ => false⟩
  let store := store.reserve hp st.required
  match st.error with
  | some err => .ok (.error err, store)
  | none => do
      let (result, store) ← partsStrings (decodeWrite hp st.bits) result store
      check (st.required == store.chars.length)
      .ok (.ok result, store)

end Verif.Codec
