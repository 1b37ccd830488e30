import Verif.Model.PartsCodec
import Verif.Model.PunyCost

/-!
# `encode` and `decode` of parts with their running time

The functions of `include/uri/parts.hpp`, `include/uri/pctencode.hpp`, `include/uri/pctdecode.hpp` and
`lib/uri/parts.cpp` again, each with a count of the steps it takes: one for each turn of each loop, one
for each character written, copied or compared, one for each call of the transcoder of a transcoding view.  Everything else a
turn or a call does takes constant time.  Appending to a string counts one per character, as
the standard guarantees on average.  Punycode is counted as in `Verif/Model/PunyCost.lean`.

Forgetting the count gives the models of `Verif/Model/Pct.lean` and `Verif/Model/PartsCodec.lean`: that is proved in
`Verif/Proofs/CodecCost.lean`.
-/

namespace Verif.Cost.Codec
open Verif.Codec (Heap Store CpIter Field EncSize DecSize encSetOf bitPos setBit entry check fieldLast isNotDot idnaPrefix)

/-! ### Percent coding -/

/-- pctencode.hpp:47-52, pctencode.cpp:132-136 `needs_pctencode`: `std::any_of`, one step for each character looked at. -/
def needsPctencode (es : UInt8) : Str → CM Bool
  | [] => tick 1 (ret (.ok false))
  | c :: s => tick 1 (if needsPctencodeB c es then ret (.ok true) else needsPctencode es s)

/-- pctencode.hpp:56-70 `pctencode`: one step a turn and one for each character written. -/
def pctencode (es : UInt8) : Str → CM Str
  | [] => tick 1 (ret (.ok []))
  | c :: s =>
      tick 1 (if needsPctencodeB c es then
        andThen (ret (dec2hex ((c.toNat >>> 4) &&& 0xF))) fun hi =>
        andThen (ret (dec2hex (c.toNat &&& 0xF))) fun lo =>
        tick 3 (andThen (pctencode es s) fun rest => ret (.ok (0x25 :: hi :: lo :: rest)))
      else tick 1 (andThen (pctencode es s) fun rest => ret (.ok (c :: rest))))

/-- lib/uri/parts.cpp:24-33 `pct_encoded_size`. -/
def pctEncodedSize (s : Str) (es : UInt8) : CM Nat :=
  andThen (needsPctencode es s) fun b =>
    if !b then ret (.ok 0) else andThen (pctencode es s) fun sink => ret (.ok sink.length)

/-- pctdecode.hpp:345-352 `pctdecode`: the loop over `[it, last)`, one step a turn and one for each character written. -/
def pctIterLoop (s : Str) (last : PctIter) : Nat → PctIter → CM Str
  | 0, _ => ret (.error .diverge)
  | fuel + 1, it =>
      tick 1 (andThen (ret (it.eq last)) fun b =>
        if b then ret (.ok [])
        else
          andThen (ret (pctDeref s it.pos it.stop)) fun c =>
          tick 1 (andThen (ret (pctIncrement s it.pos it.stop)) fun pos =>
          andThen (pctIterLoop s last fuel { it with pos := pos }) fun rest => ret (.ok (c :: rest))))

/-- pctdecode.hpp:345-352 `pctdecode`. -/
def pctdecode (s : Str) : CM Str :=
  pctIterLoop s (Verif.pctdecoder 0 s.length).2 (s.length + 1) (Verif.pctdecoder 0 s.length).1

/-- pctdecode.hpp:97-206, parts.hpp:368 `std::ranges::copy (str | views::pctdecode, out)`, as `pctIterLoop`. -/
def pctViewLoop (s : Str) (last : Nat) : Nat → Nat → CM Str
  | 0, _ => ret (.error .diverge)
  | fuel + 1, pos =>
      tick 1 (if pos == last then ret (.ok [])
        else
          andThen (ret (pctDeref s pos s.length)) fun c =>
          tick 1 (andThen (ret (pctIncrement s pos s.length)) fun pos =>
          andThen (pctViewLoop s last fuel pos) fun rest => ret (.ok (c :: rest))))

/-- parts.hpp:368. -/
def pctViewCopy (s : Str) : CM Str := pctViewLoop s s.length (s.length + 1) 0

/-- lib/uri/parts.cpp:35-40 `pct_decoded_size`; `needs_pctdecode` (pctdecode.hpp:92-95) looks at each character until it finds
a percent sign. -/
def pctDecodedSize (s : Str) : CM Nat :=
  tick (1 + (s.takeWhile (fun c => !(c == 0x25))).length)
    (if !needsPctdecode s then ret (.ok 0) else andThen (pctdecode s) fun r => ret (.ok r.length))

/-! ### Transcoding views -/

section
variable {ι ο : Type} (T : Icu.Transcoder ι ο) (cap : Nat)

/-- icubaby.hpp:2214-2218: the loop of `fill`: one step a turn. -/
def fillLoop : T.σ → List ι → CM (T.σ × List ι × List ο)
  | st, [] => ret (.ok (st, [], []))
  | st, c :: s =>
      tick 1 (andThen (ret (T.step st c)) fun r =>
        if r.2.length > cap then ret (.error .assertion)
        else if r.2.isEmpty then fillLoop r.1 s
        else ret (.ok (r.1, s, r.2)))

/-- icubaby.hpp:2204-2231 `fill`: those of its loop, and one for `end_cp`. -/
def fill (it : Icu.ViewIt ι ο T) : CM (Icu.ViewIt ι ο T) :=
  tick 1 (if !it.buf.isEmpty then ret (.error .assertion)
  else
    andThen (fillLoop T cap it.tr it.next) fun r =>
    andThen (ret (if r.2.1.isEmpty then T.endCp r.1 else .ok (r.1, []))) fun e =>
    if (r.2.2 ++ e.2).length > cap then ret (.error .assertion)
    else ret (.ok { current := it.next, next := r.2.1, buf := r.2.2 ++ e.2, tr := e.1, parentWf := it.parentWf && T.wellFormed e.1 }))

/-- icubaby.hpp:2036, 2088-2096 `begin`. -/
def viewBegin (s : List ι) : CM (Icu.ViewIt ι ο T) :=
  tick 1 (if s.isEmpty then ret (.ok { current := s, next := s, buf := [], tr := T.init, parentWf := true })
  else fill T cap { current := s, next := s, buf := [], tr := T.init, parentWf := true })

/-- icubaby.hpp:2106-2113 `operator++`. -/
def incr (it : Icu.ViewIt ι ο T) : CM (Icu.ViewIt ι ο T) :=
  match it.buf with
  | [] => ret (.error .assertion)
  | _ :: b => if b.isEmpty then fill T cap { it with buf := b } else ret (.ok { it with buf := b })

/-- A loop from an iterator to the end of the view: one step a turn, one for the element, and those of `operator++`. -/
def viewLoop : Nat → Icu.ViewIt ι ο T → CM (Icu.ViewIt ι ο T × List ο)
  | 0, _ => ret (.error .diverge)
  | fuel + 1, it =>
      tick 1 (if it.atEnd then ret (.ok (it, []))
      else
        andThen (ret it.deref) fun c =>
        tick 1 (andThen (incr T cap it) fun it =>
        andThen (viewLoop fuel it) fun r => ret (.ok (r.1, c :: r.2))))

/-- A loop over a transcoding view. -/
def viewRun (s : List ι) : CM (List ο × Bool) :=
  andThen (viewBegin T cap s) fun it =>
  andThen (viewLoop T cap (cap * s.length + 1) it) fun r => ret (.ok (r.2, r.1.parentWf))

end

/-! ### Host names -/

/-- parts.hpp:118-149: one pass over `subrange{it, end} | take_while (is_not_dot)`, as `Verif.Codec.labelLoop`. -/
def labelLoop : Nat → CpIter → CM (List Nat × CpIter)
  | 0, _ => ret (.error .diverge)
  | fuel + 1, it =>
      tick 1 (if it.atEnd then ret (.ok ([], it))
      else
        andThen (ret it.deref) fun c =>
        if isNotDot c then
          tick 1 (andThen (incr Icu.t8_32 Icu.maxOut32 it) fun it =>
          andThen (labelLoop fuel it) fun r => ret (.ok (c :: r.1, r.2)))
        else ret (.ok ([], it)))

/-- punycode.hpp:131-182: how often `encode` goes through its range: once, and once more for each different code point that
is not basic, unless it returns early. -/
def passes (label : List Nat) : Nat := 1 + (Puny.sortAndRemoveDuplicates (label.filter (fun c => !Puny.isBasic c))).length

/-- parts.hpp:131-146: the loop of `puny_encoded`.  Each pass of `punycode::encode` over the range transcodes the label again:
the steps of one pass are counted `passes` times.  The label and the prefix are then copied. -/
def punyEncodedLoop (bound : Nat) : Nat → CpIter → CM (Str × Bool)
  | 0, _ => ret (.error .diverge)
  | fuel + 1, it =>
      tick 1 (andThen (labelLoop bound it) fun l =>
      tick ((passes l.1 - 1) * (labelLoop bound it).2) (andThen (Cost.encode l.1 true) fun e =>
      tick (((if e.2 then idnaPrefix else []) ++ e.1).length + 1)
        (if l.2.atEnd then ret (.ok ((if e.2 then idnaPrefix else []) ++ e.1, e.2))
        else
          andThen (incr Icu.t8_32 Icu.maxOut32 l.2) fun it =>
          andThen (punyEncodedLoop bound fuel it) fun r =>
          ret (.ok (((if e.2 then idnaPrefix else []) ++ e.1) ++ 0x2E :: r.1, e.2 || r.2)))))

/-- parts.hpp:118-149 `puny_encoded`. -/
def punyEncoded (s : Str) : CM (Str × Bool) :=
  andThen (viewBegin Icu.t8_32 Icu.maxOut32 s) fun it => punyEncodedLoop (s.length + 1) (s.length + 1) it

/-- parts.hpp:151-160 `puny_encoded_size`. -/
def punyEncodedSize (s : Str) : CM Nat :=
  andThen (punyEncoded s) fun r => ret (.ok (if r.2 then r.1.length else 0))

/-- parts.hpp:205-216: what follows a label in the loop of `puny_decoded`: the end, or a dot and the other labels. -/
def punyDecodedNext (loop : Str → CM (Str × Except Puny.Err Bool)) (out first : Str) (enc : Bool) : CM (Str × Except Puny.Err Bool) :=
  match first with
  | [] => ret (.ok (out, .ok enc))
  | _ :: first => tick 1 (andThen (loop first) fun r => ret (.ok (out ++ 0x2E :: r.1, r.2.map (enc || ·))))

/-- parts.hpp:185-216: the loop of `puny_decoded`.  Five steps for `starts_with`, one for each character of the label (to
find its end or to copy it), and those of `punycode::decode` and of the transcoding view. -/
def punyDecodedLoop : Nat → Str → CM (Str × Except Puny.Err Bool)
  | 0, _ => ret (.error .diverge)
  | fuel + 1, first =>
      tick (6 + (first.takeWhile (fun c => isNotDot c.toNat)).length)
        (if startsWith (· == ·) id id (first.takeWhile (fun c => isNotDot c.toNat)) idnaPrefix then
          andThen (Cost.decode false ((first.takeWhile (fun c => isNotDot c.toNat)).drop idnaPrefix.length)) fun d =>
          match d with
          | .error err => ret (.ok ([], .error err))
          | .ok r =>
              andThen (viewRun Icu.t32_8 Icu.maxOut8 r.1) fun o =>
              punyDecodedNext (punyDecodedLoop fuel) o.1 (r.2 ++ first.drop (first.takeWhile (fun c => isNotDot c.toNat)).length) true
        else punyDecodedNext (punyDecodedLoop fuel) (first.takeWhile (fun c => isNotDot c.toNat))
          (first.drop (first.takeWhile (fun c => isNotDot c.toNat)).length) false)

/-- parts.hpp:172-218 `puny_decoded`. -/
def punyDecoded (s : Str) : CM (Str × Except Puny.Err Bool) := punyDecodedLoop (s.length + 1) s

/-- parts.hpp:220-234 `puny_decoded_size`. -/
def punyDecodedSize (s : Str) : CM (Except Puny.Err Nat) :=
  andThen (punyDecoded s) fun r =>
    match r.2 with
    | .ok anyEncoded => ret (.ok (.ok (if anyEncoded then r.1.length else 0)))
    | .error err => ret (.ok (.error err))

/-! ### Visiting the strings of a `parts` value -/

section
variable {σ : Type} (f : SV → Nat → Field → σ → CM (SV × σ))

/-- parts.hpp:78-80, …: a string that is present. -/
def visit (fld : Field) (v : SV) (st : σ) : CM (SV × σ) :=
  tick 1 (if v.ptr ≠ 0 then f v 0 fld st else ret (.ok (v, st)))

/-- parts.hpp:78-80, …: an optional string. -/
def visitOpt (fld : Field) (v : Option SV) (st : σ) : CM (Option SV × σ) :=
  match v with
  | none => tick 1 (ret (.ok (none, st)))
  | some v => andThen (visit f fld v st) fun r => ret (.ok (some r.1, r.2))

/-- parts.hpp:81-87: the segments of the path: one step a turn. -/
def visitSegments : List SV → Nat → σ → CM (List SV × σ)
  | [], _, st => ret (.ok ([], st))
  | v :: vs, count, st =>
      tick 1 (if v.ptr ≠ 0 then
        andThen (f v count .path st) fun r =>
        andThen (visitSegments vs ((count + 1) % u32Mod) r.2) fun rs => ret (.ok (r.1 :: rs.1, rs.2))
      else andThen (visitSegments vs count st) fun rs => ret (.ok (v :: rs.1, rs.2)))

/-- parts.hpp:88-99: the authority. -/
def visitAuthority (a : Option (Authority SV)) (st : σ) : CM (Option (Authority SV) × σ) :=
  match a with
  | none => tick 1 (ret (.ok (none, st)))
  | some a =>
      tick 1 (andThen (visitOpt f .userinfo a.userinfo st) fun u =>
      andThen (visit f .host a.host u.2) fun h =>
      andThen (visitOpt f .port a.port h.2) fun p => ret (.ok (some ⟨u.1, h.1, p.1⟩, p.2)))

/-- parts.hpp:75-106 `parts_strings`. -/
def partsStrings (p : Parts SV) (st : σ) : CM (Parts SV × σ) :=
  tick 1 (andThen (visitOpt f .scheme p.scheme st) fun s =>
  andThen (visitSegments f p.path.segments 0 s.2) fun g =>
  andThen (visitAuthority f p.authority g.2) fun a =>
  andThen (visitOpt f .query p.query a.2) fun q =>
  andThen (visitOpt f .fragment p.fragment q.2) fun t =>
  ret (.ok (⟨s.1, a.1, ⟨p.path.absolute, g.1⟩, q.1, t.1⟩, t.2)))

end

/-! ### `encode` and `decode` -/

/-- parts.hpp:257-259. -/
def encodedSize (fld : Field) (s : Str) : CM Nat := if fld = .host then punyEncodedSize s else pctEncodedSize s (encSetOf fld)

/-- parts.hpp:252-264. -/
def encodeSize (str : SV) (index : Nat) (fld : Field) (st : EncSize) : CM (SV × EncSize) :=
  tick 1 (andThen (ret (entry str index fld)) fun _ =>
  andThen (encodedSize fld str.chars) fun extra =>
  ret (.ok (str, { required := st.required + extra, bits := setBit st.bits (bitPos fld index) extra })))

/-- parts.hpp:268-298: the host.  What it writes to the store is counted in `punyEncoded`; with the assertions compiled in,
the size is computed again, which is counted here. -/
def encodeWriteHost (hp : Heap) (str : SV) (store : Store) : CM (SV × Store) :=
  andThen (punyEncodedSize str.chars) fun n =>
  andThen (ret (check (n != 0))) fun _ =>
  andThen (ret (check (store.cap ≥ store.chars.length + n))) fun _ =>
  andThen (punyEncoded str.chars) fun out =>
  andThen (ret (check (store.chars.length + n == (store.pushAll hp out.1).chars.length))) fun _ =>
  ret (.ok (⟨(store.pushAll hp out.1).addr + store.chars.length, (store.pushAll hp out.1).chars.drop store.chars.length⟩, store.pushAll hp out.1))

/-- parts.hpp:268-298: the other strings. -/
def encodeWritePct (hp : Heap) (pos : Nat) (str : SV) (fld : Field) (store : Store) : CM (SV × Store) :=
  andThen (needsPctencode (encSetOf fld) str.chars) fun b =>
  andThen (ret (check (fld = .path || b))) fun _ =>
  if pos ≥ fieldLast ∧ b = false then ret (.ok (str, store))
  else
    andThen (pctEncodedSize str.chars (encSetOf fld)) fun n =>
    andThen (ret (check (store.cap ≥ store.chars.length + n))) fun _ =>
    andThen (pctencode (encSetOf fld) str.chars) fun out =>
    andThen (ret (check (store.chars.length + n == (store.pushAll hp out).chars.length))) fun _ =>
    ret (.ok (⟨(store.pushAll hp out).addr + store.chars.length, (store.pushAll hp out).chars.drop store.chars.length⟩, store.pushAll hp out))

/-- parts.hpp:268-298. -/
def encodeWrite (hp : Heap) (bits : Nat → Bool) (str : SV) (index : Nat) (fld : Field) (store : Store) : CM (SV × Store) :=
  tick 1 (andThen (ret (entry str index fld)) fun _ =>
  if bitPos fld index < fieldLast ∧ bits (bitPos fld index) = false then ret (.ok (str, store))
  else if fld = .host then encodeWriteHost hp str store
  else encodeWritePct hp (bitPos fld index) str fld store)

/-- parts.hpp:238-301 `encode`. -/
def encode (hp : Heap) (store : Store) (p : Parts SV) : CM (Parts SV × Store) :=
  tick 1 (andThen (partsStrings encodeSize p ⟨0, fun _ => false⟩) fun a =>
  andThen (partsStrings (encodeWrite hp a.2.bits) a.1 (store.clear.reserve hp a.2.required)) fun b =>
  andThen (ret (check (a.2.required == b.2.chars.length))) fun _ => ret (.ok (b.1, b.2)))

/-- parts.hpp:324-336. -/
def decodedSize (fld : Field) (s : Str) : CM (Except Puny.Err Nat) :=
  if fld = .host then punyDecodedSize s else andThen (pctDecodedSize s) fun n => ret (.ok (.ok n))

/-- parts.hpp:316-343. -/
def decodeSize (str : SV) (index : Nat) (fld : Field) (st : DecSize) : CM (SV × DecSize) :=
  tick 1 (andThen (ret (entry str index fld)) fun _ =>
  match st.error with
  | some _ => ret (.ok (str, st))
  | none =>
      andThen (decodedSize fld str.chars) fun r =>
      match r with
      | .ok extra => ret (.ok (str, { required := st.required + extra, error := none, bits := setBit st.bits (bitPos fld index) extra }))
      | .error err => ret (.ok (str, { required := st.required, error := some err, bits := setBit st.bits (bitPos fld index) 0 })))

/-- parts.hpp:349-371: the host. -/
def decodeWriteHost (hp : Heap) (str : SV) (store : Store) : CM (SV × Store) :=
  andThen (punyDecoded str.chars) fun out =>
  ret (.ok (⟨(store.pushAll hp out.1).addr + store.chars.length, (store.pushAll hp out.1).chars.drop store.chars.length⟩, store.pushAll hp out.1))

/-- parts.hpp:349-371: the other strings. -/
def decodeWritePct (hp : Heap) (pos : Nat) (str : SV) (store : Store) : CM (SV × Store) :=
  andThen (pctDecodedSize str.chars) fun n =>
  if pos ≥ fieldLast ∧ n = 0 then ret (.ok (str, store))
  else
    andThen (ret (check (n > 0))) fun _ =>
    andThen (pctViewCopy str.chars) fun out =>
    ret (.ok (⟨(store.pushAll hp out).addr + store.chars.length, (store.pushAll hp out).chars.drop store.chars.length⟩, store.pushAll hp out))

/-- parts.hpp:349-371. -/
def decodeWrite (hp : Heap) (bits : Nat → Bool) (str : SV) (index : Nat) (fld : Field) (store : Store) : CM (SV × Store) :=
  tick 1 (andThen (ret (entry str index fld)) fun _ =>
  andThen (ret (check (fld.val < fieldLast))) fun _ =>
  if bitPos fld index < fieldLast ∧ bits (bitPos fld index) = false then ret (.ok (str, store))
  else if fld = .host then decodeWriteHost hp str store
  else decodeWritePct hp (bitPos fld index) str store)

/-- parts.hpp:303-374 `decode`. -/
def decode (hp : Heap) (store : Store) (p : Parts SV) : CM (Except Puny.Err (Parts SV) × Store) :=
  tick 1 (andThen (partsStrings decodeSize p ⟨0, none, fun _ => false⟩) fun a =>
  match a.2.error with
  | some err => ret (.ok (.error err, store.clear.reserve hp a.2.required))
  | none =>
      andThen (partsStrings (decodeWrite hp a.2.bits) a.1 (store.clear.reserve hp a.2.required)) fun b =>
      andThen (ret (check (a.2.required == b.2.chars.length))) fun _ => ret (.ok (.ok b.1, b.2)))

end Verif.Cost.Codec
