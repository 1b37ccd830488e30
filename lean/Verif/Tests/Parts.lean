import Verif.Props.PartsCodec

/-!
# The project's own unit tests, run on the model: `unittests/uri/test_parts.cpp`

Tests of the model, not proofs of properties.  Inputs given there in UTF-32 are given here in UTF-8: the model of
`puny_encoded` is that of its use by `encode`, on a UTF-8 host name read through the transcoding view.
-/

namespace Verif.Tests
open Codec

/-- `München` in UTF-8. -/
def munchen : Str := [0x4D, 0xC3, 0xBC, 0x6E, 0x63, 0x68, 0x65, 0x6E]
/-- A view of a literal. -/
def w (s : Str) : SV := ⟨4096, s⟩

/-! `Parts.PunyEncodedSizeNoNonAscii`, `PunyDecodedSizeNoNonAscii`, `PunyEncodedThreeParts`, `PunyEncodedMuchenDe`,
`PunyEncodedMuchenDotGrinningFace`, `PunyEncodedSizeMuchenDe` -/
example : (punyEncodedSize (b! "a.b")).toOption = some 0 := by decide +kernel
example : (match punyDecodedSize (b! "a.b") with | .ok (.ok n) => n == 0 | _ => false) = true := by decide +kernel
example : (punyEncoded (b! "aaa.bbb.ccc")).toOption.map Prod.fst = some (b! "aaa.bbb.ccc") := by decide +kernel
example : (punyEncoded (munchen ++ b! ".de")).toOption.map Prod.fst = some (b! "xn--Mnchen-3ya.de") := by decide +kernel
example : (punyEncoded (munchen ++ [0x2E, 0xCF, 0x80])).toOption.map Prod.fst = some (b! "xn--Mnchen-3ya.xn--1xa") := by decide +kernel
example : (punyEncodedSize (munchen ++ b! ".de")).toOption = some 17 := by decide +kernel

/-- `uri::encode` and the host it returns. -/
def hostOf (s : Str) : Option (Option Str) :=
  (encode heap0 store0 ⟨none, some ⟨none, w s, none⟩, ⟨false, []⟩, none, none⟩).toOption.map fun r => r.1.authority.map fun a => a.host.chars
/-! `Parts.PunyEncodedMunchenGrinningFace` -/
example : hostOf (munchen ++ [0x2E, 0xF0, 0x9F, 0x98, 0x80]) = some (some (b! "xn--Mnchen-3ya.xn--e28h")) := by decide +kernel
/-! `Parts.PunyDecoded`, `PunyDecodedMuchenDe` -/
example : (match punyDecoded (b! "aaa.bbb.ccc") with | .ok (o, .ok b) => o == b! "aaa.bbb.ccc" && b == false | _ => false) = true := by decide +kernel
example : (match punyDecoded (b! "xn--Mnchen-3ya.de") with | .ok (o, .ok b) => o == munchen ++ b! ".de" && b == true | _ => false) = true := by
  decide +kernel

/-! `Parts.AllSetButNothingToEncode` -/
/-- The input of that test. -/
def allSet : Parts SV := ⟨some (w (b! "https")), some ⟨some (w (b! "user")), w (b! "host"), some (w (b! "1234"))⟩, ⟨true, [w (b! "a"), w (b! "b")]⟩,
  some (w (b! "query")), some (w (b! "fragment"))⟩
example : (Parts.valid ⟨true⟩ allSet).toOption = some true := by decide +kernel
example : ((encode heap0 store0 allSet).toOption.map fun r => (decide (r.1.text = allSet.text), r.2.chars.length)) = some (true, 0) := by decide +kernel
example : (match encode heap0 store0 allSet with | .ok r => (r.1.valid ⟨true⟩).toOption | _ => none) = some true := by decide +kernel

/-- `EncodeDecodeRoundTrip`: whether the encoded value is valid; whether decoding succeeds and gives the value back. -/
def roundTrip (p : Parts SV) : Option (Bool × Bool) :=
  match encode heap0 store0 p with
  | .ok (r, _) =>
      match r.valid ⟨true⟩, decode heap0 store0 r with
      | .ok b, .ok (.ok q, _) => some (b, decide (q.text = p.text))
      | _, _ => none
  | _ => none

/-! `Parts.EncodeDecode`, `EncodeDecodePunycodeTLD` -/
example : roundTrip ⟨some (w (b! "https")), some ⟨some (w (b! "user")), w (munchen ++ b! ".de"), some (w (b! "1234"))⟩,
    ⟨true, [w [0x7E, 0xC2, 0xA1]]⟩, some (w (b! "a%b")), some (w (b! "c%d"))⟩ = some (true, true) := by decide +kernel
example : roundTrip ⟨some (w (b! "http")), some ⟨none, w [0xD1, 0x91, 0xD0, 0xB6, 0xD0, 0xB8, 0xD0, 0xBA, 0x2E, 0xD1, 0x80, 0xD1, 0x84], none⟩,
    ⟨false, []⟩, none, none⟩ = some (true, true) := by decide +kernel
/-! `Parts.DecodeBadPunycodeTLD` -/
example : (match decode heap0 store0 ⟨some (w (b! "http")), some ⟨none, w (b! "xn--" ++ [0xD1, 0x91]), none⟩, ⟨false, []⟩, none, none⟩ with
    | .ok (.error e, _) => decide (e = .badInput) | _ => false) = true := by decide +kernel
/-! `Parts.EncodeDecodeRoundTripRegression3`, `EncodeDecodeRoundTripManyPathElements` (the value of `Regression2` is left out by the test itself) -/
example : (Parts.valid ⟨true⟩ ⟨some (w (b! "U")), some ⟨some (w []), w (b! "b"), none⟩, ⟨true, [w (b! "ffffffffffffffffffffffffffff"), w (b! "k%fff")]⟩,
    some (w []), none⟩).toOption = some true := by decide +kernel
example : roundTrip ⟨some (w (b! "U")), some ⟨some (w []), w (b! "b"), none⟩, ⟨true, [w (b! "ffffffffffffffffffffffffffff"), w (b! "k%fff")]⟩,
    some (w []), none⟩ = some (true, true) := by decide +kernel
/-- The 48 elements `el0`, `el%1`, … -/
def elements : List SV := (List.range 48).map fun i => w ((if i % 2 = 0 then b! "el" else b! "el%") ++ (if i < 10 then [.ofNat (48 + i)] else [.ofNat (48 + i / 10), .ofNat (48 + i % 10)]))
example : (elements.map SV.chars).drop 44 = [b! "el44", b! "el%45", b! "el46", b! "el%47"] := by decide +kernel
example : (roundTrip ⟨none, some ⟨none, w (b! "host"), none⟩, ⟨true, elements⟩, none, none⟩).map (fun r => r.2) = some true := by decide +kernel

end Verif.Tests
