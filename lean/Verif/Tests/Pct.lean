import Verif.Props.Pct

/-!
# The project's own unit tests, run on the model: `unittests/uri/test_pctdecode.cpp`, `test_pctencode.cpp`

Generated by `tools/gen_conformance.py`.  Tests of the model, not proofs of properties: each `example` evaluates the model on the
input of an assertion of the project's test suite and compares with the value expected there.
-/

namespace Verif.Tests

/-- Decode a view through the iterators, the range-based `for` loop and the range adaptor. -/
def decodings (s : Str) : List (Option Str) :=
  [(pctIterLoop s (pctdecodeEnd s) (s.length + 1) (pctdecodeBegin s)).toOption, (pctdecode s).toOption, (pctViewCopy s).toOption]


example : decodings ([]) = [some ([]), some ([]), some ([])] := by decide +kernel
example : decodings (b! "abcdef") = [some (b! "abcdef"), some (b! "abcdef"), some (b! "abcdef")] := by decide +kernel
example : decodings (b! "a%62%63def") = [some (b! "abcdef"), some (b! "abcdef"), some (b! "abcdef")] := by decide +kernel
example : decodings (b! "a%7ad") = [some (b! "azd"), some (b! "azd"), some (b! "azd")] := by decide +kernel
example : decodings (b! "a%7Ad") = [some (b! "azd"), some (b! "azd"), some (b! "azd")] := by decide +kernel
example : decodings (b! "ab%") = [some (b! "ab%"), some (b! "ab%"), some (b! "ab%")] := by decide +kernel
example : decodings (b! "ab%a") = [some (b! "ab%a"), some (b! "ab%a"), some (b! "ab%a")] := by decide +kernel
example : decodings (b! "ab%qq") = [some (b! "ab%qq"), some (b! "ab%qq"), some (b! "ab%qq")] := by decide +kernel
example : decodings (b! "ab%1q") = [some (b! "ab%1q"), some (b! "ab%1q"), some (b! "ab%1q")] := by decide +kernel
/-! `PctEncode.Hello` -/
example : (pctencode (b! "Hello") EncSet.component).toOption = some (b! "Hello") := by decide +kernel
/-! `PctEncode.Percent` -/
example : (pctencode (b! "H%llo") EncSet.component).toOption = some (b! "H%25llo") := by decide +kernel
/-! `PctEncode.CodePointNeedsEncodeExhaustive` -/
/-- `CodePointNeedsEncodeExhaustive`'s lambda. -/
def is_c0 (c : UInt8) : Bool := c == 0x25 || decide (c < 0x20) || decide (c > 0x7E)
/-- `CodePointNeedsEncodeExhaustive`'s lambda. -/
def is_fragment (c : UInt8) : Bool := is_c0 c || c == 0x20 || c == 0x22 || c == 0x3C || c == 0x3E
/-- `CodePointNeedsEncodeExhaustive`'s lambda. -/
def is_query (c : UInt8) : Bool := is_c0 c || c == 0x20 || c == 0x22 || c == 0x23 || c == 0x3C || c == 0x3E
/-- `CodePointNeedsEncodeExhaustive`'s lambda. -/
def is_special_query (c : UInt8) : Bool := is_query c || c == 0x27
/-- `CodePointNeedsEncodeExhaustive`'s lambda. -/
def is_path (c : UInt8) : Bool := is_query c || c == 0x3F || c == 0x60 || c == 0x7B || c == 0x7D
/-- `CodePointNeedsEncodeExhaustive`'s lambda. -/
def is_userinfo (c : UInt8) : Bool := is_path c || c == 0x2F || c == 0x3A || c == 0x3B || c == 0x3D || c == 0x40 || c == 0x5B || c == 0x5C || c == 0x5D || c == 0x5E || c == 0x7C
/-- `CodePointNeedsEncodeExhaustive`'s lambda. -/
def is_component (c : UInt8) : Bool := is_userinfo c || c == 0x24 || c == 0x25 || c == 0x26 || c == 0x2B || c == 0x2C
/-- `CodePointNeedsEncodeExhaustive`'s lambda. -/
def is_form_urlencoded (c : UInt8) : Bool := is_component c || c == 0x21 || c == 0x27 || c == 0x28 || c == 0x29 || c == 0x7E
example : ∀ c : Fin 256, needsPctencodeB (.ofNat c.val) EncSet.fragment = is_fragment (.ofNat c.val) := by decide +kernel
example : ∀ c : Fin 256, needsPctencodeB (.ofNat c.val) EncSet.query = is_query (.ofNat c.val) := by decide +kernel
example : ∀ c : Fin 256, needsPctencodeB (.ofNat c.val) EncSet.specialQuery = is_special_query (.ofNat c.val) := by decide +kernel
example : ∀ c : Fin 256, needsPctencodeB (.ofNat c.val) EncSet.path = is_path (.ofNat c.val) := by decide +kernel
example : ∀ c : Fin 256, needsPctencodeB (.ofNat c.val) EncSet.userinfo = is_userinfo (.ofNat c.val) := by decide +kernel
example : ∀ c : Fin 256, needsPctencodeB (.ofNat c.val) EncSet.component = is_component (.ofNat c.val) := by decide +kernel
example : ∀ c : Fin 256, needsPctencodeB (.ofNat c.val) EncSet.formUrlencoded = is_form_urlencoded (.ofNat c.val) := by decide +kernel

end Verif.Tests
