import Verif.Model.Base

/-!
# Specification: percent-encoding

RFC 3986 section 2.1 and the percent-encode sets of the WHATWG URL standard (section 1.3).  Uses
nothing of the model but byte strings.
-/

namespace Verif.PctSpec

/-- Upper-case hexadecimal digits, by value. -/
def upperDigits : Str := b! "0123456789ABCDEF"
/-- Lower-case hexadecimal digits, by value. -/
def lowerDigits : Str := b! "0123456789abcdef"

/-- `c` is a hexadecimal digit, of either case, with value `v`. -/
def HexVal (c : UInt8) (v : Nat) : Prop := upperDigits[v]? = some c ∨ lowerDigits[v]? = some c

/-- `c` is an upper-case hexadecimal digit with value `v`. -/
def HexUpper (c : UInt8) (v : Nat) : Prop := upperDigits[v]? = some c

/-- `%hl` is a triplet denoting the byte `b`. -/
def Triplet (h l b : UInt8) : Prop := ∃ x y, HexVal h x ∧ HexVal l y ∧ b.toNat = 16 * x + y

/-- The text begins with a well-formed triplet. -/
def StartsTriplet (s : Str) : Prop := ∃ h l b t, s = 0x25 :: h :: l :: t ∧ Triplet h l b

/-- `Decodes s d`: scanning `s` from left to right, replacing each well-formed triplet by the byte it
denotes and copying every other byte, yields `d`. -/
inductive Decodes : Str → Str → Prop
  | nil : Decodes [] []
  | triplet {h l b s d} : Triplet h l b → Decodes s d → Decodes (0x25 :: h :: l :: s) (b :: d)
  | copy {c s d} : ¬ StartsTriplet (c :: s) → Decodes s d → Decodes (c :: s) (c :: d)

/-- `Encodes P s e`: `e` is `s` with each byte in `P` replaced by `%` and its two upper-case
hexadecimal digits. -/
inductive Encodes (P : UInt8 → Prop) : Str → Str → Prop
  | nil : Encodes P [] []
  | triplet {c h l s e} : P c → (∃ x y, HexUpper h x ∧ HexUpper l y ∧ c.toNat = 16 * x + y) → Encodes P s e →
      Encodes P (c :: s) (0x25 :: h :: l :: e)
  | copy {c s e} : ¬ P c → Encodes P s e → Encodes P (c :: s) (c :: e)

/-- "The C0 control percent-encode set are the C0 controls and all code points greater than U+007E." -/
def c0 (c : UInt8) : Prop := c.toNat ≤ 0x1F ∨ c.toNat > 0x7E
/-- "The fragment percent-encode set is the C0 control percent-encode set and U+0020 SPACE,
U+0022 ("), U+003C (<), U+003E (>), and U+0060 (`)." -/
def fragment (c : UInt8) : Prop := c0 c ∨ c ∈ b! " \"<>`"
/-- "The query percent-encode set is the C0 control percent-encode set and U+0020 SPACE,
U+0022 ("), U+0023 (#), U+003C (<), and U+003E (>)." -/
def query (c : UInt8) : Prop := c0 c ∨ c ∈ b! " \"#<>"
/-- "The special-query percent-encode set is the query percent-encode set and U+0027 (')." -/
def specialQuery (c : UInt8) : Prop := query c ∨ c ∈ b! "'"
/-- "The path percent-encode set is the query percent-encode set and U+003F (?), U+005E (^),
U+0060 (`), U+007B ({), and U+007D (})." -/
def path (c : UInt8) : Prop := query c ∨ c ∈ b! "?^`{}"
/-- "The userinfo percent-encode set is the path percent-encode set and U+002F (/), U+003A (:),
U+003B (;), U+003D (=), U+0040 (@), U+005B ([) to U+005D (]), inclusive, and U+007C (|)." -/
def userinfo (c : UInt8) : Prop := path c ∨ c ∈ b! "/:;=@[\\]|"
/-- "The component percent-encode set is the userinfo percent-encode set and U+0024 ($) to
U+0026 (&), inclusive, U+002B (+), and U+002C (,)." -/
def component (c : UInt8) : Prop := userinfo c ∨ c ∈ b! "$%&+,"
/-- "The application/x-www-form-urlencoded percent-encode set is the component percent-encode set
and U+0021 (!), U+0027 (') to U+0029 RIGHT PARENTHESIS, inclusive, and U+007E (~)." -/
def formUrlencoded (c : UInt8) : Prop := component c ∨ c ∈ b! "!'()~"

end Verif.PctSpec
