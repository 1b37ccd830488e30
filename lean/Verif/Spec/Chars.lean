import Verif.Model.Base

/-!
# Specification: the characters of a URI (RFC 3986 section 2)
-/

namespace Verif.Spec

/-- Section 2.2 and 2.3: `reserved` (gen-delims and sub-delims), `unreserved`, and `%`. -/
def uriChars : Str :=
  b! "ABCDEFGHIJKLMNOPQRSTUVWXYZabcdefghijklmnopqrstuvwxyz0123456789-._~:/?#[]@!$&'()*+,;=%"

/-- The hexadecimal digits. -/
def hexChars : Str := b! "0123456789ABCDEFabcdef"

/-- Every byte is one of `uriChars`, and every `%` is followed by two hexadecimal digits. -/
def CharSafe (s : Str) : Prop :=
  (∀ c ∈ s, c ∈ uriChars) ∧
  ∀ a b, s = a ++ 0x25 :: b → ∃ x y t, b = x :: y :: t ∧ x ∈ hexChars ∧ y ∈ hexChars

end Verif.Spec
