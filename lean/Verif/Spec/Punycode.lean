import Verif.Model.Base

/-!
# Specification: RFC 3492 (Punycode)

Decoding as described by RFC 3492 sections 3 and 6, in unbounded arithmetic.  Uses nothing of the
model but byte strings.
-/

namespace Verif.Rfc3492

/-- Section 6.1, the loop: "while delta > ((base - tmin) * tmax) div 2 do …". -/
def adaptLoop (delta k : Nat) : Nat :=
  if delta > 455 then adaptLoop (delta / 35) (k + 36) else k + 36 * delta / (delta + 38)
termination_by delta
decreasing_by omega

/-- Section 6.1: bias adaptation. -/
def adapt (delta numpoints : Nat) (firsttime : Bool) : Nat :=
  let delta := if firsttime then delta / 700 else delta / 2
  adaptLoop (delta + delta / numpoints) 0

/-- Section 3.3/6.2: the threshold at position `k`. -/
def threshold (k bias : Nat) : Nat := if k ≤ bias then 1 else if k ≥ bias + 26 then 26 else k - bias

/-- Digits in lower case, by value. -/
def lowerAlphabet : Str := b! "abcdefghijklmnopqrstuvwxyz0123456789"
/-- Digits in upper case, by value. -/
def upperAlphabet : Str := b! "ABCDEFGHIJKLMNOPQRSTUVWXYZ0123456789"

/-- Section 5: `c` is a digit, of either case, of value `d`. -/
def DigitVal (c : UInt8) (d : Nat) : Prop := lowerAlphabet[d]? = some c ∨ upperAlphabet[d]? = some c

/-- A text spelling a sequence of digits. -/
inductive Spells : Str → List Nat → Prop
  | nil : Spells [] []
  | cons {c d t ds} : DigitVal c d → Spells t ds → Spells (c :: t) (d :: ds)

/-- Section 3.3: generalized variable-length integers, little-endian.  `Vli bias k ds v`: the digits
`ds`, the first of which is at position `k`, stand for `v`. -/
inductive Vli (bias : Nat) : Nat → List Nat → Nat → Prop
  | last {k d} : d < threshold k bias → Vli bias k [d] d
  | more {k d ds v} : threshold k bias ≤ d → d < 36 → Vli bias (k + 36) ds v →
      Vli bias k (d :: ds) (d + (36 - threshold k bias) * v)

/-- Insert a code point at a position. -/
def inserted (l : List Nat) (pos c : Nat) : List Nat := l.take pos ++ c :: l.drop pos

/-- Section 6.2: the decoder's main loop.  `Run bias n i out text final`: from bias `bias`, code
point `n`, index `i` and output `out`, reading `text` yields `final`. -/
inductive Run : Nat → Nat → Nat → List Nat → Str → List Nat → Prop
  | done {bias n i out} : Run bias n i out [] out
  | step {bias n i out txt rest final ds delta} : Spells txt ds → Vli bias 36 ds delta →
      Run (adapt delta (out.length + 1) (i == 0)) (n + (i + delta) / (out.length + 1)) ((i + delta) % (out.length + 1) + 1)
        (inserted out ((i + delta) % (out.length + 1)) (n + (i + delta) / (out.length + 1))) rest final →
      Run bias n i out (txt ++ rest) final

/-- Reading the extended part of a string after the literal part. -/
def Extends (lit : Str) (ext : Str) (s : List Nat) : Prop := Run 72 0x80 0 (lit.map UInt8.toNat) ext s

/-- Section 6.2: `Decodes t s`: `t` is a Punycode text for the code points `s`.  "Consume all code
points before the last delimiter (if there is one) and copy them to output, fail on any non-basic
code point; if more than zero code points were consumed then consume one more (the delimiter)." -/
def Decodes (t : Str) (s : List Nat) : Prop :=
  ((0x2D : UInt8) ∉ t ∧ Extends [] t s) ∨
  ∃ lit ext, t = lit ++ 0x2D :: ext ∧ (0x2D : UInt8) ∉ ext ∧ lit ≠ [] ∧ (∀ c ∈ lit, c.toNat < 0x80) ∧ Extends lit ext s

/-- A digit in lower case. -/
def lowerDigit (c : UInt8) : UInt8 := if 0x41 ≤ c.toNat ∧ c.toNat ≤ 0x5A then UInt8.ofNat (c.toNat + 0x20) else c

end Verif.Rfc3492
