import Verif.Model.Base

/-!
# Specification: Unicode encoding forms

The Unicode Standard, section 3.9.  Uses nothing of the model but byte strings.
-/

namespace Verif.Unicode

/-- D76: Unicode scalar values. -/
def Scalar (c : Nat) : Prop := c < 0xD800 ∨ (0xE000 ≤ c ∧ c ≤ 0x10FFFF)

instance (c : Nat) : Decidable (Scalar c) := by unfold Scalar; infer_instance

/-- D92, table 3-6: the UTF-8 form of a scalar value. -/
def utf8 (c : Nat) : Str :=
  if c < 0x80 then [UInt8.ofNat c]
  else if c < 0x800 then [UInt8.ofNat (0xC0 + c / 0x40), UInt8.ofNat (0x80 + c % 0x40)]
  else if c < 0x10000 then [UInt8.ofNat (0xE0 + c / 0x1000), UInt8.ofNat (0x80 + c / 0x40 % 0x40), UInt8.ofNat (0x80 + c % 0x40)]
  else [UInt8.ofNat (0xF0 + c / 0x40000), UInt8.ofNat (0x80 + c / 0x1000 % 0x40), UInt8.ofNat (0x80 + c / 0x40 % 0x40), UInt8.ofNat (0x80 + c % 0x40)]

/-- D91, table 3-5: the UTF-16 form of a scalar value. -/
def utf16 (c : Nat) : List UInt16 :=
  if c < 0x10000 then [UInt16.ofNat c]
  else [UInt16.ofNat (0xD800 + (c - 0x10000) / 0x400), UInt16.ofNat (0xDC00 + (c - 0x10000) % 0x400)]

/-- D85, D86: a well-formed UTF-8 text and the scalar values it encodes. -/
def IsUtf8 (s : Str) (cs : List Nat) : Prop := (∀ c ∈ cs, Scalar c) ∧ s = cs.flatMap utf8

/-- A well-formed UTF-16 text and the scalar values it encodes. -/
def IsUtf16 (s : List UInt16) (cs : List Nat) : Prop := (∀ c ∈ cs, Scalar c) ∧ s = cs.flatMap utf16

/-- Table 3-7: the well-formed UTF-8 byte sequences of one scalar value. -/
inductive Table37 : Str → Prop
  | r1 {a} : a.toNat ≤ 0x7F → Table37 [a]
  | r2 {a b} : 0xC2 ≤ a.toNat → a.toNat ≤ 0xDF → 0x80 ≤ b.toNat → b.toNat ≤ 0xBF → Table37 [a, b]
  | r3 {a b c} : a.toNat = 0xE0 → 0xA0 ≤ b.toNat → b.toNat ≤ 0xBF → 0x80 ≤ c.toNat → c.toNat ≤ 0xBF → Table37 [a, b, c]
  | r4 {a b c} : 0xE1 ≤ a.toNat → a.toNat ≤ 0xEC → 0x80 ≤ b.toNat → b.toNat ≤ 0xBF → 0x80 ≤ c.toNat → c.toNat ≤ 0xBF → Table37 [a, b, c]
  | r5 {a b c} : a.toNat = 0xED → 0x80 ≤ b.toNat → b.toNat ≤ 0x9F → 0x80 ≤ c.toNat → c.toNat ≤ 0xBF → Table37 [a, b, c]
  | r6 {a b c} : 0xEE ≤ a.toNat → a.toNat ≤ 0xEF → 0x80 ≤ b.toNat → b.toNat ≤ 0xBF → 0x80 ≤ c.toNat → c.toNat ≤ 0xBF → Table37 [a, b, c]
  | r7 {a b c d} : a.toNat = 0xF0 → 0x90 ≤ b.toNat → b.toNat ≤ 0xBF → 0x80 ≤ c.toNat → c.toNat ≤ 0xBF → 0x80 ≤ d.toNat → d.toNat ≤ 0xBF →
      Table37 [a, b, c, d]
  | r8 {a b c d} : 0xF1 ≤ a.toNat → a.toNat ≤ 0xF3 → 0x80 ≤ b.toNat → b.toNat ≤ 0xBF → 0x80 ≤ c.toNat → c.toNat ≤ 0xBF → 0x80 ≤ d.toNat →
      d.toNat ≤ 0xBF → Table37 [a, b, c, d]
  | r9 {a b c d} : a.toNat = 0xF4 → 0x80 ≤ b.toNat → b.toNat ≤ 0x8F → 0x80 ≤ c.toNat → c.toNat ≤ 0xBF → 0x80 ≤ d.toNat → d.toNat ≤ 0xBF →
      Table37 [a, b, c, d]

/-- The beginning of the UTF-8 form of a scalar value, but not all of it and not nothing. -/
def Truncated (p : Str) : Prop := p ≠ [] ∧ ∃ c q, Scalar c ∧ q ≠ [] ∧ utf8 c = p ++ q

/-- How an arbitrary byte string is read: a scalar value where there is one; else the longest
beginning of one (perhaps empty) together with the byte that does not continue it, as one U+FFFD;
and one U+FFFD for a beginning at the end of the text. -/
inductive Reads : Str → List Nat → Prop
  | nil : Reads [] []
  | char {c s cs} : Scalar c → Reads s cs → Reads (utf8 c ++ s) (c :: cs)
  | bad {p b s cs} : p = [] ∨ Truncated p → ¬ Truncated (p ++ [b]) → (¬ ∃ c, Scalar c ∧ utf8 c = p ++ [b]) → Reads s cs →
      Reads (p ++ b :: s) (0xFFFD :: cs)
  | cut {p} : Truncated p → Reads p [0xFFFD]

/-- What the Unicode Standard (section 3.9, "U+FFFD Substitution of Maximal Subparts") recommends, and
its conformance clause C10 requires of converters: the byte that does not continue a sequence is not
swallowed but read again. -/
inductive ReadsMaximal : Str → List Nat → Prop
  | nil : ReadsMaximal [] []
  | char {c s cs} : Scalar c → ReadsMaximal s cs → ReadsMaximal (utf8 c ++ s) (c :: cs)
  | lone {b s cs} : ¬ Truncated [b] → (¬ ∃ c, Scalar c ∧ utf8 c = [b]) → ReadsMaximal s cs → ReadsMaximal (b :: s) (0xFFFD :: cs)
  | subpart {p b s cs} : Truncated p → ¬ Truncated (p ++ [b]) → (¬ ∃ c, Scalar c ∧ utf8 c = p ++ [b]) → ReadsMaximal (b :: s) cs →
      ReadsMaximal (p ++ b :: s) (0xFFFD :: cs)
  | cut {p} : Truncated p → ReadsMaximal p [0xFFFD]

/-- The same for a text that does not end inside a sequence. -/
inductive ReadsWhole : Str → List Nat → Prop
  | nil : ReadsWhole [] []
  | char {c s cs} : Scalar c → ReadsWhole s cs → ReadsWhole (utf8 c ++ s) (c :: cs)
  | bad {p b s cs} : p = [] ∨ Truncated p → ¬ Truncated (p ++ [b]) → (¬ ∃ c, Scalar c ∧ utf8 c = p ++ [b]) → ReadsWhole s cs →
      ReadsWhole (p ++ b :: s) (0xFFFD :: cs)

/-- Texts in which no sequence is broken off by a byte that does not continue it; there may be bytes that belong to no
sequence, and the text may end inside one. -/
inductive Unbroken : Str → Prop
  | nil : Unbroken []
  | char {c s} : Scalar c → Unbroken s → Unbroken (utf8 c ++ s)
  | lone {b s} : ¬ Truncated [b] → (¬ ∃ c, Scalar c ∧ utf8 c = [b]) → Unbroken s → Unbroken (b :: s)
  | cut {p} : Truncated p → Unbroken p

/-- How arbitrary UTF-16 is read: surrogates without a partner are U+FFFD. -/
inductive Reads16 : List UInt16 → List Nat → Prop
  | nil : Reads16 [] []
  | char {c s cs} : Scalar c → Reads16 s cs → Reads16 (utf16 c ++ s) (c :: cs)
  | high {h s cs} : 0xD800 ≤ h.toNat → h.toNat ≤ 0xDBFF → (∀ l, s.head? = some l → ¬ (0xDC00 ≤ l.toNat ∧ l.toNat ≤ 0xDFFF)) → Reads16 s cs →
      Reads16 (h :: s) (0xFFFD :: cs)
  | low {l s cs} : 0xDC00 ≤ l.toNat → l.toNat ≤ 0xDFFF → Reads16 s cs → Reads16 (l :: s) (0xFFFD :: cs)

/-- A code unit as two bytes. -/
def bytes16 (big : Bool) (c : UInt16) : Str :=
  let hi := UInt8.ofNat (c.toNat / 0x100)
  let lo := UInt8.ofNat (c.toNat % 0x100)
  if big then [hi, lo] else [lo, hi]

/-- A code unit as four bytes. -/
def bytes32 (big : Bool) (c : Nat) : Str :=
  let b := [UInt8.ofNat (c / 0x1000000), UInt8.ofNat (c / 0x10000 % 0x100), UInt8.ofNat (c / 0x100 % 0x100), UInt8.ofNat (c % 0x100)]
  if big then b else b.reverse

/-- The code units of a sequence of bytes; a byte left over at the end is dropped. -/
def units16 (big : Bool) : Str → List UInt16
  | a :: b :: s => UInt16.ofNat (if big then a.toNat * 0x100 + b.toNat else b.toNat * 0x100 + a.toNat) :: units16 big s
  | _ => []

/-- The code units of a sequence of bytes; bytes left over at the end are dropped. -/
def units32 (big : Bool) : Str → List Nat
  | a :: b :: c :: d :: s =>
      (if big then ((a.toNat * 0x100 + b.toNat) * 0x100 + c.toNat) * 0x100 + d.toNat
        else ((d.toNat * 0x100 + c.toNat) * 0x100 + b.toNat) * 0x100 + a.toNat) :: units32 big s
  | _ => []

/-- What bytes of unknown encoding are found to contain. -/
inductive Content
  | utf8 (s : Str)
  | utf16 (big : Bool) (us : List UInt16)
  | utf32 (big : Bool) (us : List Nat)
  deriving DecidableEq

/-- The byte order marks. -/
def marks : List Str := [[0xEF, 0xBB, 0xBF], [0xFE, 0xFF], [0xFF, 0xFE], [0x00, 0x00, 0xFE, 0xFF], [0xFF, 0xFE, 0x00, 0x00]]

/-- The Unicode Standard, section 2.6 and table 2-4 (and table 23-6): a byte order mark at the start names the encoding
and is not part of the text; without one the text is taken for UTF-8. -/
def contentStd (s : Str) : Content :=
  if [0xEF, 0xBB, 0xBF] <+: s then .utf8 (s.drop 3)
  else if [0xFE, 0xFF] <+: s then .utf16 true (units16 true (s.drop 2))
  else if [0x00, 0x00, 0xFE, 0xFF] <+: s then .utf32 true (units32 true (s.drop 4))
  else if [0xFF, 0xFE, 0x00, 0x00] <+: s then .utf32 false (units32 false (s.drop 4))
  else if [0xFF, 0xFE] <+: s then .utf16 false (units16 false (s.drop 2))
  else .utf8 s

/-- The same as built.  The upper eight bits of a little-endian UTF-32 code unit are lost; `FF FE` counts as the mark of
UTF-16 only if another byte follows that is not zero; and a text that is the beginning of a mark gains a zero byte. -/
def contentBuilt (s : Str) : Content :=
  if [0xEF, 0xBB, 0xBF] <+: s then .utf8 (s.drop 3)
  else if [0xFE, 0xFF] <+: s then .utf16 true (units16 true (s.drop 2))
  else if [0x00, 0x00, 0xFE, 0xFF] <+: s then .utf32 true (units32 true (s.drop 4))
  else if [0xFF, 0xFE, 0x00, 0x00] <+: s then .utf32 false ((units32 false (s.drop 4)).map (· % 0x1000000))
  else if [0xFF, 0xFE] <+: s ∧ 2 < s.length ∧ s[2]? ≠ some 0 then .utf16 false (units16 false (s.drop 2))
  else if s ≠ [] ∧ ∃ m ∈ marks, s <+: m then .utf8 (s ++ [0])
  else .utf8 s

end Verif.Unicode
