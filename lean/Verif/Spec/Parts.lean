import Verif.Model.PartsCodec
import Verif.Spec.Pct
import Verif.Spec.Punycode
import Verif.Spec.Utf

/-!
# Specification: encoding and decoding of a whole URI

Of the model only the data types are used: `Parts`, `SV`, `Field`, `Store`.
-/

namespace Verif.PartsSpec

open Verif.Codec (Field Store)

/-- Two lists related element by element. -/
inductive Each {α β : Type} (R : α → β → Prop) : List α → List β → Prop
  | nil : Each R [] []
  | cons {a b as bs} : R a b → Each R as bs → Each R (a :: as) (b :: bs)

/-- Two optional values related: both absent, or both present and related. -/
inductive Opt {α β : Type} (R : α → β → Prop) : Option α → Option β → Prop
  | none : Opt R none none
  | some {a b} : R a b → Opt R (some a) (some b)

/-- The strings of two `parts` values are related one by one, by the relation for their field; all
else is the same. -/
structure Related {α β : Type} (R : Field → α → β → Prop) (p : Parts α) (q : Parts β) : Prop where
  scheme : Opt (R .scheme) p.scheme q.scheme
  absolute : q.path.absolute = p.path.absolute
  segments : Each (R .path) p.path.segments q.path.segments
  authority : Opt (fun a b => Opt (R .userinfo) a.userinfo b.userinfo ∧ R .host a.host b.host ∧ Opt (R .port) a.port b.port) p.authority q.authority
  query : Opt (R .query) p.query q.query
  fragment : Opt (R .fragment) p.fragment q.fragment

/-! ### Host names -/

/-- Labels, with a separator between any two. -/
def joined {α : Type} (sep : α) : List (List α) → List α
  | [] => []
  | [l] => l
  | l :: m :: ls => l ++ sep :: joined sep (m :: ls)

/-- `ls` are the labels of the host name `s`: what is between the full stops. -/
def Labels {α : Type} (sep : α) (s : List α) (ls : List (List α)) : Prop :=
  ls ≠ [] ∧ (∀ l ∈ ls, sep ∉ l) ∧ s = joined sep ls

/-- A small letter or decimal digit. -/
def LowerAlnum (c : UInt8) : Prop := (0x61 ≤ c.toNat ∧ c.toNat ≤ 0x7A) ∨ (0x30 ≤ c.toNat ∧ c.toNat ≤ 0x39)

/-- How a label is written: as it is if it is ASCII, else as `xn--` and its Punycode, whose digits are
in lower case. -/
inductive LabelEncodes : List Nat → Str → Prop
  | ascii {l t} : (∀ c ∈ l, c < 0x80) → t.map UInt8.toNat = l → LabelEncodes l t
  | puny {l : List Nat} {basics ext : Str} : (∃ c ∈ l, 0x80 ≤ c) → basics.map UInt8.toNat = l.filter (· < 0x80) → (∀ c ∈ ext, LowerAlnum c) →
      Rfc3492.Decodes (basics ++ (if basics = [] then [] else [0x2D]) ++ ext) l →
      LabelEncodes l (b! "xn--" ++ (basics ++ (if basics = [] then [] else [0x2D]) ++ ext))

/-- How a host name is written: label by label. -/
def HostEncodes (cs : List Nat) (e : Str) : Prop :=
  ∃ ls es, Labels 0x2E cs ls ∧ Each LabelEncodes ls es ∧ e = joined 0x2E es

/-- The UTF-8 form of code points, U+FFFD standing for what is no scalar value. -/
def utf8Of (cs : List Nat) : Str := cs.flatMap fun c => Unicode.utf8 (if Unicode.Scalar c then c else 0xFFFD)

/-- Punycode, read by RFC 3492 but for a leading delimiter with no other, which is ignored. -/
def PunyReads (t : Str) (s : List Nat) : Prop :=
  Rfc3492.Decodes t s ∨ ∃ ext, t = 0x2D :: ext ∧ (0x2D : UInt8) ∉ ext ∧ Rfc3492.Decodes ext s

/-- How a label is read: Punycode after `xn--`, all else as it is. -/
inductive LabelDecodes : Str → Str → Prop
  | plain {l} : ¬ b! "xn--" <+: l → LabelDecodes l l
  | puny {t s} : PunyReads t s → LabelDecodes (b! "xn--" ++ t) (utf8Of s)

/-- How a host name is read: label by label. -/
def HostDecodes (s d : Str) : Prop :=
  ∃ ls ds, Labels 0x2E s ls ∧ Each LabelDecodes ls ds ∧ d = joined 0x2E ds

/-- No label that is ASCII already looks like an encoded one. -/
def NoAce (s : Str) : Prop := ∀ ls, Labels 0x2E s ls → ∀ l ∈ ls, (∀ c ∈ l, c.toNat < 0x80) → ¬ b! "xn--" <+: l

/-! ### Fields -/

/-- The bytes percent-encoded in each field. -/
def encodeSet : Field → UInt8 → Prop
  | .userinfo, c => PctSpec.userinfo c ∨ c = 0x25
  | .path, c => (PctSpec.path c ∧ c ≠ 0x5E) ∨ c = 0x25
  | .query, c => PctSpec.query c ∨ c = 0x25
  | .fragment, c => (PctSpec.fragment c ∧ c ≠ 0x60) ∨ c = 0x25
  | _, c => c.toNat ≤ 0x20 ∨ c.toNat > 0x7E

/-- How a field is encoded. -/
def FieldEncodes (fld : Field) (s e : Str) : Prop :=
  (fld = .host → ∃ cs, Unicode.Reads s cs ∧ HostEncodes cs e) ∧ (fld ≠ .host → PctSpec.Encodes (encodeSet fld) s e)

/-- How a field is decoded. -/
def FieldDecodes (fld : Field) (s d : Str) : Prop :=
  (fld = .host → HostDecodes s d) ∧ (fld ≠ .host → PctSpec.Decodes s d)

/-- The view shows a part of what the store holds now. -/
def InStore (st : Store) (v : SV) : Prop :=
  ∃ off, v.ptr = st.addr + off ∧ off + v.chars.length ≤ st.chars.length ∧ v.chars = (st.chars.drop off).take v.chars.length

end Verif.PartsSpec
