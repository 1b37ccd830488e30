import Verif.Model.Uri

/-!
# Specification: RFC 3986 as languages

A transcription of `/repo/systemtests/uri.abnf` (RFC 3986 appendix A) with the operators of
RFC 5234.  This file uses nothing of the parser's model: from `Verif/Model` only the type `Str`
of byte strings, the literal notation `b!` and the record types `Parts`, `Path`, `Authority`.
-/

namespace Verif

/-- A language: a set of byte strings. -/
abbrev Lang := Str → Prop

namespace Abnf

/-- Concatenation. -/
def cat (A B : Lang) : Lang := fun s => ∃ a b, s = a ++ b ∧ A a ∧ B b
/-- Alternatives. -/
def alt (A B : Lang) : Lang := fun s => A s ∨ B s
@[inherit_doc] scoped infixr:70 " ⬝ " => cat
@[inherit_doc] scoped infixr:60 " ∕ " => alt

/-- A literal without letters. -/
def lit (t : Str) : Lang := fun s => s = t
/-- `[ A ]`. -/
def opt (A : Lang) : Lang := fun s => s = [] ∨ A s
/-- `<m>*<n>A`; `n = none` means no upper limit. -/
def rep (m : Nat) (n : Option Nat) (A : Lang) : Lang := fun s =>
  ∃ es : List Str, s = es.flatten ∧ (∀ e ∈ es, A e) ∧ m ≤ es.length ∧ (∀ k, n = some k → es.length ≤ k)
/-- `*A`. -/
def many (A : Lang) : Lang := rep 0 none A
/-- `1*A`. -/
def many1 (A : Lang) : Lang := rep 1 none A
/-- `nA`. -/
def times (n : Nat) (A : Lang) : Lang := rep n (some n) A
/-- `*nA`. -/
def upTo (n : Nat) (A : Lang) : Lang := rep 0 (some n) A
/-- `%xAA-BB`. -/
def range (a b : Nat) : Lang := fun s => ∃ c : UInt8, s = [c] ∧ a ≤ c.toNat ∧ c.toNat ≤ b

/-- `ALPHA = %x41-5A / %x61-7A` -/
def ALPHA : Lang := range 0x41 0x5A ∕ range 0x61 0x7A
/-- `DIGIT = %x30-39` -/
def DIGIT : Lang := range 0x30 0x39
/-- `HEXDIG = DIGIT / "A" / "B" / "C" / "D" / "E" / "F"`; ABNF strings are case-insensitive. -/
def HEXDIG : Lang := DIGIT ∕ range 0x41 0x46 ∕ range 0x61 0x66

/-- `sub-delims` -/
def subDelims : Lang :=
  lit (b! "!") ∕ lit (b! "$") ∕ lit (b! "&") ∕ lit (b! "'") ∕ lit (b! "(") ∕ lit (b! ")") ∕
  lit (b! "*") ∕ lit (b! "+") ∕ lit (b! ",") ∕ lit (b! ";") ∕ lit (b! "=")
/-- `unreserved = ALPHA / DIGIT / "-" / "." / "_" / "~"` -/
def unreserved : Lang :=
  ALPHA ∕ DIGIT ∕ lit (b! "-") ∕ lit (b! ".") ∕ lit (b! "_") ∕ lit (b! "~")
/-- `pct-encoded = "%" HEXDIG HEXDIG` -/
def pctEncoded : Lang := lit (b! "%") ⬝ HEXDIG ⬝ HEXDIG
/-- `pchar = unreserved / pct-encoded / sub-delims / ":" / "@"` -/
def pchar : Lang := unreserved ∕ pctEncoded ∕ subDelims ∕ lit (b! ":") ∕ lit (b! "@")
/-- `query = *( pchar / "/" / "?" )` -/
def query : Lang := many (pchar ∕ lit (b! "/") ∕ lit (b! "?"))
/-- `fragment = *( pchar / "/" / "?" )` -/
def fragment : Lang := many (pchar ∕ lit (b! "/") ∕ lit (b! "?"))
/-- `segment = *pchar` -/
def segment : Lang := many pchar
/-- `segment-nz = 1*pchar` -/
def segmentNz : Lang := many1 pchar
/-- `segment-nz-nc = 1*( unreserved / pct-encoded / sub-delims / "@" )` -/
def segmentNzNc : Lang := many1 (unreserved ∕ pctEncoded ∕ subDelims ∕ lit (b! "@"))
/-- `path-abempty = *( "/" segment )` -/
def pathAbempty : Lang := many (lit (b! "/") ⬝ segment)
/-- `path-absolute = "/" [ segment-nz *( "/" segment ) ]` -/
def pathAbsolute : Lang := lit (b! "/") ⬝ opt (segmentNz ⬝ many (lit (b! "/") ⬝ segment))
/-- `path-noscheme = segment-nz-nc *( "/" segment )` -/
def pathNoscheme : Lang := segmentNzNc ⬝ many (lit (b! "/") ⬝ segment)
/-- `path-rootless = segment-nz *( "/" segment )` -/
def pathRootless : Lang := segmentNz ⬝ many (lit (b! "/") ⬝ segment)
/-- `path-empty = 0<pchar>` -/
def pathEmpty : Lang := times 0 pchar
/-- `reg-name = *( unreserved / pct-encoded / sub-delims )` -/
def regName : Lang := many (unreserved ∕ pctEncoded ∕ subDelims)
/-- `dec-octet` -/
def decOctet : Lang :=
  DIGIT ∕ range 0x31 0x39 ⬝ DIGIT ∕ lit (b! "1") ⬝ times 2 DIGIT ∕
  lit (b! "2") ⬝ range 0x30 0x34 ⬝ DIGIT ∕ lit (b! "25") ⬝ range 0x30 0x35
/-- `IPv4address = dec-octet "." dec-octet "." dec-octet "." dec-octet` -/
def IPv4address : Lang :=
  decOctet ⬝ lit (b! ".") ⬝ decOctet ⬝ lit (b! ".") ⬝ decOctet ⬝ lit (b! ".") ⬝ decOctet
/-- `h16 = 1*4HEXDIG` -/
def h16 : Lang := rep 1 (some 4) HEXDIG
/-- `ls32 = ( h16 ":" h16 ) / IPv4address` -/
def ls32 : Lang := h16 ⬝ lit (b! ":") ⬝ h16 ∕ IPv4address
/-- `h16 ":"` -/
def h16c : Lang := h16 ⬝ lit (b! ":")
/-- `IPv6address`, the nine forms in the order of the RFC. -/
def IPv6address : Lang :=
                                    times 6 h16c ⬝ ls32
  ∕                   lit (b! "::") ⬝ times 5 h16c ⬝ ls32
  ∕ opt                 h16  ⬝ lit (b! "::") ⬝ times 4 h16c ⬝ ls32
  ∕ opt (upTo 1 h16c ⬝ h16) ⬝ lit (b! "::") ⬝ times 3 h16c ⬝ ls32
  ∕ opt (upTo 2 h16c ⬝ h16) ⬝ lit (b! "::") ⬝ times 2 h16c ⬝ ls32
  ∕ opt (upTo 3 h16c ⬝ h16) ⬝ lit (b! "::") ⬝         h16c ⬝ ls32
  ∕ opt (upTo 4 h16c ⬝ h16) ⬝ lit (b! "::") ⬝                ls32
  ∕ opt (upTo 5 h16c ⬝ h16) ⬝ lit (b! "::") ⬝                h16
  ∕ opt (upTo 6 h16c ⬝ h16) ⬝ lit (b! "::")
/-- `IPvFuture = "v" 1*HEXDIG "." 1*( unreserved / sub-delims / ":" )` -/
def IPvFuture : Lang :=
  (lit (b! "v") ∕ lit (b! "V")) ⬝ many1 HEXDIG ⬝ lit (b! ".") ⬝
    many1 (unreserved ∕ subDelims ∕ lit (b! ":"))
/-- `IP-literal = "[" ( IPv6address / IPvFuture ) "]"` -/
def IPLiteral : Lang := lit (b! "[") ⬝ (IPv6address ∕ IPvFuture) ⬝ lit (b! "]")
/-- `port = *DIGIT` -/
def port : Lang := many DIGIT
/-- `host = IP-literal / IPv4address / reg-name` -/
def host : Lang := IPLiteral ∕ IPv4address ∕ regName
/-- `userinfo = *( unreserved / pct-encoded / sub-delims / ":" )` -/
def userinfo : Lang := many (unreserved ∕ pctEncoded ∕ subDelims ∕ lit (b! ":"))
/-- `authority = [ userinfo "@" ] host [ ":" port ]` -/
def authority : Lang := opt (userinfo ⬝ lit (b! "@")) ⬝ host ⬝ opt (lit (b! ":") ⬝ port)
/-- `scheme = ALPHA *( ALPHA / DIGIT / "+" / "-" / "." )` -/
def scheme : Lang := ALPHA ⬝ many (ALPHA ∕ DIGIT ∕ lit (b! "+") ∕ lit (b! "-") ∕ lit (b! "."))
/-- `relative-part` -/
def relativePart : Lang :=
  lit (b! "//") ⬝ authority ⬝ pathAbempty ∕ pathAbsolute ∕ pathNoscheme ∕ pathEmpty
/-- `relative-ref = relative-part [ "?" query ] [ "#" fragment ]` -/
def relativeRef : Lang :=
  relativePart ⬝ opt (lit (b! "?") ⬝ query) ⬝ opt (lit (b! "#") ⬝ fragment)
/-- `hier-part` -/
def hierPart : Lang :=
  lit (b! "//") ⬝ authority ⬝ pathAbempty ∕ pathAbsolute ∕ pathRootless ∕ pathEmpty
/-- `URI = scheme ":" hier-part [ "?" query ] [ "#" fragment ]` -/
def URI : Lang :=
  scheme ⬝ lit (b! ":") ⬝ hierPart ⬝ opt (lit (b! "?") ⬝ query) ⬝ opt (lit (b! "#") ⬝ fragment)
/-- `URI-reference = URI / relative-ref` -/
def URIReference : Lang := URI ∕ relativeRef

/-! ### Derivations with components

The same productions, naming the pieces.  An undefined component is `none`; the text of a defined
one excludes its delimiter.  The path is given by its segments: the pieces between `/`s, and a
flag telling whether it begins with `/`. -/

/-- The text `[ userinfo "@" ] host [ ":" port ]` of given pieces. -/
def authorityText (a : Authority Str) : Str :=
  (match a.userinfo with
    | none => []
    | some u => u ++ b! "@") ++ a.host ++
  (match a.port with
    | none => []
    | some p => b! ":" ++ p)

/-- Each piece of an authority is a sentence of its rule. -/
structure AuthorityOk (a : Authority Str) : Prop where
  userinfo : ∀ u, a.userinfo = some u → Abnf.userinfo u
  host : Abnf.host a.host
  port : ∀ p, a.port = some p → Abnf.port p

/-- `*( "/" segment )` with the given segments. -/
def slashes (gs : List Str) : Str := (gs.map (b! "/" ++ ·)).flatten

/-- `t` is derived from `hier-part` (`first = segment-nz`) or `relative-part`
(`first = segment-nz-nc`) with this authority and path. -/
inductive PartDerives (first : Lang) : Str → Option (Authority Str) → Path Str → Prop
  /-- `"//" authority path-abempty` -/
  | abempty (a : Authority Str) (gs : List Str) : AuthorityOk a → (∀ g ∈ gs, segment g) →
      PartDerives first (b! "//" ++ authorityText a ++ slashes gs) (some a) ⟨!gs.isEmpty, gs⟩
  /-- `path-absolute = "/"`: one empty segment -/
  | root : PartDerives first (b! "/") none ⟨true, [[]]⟩
  /-- `path-absolute = "/" segment-nz *( "/" segment )` -/
  | absolute (g : Str) (gs : List Str) : segmentNz g → (∀ g ∈ gs, segment g) →
      PartDerives first (b! "/" ++ g ++ slashes gs) none ⟨true, g :: gs⟩
  /-- `path-rootless` / `path-noscheme` -/
  | rootless (g : Str) (gs : List Str) : first g → (∀ g ∈ gs, segment g) →
      PartDerives first (g ++ slashes gs) none ⟨false, g :: gs⟩
  /-- `path-empty` -/
  | empty : PartDerives first [] none ⟨false, []⟩

/-- `[ "?" query ]` and `[ "#" fragment ]`: delimiter and text of an optional piece. -/
def optText (delim : Str) : Option Str → Str
  | none => []
  | some t => delim ++ t

/-- `s` is derived from `URI` with components `p`. -/
def URIDerives (s : Str) (p : Parts Str) : Prop :=
  ∃ sch t, p.scheme = some sch ∧ scheme sch ∧ PartDerives segmentNz t p.authority p.path ∧
    (∀ q, p.query = some q → query q) ∧ (∀ f, p.fragment = some f → fragment f) ∧
    s = sch ++ b! ":" ++ t ++ optText (b! "?") p.query ++ optText (b! "#") p.fragment

/-- `s` is derived from `relative-ref` with components `p`. -/
def RelativeDerives (s : Str) (p : Parts Str) : Prop :=
  ∃ t, p.scheme = none ∧ PartDerives segmentNzNc t p.authority p.path ∧
    (∀ q, p.query = some q → query q) ∧ (∀ f, p.fragment = some f → fragment f) ∧
    s = t ++ optText (b! "?") p.query ++ optText (b! "#") p.fragment

/-- `s` is derived from `URI-reference` with components `p`. -/
def ReferenceDerives (s : Str) (p : Parts Str) : Prop := URIDerives s p ∨ RelativeDerives s p

/-- The number of elements in a text made of single characters and `pct-encoded` triplets. -/
def units (s : Str) : Nat := s.length - 2 * s.count 0x25

/-- The code counts repetitions in an `unsigned`, so that one of exactly `k * 2^32` elements counts
as empty.  It matters where a rule says `1*`: here, the two in `IPvFuture`. -/
def FutureCounted (h : Str) : Prop := ∀ (c : UInt8) (x y : Str), c = 0x76 ∨ c = 0x56 → many HEXDIG x →
  h = b! "[" ++ [c] ++ x ++ b! "." ++ y ++ b! "]" → x.length % 2 ^ 32 ≠ 0 ∧ y.length % 2 ^ 32 ≠ 0

/-- What the code accepts as a host: `host` without the reg-names that have a proper prefix which
is an IPv4address (such as `1.2.3.4.com`): there the ordered choice commits to the prefix.  (And
without the `IPvFuture`s whose `1*` repetitions have `k * 2^32` elements.) -/
def HostAccepted (h : Str) : Prop :=
  (IPLiteral h ∧ FutureCounted h) ∨ IPv4address h ∨ (regName h ∧ ∀ u v, h = u ++ v → ¬ IPv4address u)

/-- The authority, if there is one, has a host of that kind. -/
def HostOk (p : Parts Str) : Prop := ∀ a, p.authority = some a → HostAccepted a.host

/-- The `segment-nz` or `segment-nz-nc` that starts a path where there is no authority does not
have `k * 2^32` elements (see `FutureCounted`). -/
def PathCounted (p : Parts Str) : Prop :=
  p.authority = none → ∀ g gs, p.path.segments = g :: gs → g ≠ [] → units g % 2 ^ 32 ≠ 0

end Abnf
end Verif
