import Verif.Spec.Abnf

/-!
# Specification: component-level notions

RFC 3986 appendix B, section 5.3 (recomposition) and what `valid ()` should mean, all in terms of
text only.
-/

namespace Verif

/-- A character of a list of delimiters. -/
def oneOf (ds : Str) (c : UInt8) : Bool := ds.contains c

/-- The parts of the regular expression of RFC 3986 appendix B,
`^(([^:/?#]+):)?(//([^/?#]*))?([^?#]*)(\?([^#]*))?(#(.*))?`:
groups 2 (scheme), 4 (authority), 5 (path), 7 (query) and 9 (fragment). -/
structure Groups where
  scheme : Option Str
  authority : Option Str
  path : Str
  query : Option Str
  fragment : Option Str
  deriving DecidableEq, Repr

namespace AppendixB

/-- `(([^:/?#]+):)?` -/
def scheme (s : Str) : Option Str × Str :=
  let t := s.takeWhile (!oneOf (b! ":/?#") ·)
  match s.dropWhile (!oneOf (b! ":/?#") ·) with
  | c :: r => if c = 0x3A ∧ t ≠ [] then (some t, r) else (none, s)
  | [] => (none, s)

/-- `(//([^/?#]*))?` -/
def authority (s : Str) : Option Str × Str :=
  match s with
  | c :: d :: r =>
      if c = 0x2F ∧ d = 0x2F then
        (some (r.takeWhile (!oneOf (b! "/?#") ·)), r.dropWhile (!oneOf (b! "/?#") ·))
      else (none, s)
  | _ => (none, s)

/-- `(\?([^#]*))?` -/
def query (s : Str) : Option Str × Str :=
  match s with
  | c :: r =>
      if c = 0x3F then (some (r.takeWhile (!oneOf (b! "#") ·)), r.dropWhile (!oneOf (b! "#") ·))
      else (none, s)
  | [] => (none, s)

/-- `(#(.*))?` -/
def fragment (s : Str) : Option Str :=
  match s with
  | c :: r => if c = 0x23 then some r else none
  | [] => none

/-- The whole expression. -/
def parse (s : Str) : Groups :=
  let (sch, s1) := scheme s
  let (auth, s2) := authority s1
  let path := s2.takeWhile (!oneOf (b! "?#") ·)
  let (q, s3) := query (s2.dropWhile (!oneOf (b! "?#") ·))
  ⟨sch, auth, path, q, fragment s3⟩

end AppendixB

/-- The text of a path: its segments separated by `/`, preceded by `/` if it is absolute. -/
def pathText (p : Path Str) : Str :=
  match p.segments with
  | [] => []
  | g :: gs => (if p.absolute then b! "/" else []) ++ g ++ Abnf.slashes gs

/-- RFC 3986 section 5.3, component recomposition. -/
def recompose (p : Parts Str) : Str :=
  (match p.scheme with
    | some s => s ++ b! ":"
    | none => []) ++
  (match p.authority with
    | some a => b! "//" ++ Abnf.authorityText a
    | none => []) ++
  pathText p.path ++ Abnf.optText (b! "?") p.query ++ Abnf.optText (b! "#") p.fragment

/-- A path behind an authority is absolute or empty. -/
def rooted (p : Parts Str) : Parts Str :=
  { p with path := { p.path with absolute := p.path.absolute || p.authority.isSome } }

/-- The components as the groups of appendix B. -/
def groupsOf (p : Parts Str) : Groups :=
  ⟨p.scheme, p.authority.map Abnf.authorityText, pathText p.path, p.query, p.fragment⟩

/-- A segment never contains the separator. -/
def NoSlash (g : Str) : Prop := (0x2F : UInt8) ∉ g

/-- Every present component is a sentence of its RFC 3986 rule; the host one of those the code
accepts. -/
structure ComponentsOk (p : Parts Str) : Prop where
  scheme : ∃ s, p.scheme = some s ∧ Abnf.scheme s
  userinfo : ∀ a, p.authority = some a → ∀ u, a.userinfo = some u → Abnf.userinfo u
  host : ∀ a, p.authority = some a → Abnf.HostAccepted a.host
  port : ∀ a, p.authority = some a → ∀ t, a.port = some t → Abnf.port t
  path : ∀ g ∈ p.path.segments, Abnf.segment g
  query : ∀ q, p.query = some q → Abnf.query q
  fragment : ∀ f, p.fragment = some f → Abnf.fragment f

/-- The shape RFC 3986 section 3.3 demands of the path of a URI without authority: it cannot
begin with `//`, a rootless one begins with a non-empty segment, and the empty path is not
absolute. -/
def PathShape (p : Parts Str) : Prop :=
  p.authority = none →
    match p.path.absolute, p.path.segments with
    | a, [] => a = false
    | true, g :: gs => g ≠ [] ∨ gs = []
    | false, g :: _ => g ≠ []

/-- Two parts values denote the same components: all text is the same, and the path's absolute
flag too unless there is an authority (whose path is always absolute or empty). -/
def SameComponents (p q : Parts Str) : Prop :=
  p.scheme = q.scheme ∧ p.authority = q.authority ∧ p.query = q.query ∧ p.fragment = q.fragment ∧
  p.path.segments = q.path.segments ∧ (p.authority = none → p.path.absolute = q.path.absolute)

/-- `v` is a sub-range of the buffer seen through `inp`. -/
def SubView (v inp : SV) : Prop :=
  ∃ pre post, inp.chars = pre ++ v.chars ++ post ∧ v.ptr = inp.ptr + pre.length

/-- All views held by a parts value. -/
def Parts.views (p : Parts SV) : List SV :=
  p.scheme.toList ++
  (match p.authority with
    | none => []
    | some a => a.userinfo.toList ++ [a.host] ++ a.port.toList) ++
  p.path.segments ++ p.query.toList ++ p.fragment.toList

/-- The text is 7-bit, or `char` is unsigned on the platform. -/
def CtypeSafe (pl : Plat) (s : Str) : Prop := pl.charSigned = false ∨ ∀ c ∈ s, c.toNat < 0x80

end Verif
