import Verif.Spec.Components

/-!
# Specification: reference resolution, RFC 3986 sections 5.2.2, 5.2.3 and 5.2.4

Written on strings, as the RFC does, with the five components of appendix B (`Groups`).
-/

namespace Verif.Rfc

/-- 5.2.4 2C "removing the last segment and its preceding "/" (if any) from the output buffer". -/
def dropLastSegment (out : Str) : Str := ((out.reverse.dropWhile (· != 0x2F)).drop 1).reverse

/-- The loop of 5.2.4: input buffer and output buffer.  Every step shortens the input, so
`removeDotSegments` gives enough fuel. -/
def removeDotsLoop : Nat → Str → Str → Str
  | 0, _, out => out
  | n + 1, inp, out =>
      if inp = [] then out
      -- A. prefix of "../" or "./": remove it
      else if (b! "../").isPrefixOf inp then removeDotsLoop n (inp.drop 3) out
      else if (b! "./").isPrefixOf inp then removeDotsLoop n (inp.drop 2) out
      -- B. prefix of "/./" or "/." (a complete segment): replace with "/"
      else if (b! "/./").isPrefixOf inp then removeDotsLoop n (b! "/" ++ inp.drop 3) out
      else if inp = b! "/." then removeDotsLoop n (b! "/") out
      -- C. prefix of "/../" or "/.." (a complete segment): replace with "/", remove last segment
      else if (b! "/../").isPrefixOf inp then removeDotsLoop n (b! "/" ++ inp.drop 4) (dropLastSegment out)
      else if inp = b! "/.." then removeDotsLoop n (b! "/") (dropLastSegment out)
      -- D. only "." or "..": remove it
      else if inp = b! "." ∨ inp = b! ".." then removeDotsLoop n [] out
      -- E. move the first segment, with the initial "/" if any, up to the next "/"
      else
        let seg := inp.take 1 ++ (inp.drop 1).takeWhile (· != 0x2F)
        removeDotsLoop n (inp.drop seg.length) (out ++ seg)

/-- Section 5.2.4. -/
def removeDotSegments (s : Str) : Str := removeDotsLoop (s.length + 1) s []

/-- "excluding any characters after the right-most "/", or the entire path if it has none". -/
def uptoLastSlash (s : Str) : Str := (s.reverse.dropWhile (· != 0x2F)).reverse

/-- Section 5.2.3. -/
def merge (base : Groups) (refPath : Str) : Str :=
  if base.authority.isSome ∧ base.path = [] then b! "/" ++ refPath else uptoLastSlash base.path ++ refPath

/-- Section 5.2.2: the pseudo-code. -/
def resolve (B R : Groups) (strict : Bool) : Groups :=
  let rscheme := if ¬ strict ∧ R.scheme = B.scheme then none else R.scheme
  if rscheme.isSome then
    ⟨rscheme, R.authority, removeDotSegments R.path, R.query, R.fragment⟩
  else if R.authority.isSome then
    ⟨B.scheme, R.authority, removeDotSegments R.path, R.query, R.fragment⟩
  else if R.path = [] then
    ⟨B.scheme, B.authority, B.path, if R.query.isSome then R.query else B.query, R.fragment⟩
  else if R.path.head? = some 0x2F then
    ⟨B.scheme, B.authority, removeDotSegments R.path, R.query, R.fragment⟩
  else
    ⟨B.scheme, B.authority, removeDotSegments (merge B R.path), R.query, R.fragment⟩

/-- Section 5.3, on the five components. -/
def recompose (g : Groups) : Str :=
  (match g.scheme with
    | some s => s ++ b! ":"
    | none => []) ++
  Abnf.optText (b! "//") g.authority ++ g.path ++ Abnf.optText (b! "?") g.query ++ Abnf.optText (b! "#") g.fragment

end Verif.Rfc

namespace Verif

/-- A complete `.` or `..` segment. -/
def isDot (g : Str) : Bool := g == b! "." || g == b! ".."

/-- The last segment is `.` or `..`. -/
def lastDot (gs : List Str) : Bool := (gs.getLast?.map isDot).getD false

/-- The paths parsing yields: no segment contains `/`, an empty path is not absolute, and a
relative one does not begin with an empty segment. -/
structure PathWf (p : Path Str) : Prop where
  noSlash : ∀ g ∈ p.segments, NoSlash g
  empty : p.segments = [] → p.absolute = false
  first : p.absolute = false → ∀ g gs, p.segments = g :: gs → g ≠ []

/-- Some `..` in the list comes at a point where no segment but the `d` before the list is left to remove, and they are
gone. -/
def sinks : Nat → List Str → Bool
  | _, [] => false
  | d, g :: gs => if g = b! "." then sinks d gs else if g = b! ".." then d == 0 || sinks (d - 1) gs else sinks (d + 1) gs

/-- In a relative path, some `..` removes the first segment that is not a dot segment. -/
def climbs (gs : List Str) : Bool :=
  match gs.dropWhile isDot with
  | [] => false
  | _ :: rest => sinks 0 rest

namespace Rfc

/-- The pieces between the slashes of a text. -/
def splitSlash : Str → List Str
  | [] => [[]]
  | c :: s =>
      if c = 0x2F then [] :: splitSlash s
      else
        match splitSlash s with
        | [] => [[c]]
        | g :: gs => (c :: g) :: gs

/-- The segments of a path: what the slashes separate, the first slash of an absolute path aside. -/
def segmentsOf (path : Str) : List Str :=
  if path = [] then [] else if path.head? = some 0x2F then splitSlash (path.drop 1) else splitSlash path

/-! How the library is found to deviate from sections 5.2.3 and 5.2.4. -/

/-- Is there a slash missing at the end?  Yes if the path ends with a dot segment and the result with an empty segment
before the last slash. -/
def shortEnd (path : Str) : Bool :=
  lastDot (segmentsOf path) &&
    ((b! "//").isSuffixOf (removeDotSegments path) ||
      (path.head? != some 0x2F && !climbs (segmentsOf path) && removeDotSegments path == b! "/"))

/-- Is there a slash missing at the start?  Yes if a relative path loses its first segment to a `..`: section 5.2.4 turns
it into an absolute path. -/
def shortStart (path : Str) : Bool := path.head? != some 0x2F && climbs (segmentsOf path)

/-- Section 5.2.4 as built. -/
def removeDotSegmentsBuilt (path : Str) : Str :=
  let r := removeDotSegments path
  let r := if shortStart path then r.drop 1 else r
  if shortEnd path then r.dropLast else r

/-- Section 5.2.3 as built: the last segment of the base path is kept if it is the only one. -/
def mergeBuilt (base : Groups) (refPath : Str) : Str :=
  if base.path ≠ [] ∧ 0x2F ∉ base.path.drop 1 then base.path ++ b! "/" ++ refPath else merge base refPath

/-- Section 5.2.2 with other functions for merging and for removing dot segments. -/
def resolveWith (mrg : Groups → Str → Str) (dots : Str → Str) (B R : Groups) (strict : Bool) : Groups :=
  let rscheme := if ¬ strict ∧ R.scheme = B.scheme then none else R.scheme
  if rscheme.isSome then
    ⟨rscheme, R.authority, dots R.path, R.query, R.fragment⟩
  else if R.authority.isSome then
    ⟨B.scheme, R.authority, dots R.path, R.query, R.fragment⟩
  else if R.path = [] then
    ⟨B.scheme, B.authority, B.path, if R.query.isSome then R.query else B.query, R.fragment⟩
  else if R.path.head? = some 0x2F then
    ⟨B.scheme, B.authority, dots R.path, R.query, R.fragment⟩
  else
    ⟨B.scheme, B.authority, dots (mrg B R.path), R.query, R.fragment⟩

end Rfc

/-- Section 5.2.2 comes to the last case, which merges the paths. -/
def Merges (b r : Parts Str) (strict : Bool) : Prop :=
  (r.scheme = none ∨ (strict = false ∧ r.scheme = b.scheme)) ∧ r.authority = none ∧
  r.path.segments ≠ [] ∧ r.path.absolute = false

end Verif
