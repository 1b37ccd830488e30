import Verif.Model.Grammar

/-!
# `uri::parts` and the functions on it

`include/uri/uri.hpp` 72-127 and `lib/uri/uri.cpp` 721-1028.

The structures are generic in the string type: `SV` for what the code handles (views with an
address), `Str` for their text.
-/

namespace Verif

/-- uri.hpp:73-85 `parts::path`. -/
structure Path (σ : Type) where
  absolute : Bool
  segments : List σ
  deriving DecidableEq, Repr

/-- uri.hpp:86-95 `parts::authority`. -/
structure Authority (σ : Type) where
  userinfo : Option σ
  host : σ
  port : Option σ
  deriving DecidableEq, Repr

/-- uri.hpp:72-112 `parts`. -/
structure Parts (σ : Type) where
  scheme : Option σ
  authority : Option (Authority σ)
  path : Path σ
  query : Option σ
  fragment : Option σ
  deriving DecidableEq, Repr

/-- Apply a function to every string of a path. -/
def Path.map {σ τ : Type} (f : σ → τ) (p : Path σ) : Path τ := ⟨p.absolute, p.segments.map f⟩
/-- Apply a function to every string of an authority. -/
def Authority.map {σ τ : Type} (f : σ → τ) (a : Authority σ) : Authority τ :=
  ⟨a.userinfo.map f, f a.host, a.port.map f⟩
/-- Apply a function to every string of a parts value. -/
def Parts.map {σ τ : Type} (f : σ → τ) (p : Parts σ) : Parts τ :=
  ⟨p.scheme.map f, p.authority.map (·.map f), p.path.map f, p.query.map f, p.fragment.map f⟩

/-- The text of a parts value: forget the addresses. -/
def Parts.text (p : Parts SV) : Parts Str := p.map SV.chars

/-- uri.hpp:97-101: a default-constructed `parts`. -/
def Parts.init {σ : Type} : Parts σ := ⟨none, none, ⟨false, []⟩, none, none⟩

/-- uri.hpp:107-109 `ensure_authority`: the authority, a default one (null host) if absent. -/
def Parts.ensureAuthority (p : Parts SV) : Authority SV :=
  match p.authority with
  | some a => a
  | none => ⟨none, SV.null, none⟩

/-- uri.hpp:79 `path::empty`. -/
def Path.empty {σ : Type} (p : Path σ) : Bool := p.segments.isEmpty

/-- The effect of the acceptors of uri.cpp on the `result` object; lines as cited at `Act`. -/
def runAct (p : Parts SV) (a : Act) (s : SV) : M (Parts SV) :=
  match a with
  | .setScheme => .ok { p with scheme := some s }
  | .setUserinfo => .ok { p with authority := some { p.ensureAuthority with userinfo := some s } }
  | .setHost => .ok { p with authority := some { p.ensureAuthority with host := s } }
  | .setPort => .ok { p with authority := some { p.ensureAuthority with port := some s } }
  | .appendDir isAbs =>
      .ok { p with path := { absolute := if isAbs then true else p.path.absolute,
                             segments := p.path.segments ++ [SV.null] } }
  | .appendSegment =>
      match p.path.segments with
      | [] => .error .emptyBack
      | g :: gs => .ok { p with path := { p.path with segments := (g :: gs).dropLast ++ [s] } }
  | .recordInitial => .ok { p with path := { p.path with segments := p.path.segments ++ [s] } }
  | .setQuery => .ok { p with query := some s }
  | .setFragment => .ok { p with fragment := some s }

/-- `if (parts result; rule{in}.concat (m).done ()) return result; return {};` -/
def runGrammar (m : Matcher Act) (inp : SV) : M (Option (Parts SV)) :=
  Rule.concat m (Rule.ofSV inp) >>= Rule.done runAct Parts.init

/-- uri.cpp:896-901 `split`. -/
def split (pl : Plat) (inp : SV) : M (Option (Parts SV)) := runGrammar (Grammar.URI pl) inp

/-- uri.cpp:902-907 `split_reference`. -/
def splitReference (pl : Plat) (inp : SV) : M (Option (Parts SV)) :=
  runGrammar (Grammar.URIReference pl) inp

/-- `rule{s}.concat (m).done ()` for the field matchers, whose acceptor lists are empty. -/
def fieldOk (m : Matcher Act) (s : SV) : M Bool := do
  return (← runGrammar m s).isSome

/-- Run a check on an optional field: absent fields pass. -/
def optOk (m : Matcher Act) : Option SV → M Bool
  | none => .ok true
  | some s => fieldOk m s

/-- The loop of `path::valid` (uri.cpp:829-833): it stops at the first bad segment. -/
def allOk (ok : SV → M Bool) : List SV → M Bool
  | [] => .ok true
  | g :: gs => do if ← ok g then allOk ok gs else return false

/-- uri.cpp:828-835 `path::valid`. -/
def Path.valid (pl : Plat) (p : Path SV) : M Bool := allOk (fieldOk (Grammar.segment pl)) p.segments

/-- uri.cpp:841-853 `authority::valid`. -/
def Authority.valid (pl : Plat) (a : Authority SV) : M Bool := do
  if !(← optOk (Grammar.userinfo pl) a.userinfo) then return false
  if !(← fieldOk (Grammar.host pl) a.host) then return false
  if !(← optOk (Grammar.port pl) a.port) then return false
  return true

/-- uri.cpp:855-875 `parts::valid`. -/
def Parts.valid (pl : Plat) (p : Parts SV) : M Bool := do
  match p.scheme with
  | none => return false
  | some s =>
    if !(← fieldOk (Grammar.scheme pl) s) then return false
    if !(← (match p.authority with
            | none => pure true
            | some a => a.valid pl)) then return false
    if !(← p.path.valid pl) then return false
    if !(← optOk (Grammar.query pl) p.query) then return false
    if !(← optOk (Grammar.fragment pl) p.fragment) then return false
    return true

/-- `std::string_view::operator==` compares the text, not the addresses. -/
def SV.eq (a b : SV) : Bool := a.chars == b.chars

/-- `std::optional<T>::operator==`. -/
def optEq {σ : Type} (eq : σ → σ → Bool) : Option σ → Option σ → Bool
  | none, none => true
  | some a, some b => eq a b
  | _, _ => false

/-- `std::vector<T>::operator==`. -/
def vecEq {σ : Type} (eq : σ → σ → Bool) : List σ → List σ → Bool
  | [], [] => true
  | a :: as, b :: bs => eq a b && vecEq eq as bs
  | _, _ => false

/-- uri.cpp:759-761 `path::operator==`. -/
def Path.eq (a b : Path SV) : Bool := a.absolute == b.absolute && vecEq SV.eq a.segments b.segments

/-- uri.cpp:837-839 `authority::operator==`. -/
def Authority.eq (a b : Authority SV) : Bool :=
  optEq SV.eq a.userinfo b.userinfo && SV.eq a.host b.host && optEq SV.eq a.port b.port

/-- uri.cpp:877-894 `parts::operator==`. -/
def Parts.eq (a b : Parts SV) : Bool :=
  if !(optEq SV.eq a.scheme b.scheme) || !(optEq Authority.eq a.authority b.authority) ||
     !(optEq SV.eq a.query b.query) || !(optEq SV.eq a.fragment b.fragment) then false
  else if a.authority.isSome && b.authority.isSome then
    if !(vecEq SV.eq a.path.segments b.path.segments) then false else true
  else
    if !(Path.eq a.path b.path) then false else true

/-- The loop of `remove_dot_segments` (uri.cpp:774-792) on the vector `v`: `n` iterations remain,
`it` and `outit` are positions, `lastDir` is `last_dir`.  The vector is updated in place. -/
def rdsLoop : Nat → Nat → Nat → Bool → List SV → Nat × Bool × List SV
  | 0, _, outit, lastDir, v => (outit, lastDir, v)
  | n + 1, it, outit, lastDir, v =>
      match v[it]? with
      | none => (outit, lastDir, v)  -- not reached: `it` is a valid position
      | some g =>
          if g.chars = b! "." then rdsLoop n (it + 1) outit true v
          else if g.chars = b! ".." then
            rdsLoop n (it + 1) (if outit ≠ 0 then outit - 1 else outit) true v
          else
            rdsLoop n (it + 1) (outit + 1) g.chars.isEmpty (if outit ≠ it then v.set outit g else v)

/-- uri.cpp:769-804 `path::remove_dot_segments`. -/
def Path.removeDotSegments (p : Path SV) : Path SV :=
  let (outit, lastDir, v) := rdsLoop p.segments.length 0 0 false p.segments
  let segs := v.take outit
  if lastDir then
    match segs.getLast? with
    | none => { p with segments := segs ++ [SV.null] }
    | some b => if !b.chars.isEmpty then { p with segments := segs ++ [SV.null] }
                else { p with segments := segs }
  else { p with segments := segs }

/-- uri.cpp:806-815 `path::operator std::string`: the loop with its `separator` variable. -/
def Path.toStr (p : Path SV) : Str := go (if p.absolute then b! "/" else []) [] p.segments
where
  /-- the `for` loop: separator, text so far, remaining segments -/
  go : Str → Str → List SV → Str
  | _, acc, [] => acc
  | sep, acc, g :: gs => go (b! "/") (acc ++ sep ++ g.chars) gs

/-- `std::filesystem::path::operator/=` for a POSIX generic path ([fs.path.append]): an absolute
right operand replaces the path; otherwise a separator is added when the left operand has a
file name (is non-empty and does not end with `/`), then the operand. -/
def fsAppend (p s : Str) : Str :=
  if s.head? = some 0x2F then s
  else if p.getLast? ≠ none ∧ p.getLast? ≠ some 0x2F then p ++ b! "/" ++ s
  else p ++ s

/-- uri.cpp:817-826 `path::operator std::filesystem::path` (native string of the result). -/
def Path.toFs (p : Path SV) : Str :=
  p.segments.foldl (fun acc g => fsAppend acc g.chars) (if p.absolute then fsAppend [] (b! "/") else [])

/-- uri.cpp:730-753 `merge`. -/
def merge (base ref : Parts SV) : Path SV :=
  if base.authority.isSome && base.path.empty then
    { absolute := true, segments := ref.path.segments }
  else
    let last := if base.path.segments.length > 1 then base.path.segments.length - 1
                else base.path.segments.length
    { absolute := base.path.absolute,
      segments := base.path.segments.take last ++ ref.path.segments }

/-- uri.cpp:940-983 `join` on parts. -/
def join (base reference : Parts SV) (strict : Bool) : Parts SV :=
  let refScheme := if !strict && optEq SV.eq reference.scheme base.scheme then none
                   else reference.scheme
  match refScheme with
  | some s =>
      { scheme := some s, authority := reference.authority,
        path := reference.path.removeDotSegments,
        query := reference.query, fragment := reference.fragment }
  | none =>
      match reference.authority with
      | some a =>
          { scheme := base.scheme, authority := some a,
            path := reference.path.removeDotSegments,
            query := reference.query, fragment := reference.fragment }
      | none =>
          if reference.path.empty then
            { scheme := base.scheme, authority := base.authority, path := base.path,
              query := if reference.query.isSome then reference.query else base.query,
              fragment := reference.fragment }
          else if reference.path.absolute then
            { scheme := base.scheme, authority := base.authority,
              path := reference.path.removeDotSegments,
              query := reference.query, fragment := reference.fragment }
          else
            { scheme := base.scheme, authority := base.authority,
              path := (merge base reference).removeDotSegments,
              query := reference.query, fragment := reference.fragment }

/-- uri.cpp:985-996 `join` on strings. -/
def joinStr (pl : Plat) (base reference : SV) (strict : Bool) : M (Option (Parts SV)) := do
  match ← split pl base with
  | none => return none
  | some b =>
    match ← splitReference pl reference with
    | none => return none
    | some r => return some (join b r strict)

/-- uri.cpp:909-924 `operator<<` for an authority: the text it appends. -/
def Authority.toStr (a : Authority SV) : Str :=
  (match a.userinfo with
    | some u => u.chars ++ b! "@"
    | none => []) ++
  (if !a.host.chars.isEmpty then a.host.chars else []) ++
  (match a.port with
    | some p => b! ":" ++ (if !p.chars.isEmpty then p.chars else [])
    | none => [])

/-- uri.cpp:998-1022 `compose`. -/
def compose (p : Parts SV) : Str :=
  (match p.scheme with
    | some s => s.chars ++ b! ":"
    | none => []) ++
  (match p.authority with
    | some a => b! "//" ++ a.toStr ++ (if !p.path.empty && !p.path.absolute then b! "/" else [])
    | none => []) ++
  p.path.toStr ++
  (match p.query with
    | some q => b! "?" ++ q.chars
    | none => []) ++
  (match p.fragment with
    | some f => b! "#" ++ f.chars
    | none => [])

end Verif
