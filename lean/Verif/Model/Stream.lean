import Verif.Model.Uri

/-!
# Writing to a stream

The output operators of `lib/uri/uri.cpp` again, on a `std::ostream` with its error state, its field width and a device that may
take only so many characters: a file on a full disk, a closed pipe, or the memory of a string stream (an exception thrown
by the buffer while a formatted output function uses it is caught there and becomes `badbit`, [ostream.formatted.reqmts]).
-/

namespace Verif.Stream

/-- A stream. -/
structure OStream where
  /-- what the device has taken -/
  out : Str
  /-- how many more characters it takes (`none`: any number) -/
  room : Option Nat
  /-- `good ()` -/
  good : Bool
  /-- `width ()` -/
  width : Nat
  /-- `fill ()` -/
  fill : UInt8
  /-- `flags () & adjustfield` is `left` -/
  left : Bool
  /-- `exceptions () & badbit` -/
  badThrows : Bool
  /-- `exceptions () & failbit` -/
  failThrows : Bool
  deriving DecidableEq, Repr

/-- Which exception left. -/
inductive Thrown where
  /-- `std::ios_base::failure`, or the buffer's own exception thrown again -/
  | failure
  /-- `std::bad_alloc` -/
  | badAlloc
  deriving DecidableEq, Repr

/-- A call that returns the stream, or throws and leaves it in the state given. -/
abbrev SM := Except (Thrown × OStream) OStream

/-- The text with the padding that `width`, `fill` and `left` ask for. -/
def padded (os : OStream) (s : Str) : Str :=
  let fill := List.replicate (os.width - s.length) os.fill
  if os.left then s ++ fill else fill ++ s

/-- What the device takes of a text. -/
def taken (os : OStream) (s : Str) : Nat :=
  match os.room with
  | none => s.length
  | some k => min k s.length

/-- `os << s` for a string view, a string, a string literal or a character: nothing is written if the stream is not good (the
sentry then sets `failbit`); otherwise the padded text, and the width is reset. -/
def insert (s : Str) (os : OStream) : SM :=
  if !os.good then if os.failThrows then .error (.failure, os) else .ok os
  else
    let text := padded os s
    let k := taken os text
    let os' := { os with out := os.out ++ text.take k, room := os.room.map (· - k), width := 0, good := k == text.length }
    if !os'.good && os.badThrows then .error (.failure, os') else .ok os'

/-- `if (o.has_value ()) { f }` -/
def put (o : Option SV) (f : SV → OStream → SM) (os : OStream) : SM :=
  match o with
  | some s => f s os
  | none => .ok os

/-- `if (c) { os << s; }` -/
def putIf (c : Bool) (s : Str) (os : OStream) : SM := if c then insert s os else .ok os

/-- uri.cpp:909-924 `operator<<` for an authority. -/
def putAuthority (a : Authority SV) (os : OStream) : SM :=
  put a.userinfo (fun u os => insert u.chars os >>= insert (b! "@")) os >>=
  putIf (!a.host.chars.isEmpty) a.host.chars >>=
  put a.port fun p os => insert (b! ":") os >>= putIf (!p.chars.isEmpty) p.chars

/-- uri.cpp:926-928 `operator<<` for a path.  The conversion to `std::string` is outside the stream: if it runs out of memory
(`mem` is false) its exception is not caught. -/
def putPath (mem : Bool) (p : Path SV) (os : OStream) : SM :=
  if mem then insert p.toStr os else .error (.badAlloc, os)

/-- uri.cpp:1002-1007: the authority and what sets a path without `absolute` off from it. -/
def putNet (p : Parts SV) (os : OStream) : SM :=
  match p.authority with
  | some a => insert (b! "//") os >>= putAuthority a >>= putIf (!p.path.empty && !p.path.absolute) (b! "/")
  | none => .ok os

/-- uri.cpp:998-1016 `compose (std::ostream&, parts const&)`, and 1024-1026 `operator<<`. -/
def compose (mem : Bool) (p : Parts SV) (os : OStream) : SM :=
  put p.scheme (fun s os => insert s.chars os >>= insert (b! ":")) os >>=
  putNet p >>=
  putPath mem p.path >>=
  put p.query (fun q os => insert (b! "?") os >>= insert q.chars) >>=
  put p.fragment fun f os => insert (b! "#") os >>= insert f.chars

/-- A stream as it is made: good, without width or exceptions. -/
def fresh (room : Option Nat) : OStream := ⟨[], room, true, 0, 0x20, false, false, false⟩

/-- What memory there is for `compose (parts const&)`: for making the stream, for the characters in its buffer, for the
string of the path, and for the copy that `str ()` returns. -/
structure Memory where
  stream : Bool
  buffer : Option Nat
  path : Bool
  result : Bool

/-- uri.cpp:1018-1022 `compose (parts const&)`; `none`: `std::bad_alloc` left it. -/
def composeString (mem : Memory) (p : Parts SV) : Option Str :=
  if !mem.stream then none
  else
    match compose mem.path p (fresh mem.buffer) with
    | .error _ => none
    | .ok os => if mem.result then some os.out else none

end Verif.Stream
