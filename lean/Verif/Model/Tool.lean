import Verif.Model.Uri
import Verif.Model.Punycode

/-!
# The `uri-split` tool and the error codes

`/repo/tools/uri-split/uri-split.cpp` and `/repo/lib/uri/punycode.cpp`.
-/

namespace Verif.Tool

/-- `std::getline (is, line)` on a stream with `s` left to read: `none` when nothing could be
extracted (end of file), otherwise the line, without its newline, and what is left. -/
def getline (s : Str) : Option (Str × Str) :=
  match s with
  | [] => none
  | _ => some (s.takeWhile (· != 0x0A), (s.dropWhile (· != 0x0A)).drop 1)

/-- uri-split.cpp:31-33 the lambda `value_or_none`. -/
def valueOrNone : Option SV → Str
  | some s => b! "\"" ++ s.chars ++ b! "\""
  | none => b! "None"

/-- `std::quoted (s)`: delimiter and escape characters are escaped. -/
def quoted (s : Str) : Str :=
  b! "\"" ++ s.flatMap (fun c => if c == 0x22 || c == 0x5C then [0x5C, c] else [c]) ++ b! "\""

/-- uri-split.cpp:34-47: what is printed for a URI that was split.  (`r->authority->host` is a
`string_view`, converted to an engaged `optional`.) -/
def report (r : Parts SV) : Str :=
  b! " scheme: " ++ valueOrNone r.scheme ++
  (match r.authority with
    | some a =>
        b! "\n userinfo: " ++ valueOrNone a.userinfo ++ b! "\n host: " ++ valueOrNone (some a.host) ++
        b! "\n port: " ++ valueOrNone a.port
    | none => b! "\n userinfo: None" ++ b! "\n host: None" ++ b! "\n port: None") ++
  b! "\n path: " ++ quoted r.path.toStr ++ b! "\n query: " ++ valueOrNone r.query ++
  b! "\n fragment: " ++ valueOrNone r.fragment ++ b! "\n"

/-- uri-split.cpp:23-50 `read_stream`: the loop, with what was written to `std::cout` so far.
`addr` is the address of the characters of `line`.  Simplification: output never fails. -/
def readLoop (pl : Plat) (addr : Nat) : Nat → Str → Str → M (Bool × Str)
  | 0, _, _ => .error .diverge
  | fuel + 1, s, out =>
      match getline s with
      | none => .ok (true, out)
      | some (line, rest) => do
          let out := out ++ b! "URI: " ++ line ++ b! "\n"
          match ← split pl ⟨addr, line⟩ with
          | none => return (false, out)
          | some r => readLoop pl addr fuel rest (out ++ report r)

/-- uri-split.cpp:23-50 `read_stream`. -/
def readStream (pl : Plat) (addr : Nat) (s out : Str) : M (Bool × Str) := readLoop pl addr (s.length + 1) s out

/-- What can be observed of a run: the exit status is zero, the bytes on `stdout`, the bytes on `stderr`. -/
structure Outcome where
  success : Bool
  out : Str
  err : Str
  deriving DecidableEq, Repr

/-- uri-split.cpp:61-70, the loop over the arguments: each is a name and the contents of the file, if it could be
opened.  `operator<<` of a `std::filesystem::path` quotes it. -/
def argLoop (pl : Plat) (addr : Nat) : List (Str × Option Str) → Str → M Outcome
  | [], out => .ok ⟨true, out, []⟩
  | (name, none) :: _, out => .ok ⟨false, out, b! "Error: couldn't open " ++ quoted name ++ b! "\n"⟩
  | (_, some s) :: rest, out => do
      match ← readStream pl addr s out with
      | (false, out) => return ⟨false, out, []⟩
      | (true, out) => argLoop pl addr rest out

/-- uri-split.cpp:54-80 `main`: with no arguments the standard input is read.  Simplification: the handlers of
exceptions are not modelled, nothing here throws. -/
def main (pl : Plat) (addr : Nat) (args : List (Str × Option Str)) (stdin : Str) : M Outcome := do
  if args.isEmpty then
    let (ok, out) ← readStream pl addr stdin []
    return ⟨ok, out, []⟩
  else argLoop pl addr args []

end Verif.Tool

namespace Verif.Puny

/-- punycode.hpp:37-41 `decode_error_code` as the `int` of the enumerator. -/
def Err.code : Err → Int
  | .badInput => 1
  | .overflow => 2

/-- The categories an `error_code` of this library can have: `uri::punycode::error_category` and
`std::generic_category ()`. -/
inductive Category
  | punycode | generic
  deriving DecidableEq, Repr

/-- `std::error_code`. -/
structure ErrorCode where
  value : Int
  category : Category
  deriving DecidableEq, Repr

/-- `std::error_code::operator bool`. -/
def ErrorCode.isError (e : ErrorCode) : Bool := e.value != 0

/-- punycode.cpp:20-22 `error_category::name`. -/
def categoryName : Str := b! "punycode decode"

/-- punycode.cpp:23-30 `error_category::message`. -/
def message (error : Int) : Str :=
  if error = 1 then b! "bad input"
  else if error = 2 then b! "overflow"
  else b! "unknown error"

/-- punycode.cpp:31-34 `make_error_code`. -/
def makeErrorCode (e : Err) : ErrorCode := ⟨e.code, .punycode⟩

end Verif.Puny
