import Verif.Spec.Components

/-!
# Specification: what `uri-split` prints
-/

namespace Verif.Spec

/-- `ls` are the lines of a text: none contains a newline, each is ended by one, except perhaps a last, non-empty line. -/
def IsLines (s : Str) (ls : List Str) : Prop :=
  (∀ l ∈ ls, (0x0A : UInt8) ∉ l) ∧
  (s = (ls.map (· ++ b! "\n")).flatten ∨
   ∃ ini last, ls = ini ++ [last] ∧ last ≠ [] ∧ s = (ini.map (· ++ b! "\n")).flatten ++ last)

/-- A value in double quotes, or `None`. -/
def shown : Option Str → Str
  | some s => b! "\"" ++ s ++ b! "\""
  | none => b! "None"

/-- The eight lines printed for an accepted line. -/
def reportLines (line : Str) (p : Parts Str) : List Str :=
  [b! "URI: " ++ line,
   b! " scheme: " ++ shown p.scheme,
   b! " userinfo: " ++ shown (p.authority.bind (·.userinfo)),
   b! " host: " ++ shown (p.authority.map (·.host)),
   b! " port: " ++ shown (p.authority.bind (·.port)),
   b! " path: " ++ shown (some (pathText p.path)),
   b! " query: " ++ shown p.query,
   b! " fragment: " ++ shown p.fragment]

/-- Lines as text. -/
def unlines (ls : List Str) : Str := (ls.map (· ++ b! "\n")).flatten

/-- The bytes of a name with a backslash before each double quote and each backslash. -/
def escaped : Str → Str
  | [] => []
  | c :: cs => (if c = 0x22 ∨ c = 0x5C then [0x5C, c] else [c]) ++ escaped cs

end Verif.Spec
