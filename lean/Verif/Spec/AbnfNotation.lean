import Verif.Model.Base

/-!
# Specification: ABNF, the notation and its meaning (RFC 5234)

From the text of a grammar to the rules it defines, and from the rules to the texts they generate.  Nothing here
is about URIs.
-/

namespace Verif.AbnfFile

/-- The right-hand sides of rules. -/
inductive Elem
  /-- `"text"` -/
  | str (t : Str)
  /-- `%xAA-BB` -/
  | range (a b : Nat)
  /-- a rule name, or a rule name in angle brackets -/
  | rule (name : Str)
  | cat (a b : Elem)
  | alt (a b : Elem)
  /-- `[ e ]` -/
  | opt (e : Elem)
  /-- `<m>*<n>e` -/
  | rep (m : Nat) (n : Option Nat) (e : Elem)
  deriving DecidableEq, Repr

/-- The rules of a grammar in the order in which they are written. -/
abbrev Grammar := List (Str × Elem)

/-! ### Meaning -/

/-- ABNF strings are case-insensitive (RFC 5234 2.3). -/
def lower (c : UInt8) : UInt8 := if 0x41 ≤ c ∧ c ≤ 0x5A then c + 0x20 else c

/-- `Generates G e s`: the text `s` is generated by `e`, where rule names stand for the rules of `G`. -/
inductive Generates (G : Grammar) : Elem → Str → Prop
  | str {t s} : s.map lower = t.map lower → Generates G (.str t) s
  | range {a b} {c : UInt8} : a ≤ c.toNat → c.toNat ≤ b → Generates G (.range a b) [c]
  | rule {name e s} : (name, e) ∈ G → Generates G e s → Generates G (.rule name) s
  | cat {a b s t} : Generates G a s → Generates G b t → Generates G (.cat a b) (s ++ t)
  | altLeft {a b s} : Generates G a s → Generates G (.alt a b) s
  | altRight {a b s} : Generates G b s → Generates G (.alt a b) s
  | optNone {e} : Generates G (.opt e) []
  | optSome {e s} : Generates G e s → Generates G (.opt e) s
  | repNone {n e} : Generates G (.rep 0 n e) []
  /-- the first of at least `m`, and then at least `m - 1` more; if there is a limit, it is lowered by one -/
  | repMore {m e s t} : Generates G e s → Generates G (.rep (m - 1) none e) t → Generates G (.rep m none e) (s ++ t)
  | repMoreLimit {m n e s t} : Generates G e s → Generates G (.rep (m - 1) (some n) e) t → Generates G (.rep m (some (n + 1)) e) (s ++ t)

/-! ### Notation -/

/-- The symbols a line is made of. -/
inductive Tok
  | name (t : Str)
  | str (t : Str)
  | prose (t : Str)
  | num (n : Nat)
  | range (a b : Nat)
  /-- one of `= / * ( ) [ ]` -/
  | sym (c : UInt8)
  deriving DecidableEq, Repr

def isAlpha (c : UInt8) : Bool := (0x41 ≤ c && c ≤ 0x5A) || (0x61 ≤ c && c ≤ 0x7A)
def isDigit (c : UInt8) : Bool := 0x30 ≤ c && c ≤ 0x39
def isHex (c : UInt8) : Bool := isDigit c || (0x41 ≤ c && c ≤ 0x46) || (0x61 ≤ c && c ≤ 0x66)

/-- The value of digits in a base (10 or 16). -/
def value (base : Nat) (ds : Str) : Nat :=
  ds.foldl (fun n c => base * n + (if isDigit c then c.toNat - 0x30 else if c ≤ 0x46 then c.toNat - 0x37 else c.toNat - 0x57)) 0

/-- The symbols of a line; a comment goes from `;` to its end.  `fuel` is a bound on the length of the line. -/
def lex : Nat → Str → Option (List Tok)
  | _, [] => some []
  | 0, _ => none
  | fuel + 1, c :: s =>
      if c = 0x3B then some []
      else if c = 0x20 then lex fuel s
      else if isAlpha c then
        let cont := fun x => isAlpha x || isDigit x || x == 0x2D
        (lex fuel (s.dropWhile cont)).map (Tok.name (c :: s.takeWhile cont) :: ·)
      else if isDigit c then (lex fuel (s.dropWhile isDigit)).map (Tok.num (value 10 (c :: s.takeWhile isDigit)) :: ·)
      else if c = 0x22 then
        match s.dropWhile (· ≠ 0x22) with
        | [] => none
        | _ :: s' => (lex fuel s').map (Tok.str (s.takeWhile (· ≠ 0x22)) :: ·)
      else if c = 0x3C then
        match s.dropWhile (· ≠ 0x3E) with
        | [] => none
        | _ :: s' => (lex fuel s').map (Tok.prose (s.takeWhile (· ≠ 0x3E)) :: ·)
      else if c = 0x25 then
        match s with
        | 0x78 :: s =>
            match s.dropWhile isHex with
            | 0x2D :: s' => (lex fuel (s'.dropWhile isHex)).map (Tok.range (value 16 (s.takeWhile isHex)) (value 16 (s'.takeWhile isHex)) :: ·)
            | _ => none
        | _ => none
      else if c ∈ b! "=/*()[]" then (lex fuel s).map (Tok.sym c :: ·)
      else none

/-- The symbols of each line.  A rule starts on a line that is not indented, and goes on over the indented lines that
follow; its start is marked by the symbol `0x0A`. -/
def symbols : List Str → Option (List (List Tok))
  | [] => some []
  | [] :: ls => symbols ls
  | (c :: l) :: ls => do
      let ts ← lex (l.length + 1) (c :: l)
      let rs ← symbols ls
      some ((if c = 0x20 then ts else Tok.sym 0x0A :: ts) :: rs)

mutual

/-- `alternation = concatenation *( "/" concatenation )` -/
def alternation : Nat → List Tok → Option (Elem × List Tok)
  | 0, _ => none
  | fuel + 1, ts =>
      match concatenation fuel ts with
      | some (a, .sym 0x2F :: ts) => (alternation fuel ts).map fun (b, ts) => (.alt a b, ts)
      | r => r

/-- `concatenation = 1*repetition` -/
def concatenation : Nat → List Tok → Option (Elem × List Tok)
  | 0, _ => none
  | fuel + 1, ts =>
      match repetition fuel ts with
      | none => none
      | some (a, ts) =>
          match ts with
          | [] | .sym 0x2F :: _ | .sym 0x29 :: _ | .sym 0x5D :: _ | .sym 0x0A :: _ => some (a, ts)
          | _ => (concatenation fuel ts).map fun (b, ts) => (.cat a b, ts)

/-- `repetition = [ 1*DIGIT / ( *DIGIT "*" *DIGIT ) ] element` -/
def repetition : Nat → List Tok → Option (Elem × List Tok)
  | 0, _ => none
  | fuel + 1, ts =>
      match ts with
      | .num m :: .sym 0x2A :: .num n :: ts => (element fuel ts).map fun (e, ts) => (.rep m (some n) e, ts)
      | .num m :: .sym 0x2A :: ts => (element fuel ts).map fun (e, ts) => (.rep m none e, ts)
      | .sym 0x2A :: .num n :: ts => (element fuel ts).map fun (e, ts) => (.rep 0 (some n) e, ts)
      | .sym 0x2A :: ts => (element fuel ts).map fun (e, ts) => (.rep 0 none e, ts)
      | .num m :: ts => (element fuel ts).map fun (e, ts) => (.rep m (some m) e, ts)
      | ts => element fuel ts

/-- `element = rulename / group / option / char-val / num-val / prose-val` -/
def element : Nat → List Tok → Option (Elem × List Tok)
  | 0, _ => none
  | fuel + 1, ts =>
      match ts with
      | .name n :: ts => some (.rule n, ts)
      | .prose n :: ts => some (.rule n, ts)
      | .str t :: ts => some (.str t, ts)
      | .range a b :: ts => some (.range a b, ts)
      | .sym 0x28 :: ts =>
          match alternation fuel ts with
          | some (e, .sym 0x29 :: ts) => some (e, ts)
          | _ => none
      | .sym 0x5B :: ts =>
          match alternation fuel ts with
          | some (e, .sym 0x5D :: ts) => some (.opt e, ts)
          | _ => none
      | _ => none

end

/-- The rules, given the symbols of the whole text, in which `0x0A` marks the start of a rule. -/
def rules : Nat → List Tok → Option Grammar
  | _, [] => some []
  | 0, _ => none
  | fuel + 1, ts =>
      match ts with
      | .sym 0x0A :: .name n :: .sym 0x3D :: ts =>
          match alternation (6 * ts.length + 6) ts with
          | some (e, ts) => (rules fuel ts).map ((n, e) :: ·)
          | none => none
      | _ => none

/-- The grammar a text defines. -/
def parse (lines : List Str) : Option Grammar := do
  let ts ← symbols lines
  rules (ts.flatten.length + 1) ts.flatten

/-- The core rules that uri.abnf uses: RFC 5234 appendix B.1. -/
def coreAbnf : List Str := [
  b! "ALPHA = %x41-5A / %x61-7A",
  b! "DIGIT = %x30-39",
  b! "HEXDIG = DIGIT / \"A\" / \"B\" / \"C\" / \"D\" / \"E\" / \"F\""]

end Verif.AbnfFile
