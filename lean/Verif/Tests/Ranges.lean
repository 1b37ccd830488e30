import Verif.Props.Ranges
import Verif.Props.Rule

/-!
# The project's own unit tests, run on the model: `test_rule.cpp`, `test_find_last.cpp`, `test_starts_with.cpp`

Tests of the model, not proofs of properties.
-/

namespace Verif.Tests

/-! ### `unittests/uri/test_rule.cpp` -/

/-- The fixture's `remember ()` and the other acceptor of `Rule.ConcatAcceptorOrder`. -/
inductive Act
  | remember
  | post
  deriving DecidableEq

/-- What an acceptor does to the fixture's `output`. -/
def act (out : List Str) : Act → SV → M (List Str)
  | .remember, s => .ok (out ++ [s.chars])
  | .post, s => .ok (out ++ [b! "post " ++ s.chars])

/-- `rule (s) … .done ()`, with the output. -/
def runRule (s : Str) (f : Rule Act → M (Rule Act)) : Option (Option (List Str)) :=
  (do let r ← f (Rule.ofSV ⟨4096, s⟩); r.done act []).toOption

/-- `single_char (c)`. -/
def sc (c : Char) : Matcher Act := Rule.singleChar ⟨true⟩ (.ofNat c.toNat)
/-- `r.concat (single_char (c), remember ()).matched ("c", r)`. -/
def one (c : Char) : Matcher Act := fun r => do Rule.matched r (← r.concatA (sc c) .remember)

/-- `rule::concat (match, accept)`, in call order. -/
abbrev cat (m : Matcher Act) (a : Act) (r : Rule Act) : M (Rule Act) := r.concatA m a

/-! `Rule.Concat` -/
example : runRule (b! "ab") (fun r => do cat (sc 'b') .remember (← cat (sc 'a') .remember r)) = some (some [b! "a", b! "b"]) := by decide +kernel
/-! `Rule.ConcatAcceptorOrder` -/
example : runRule (b! "ab") (cat (fun r => do Rule.matched r (← cat (sc 'b') .remember (← cat (sc 'a') .remember r))) .post) =
    some (some [b! "a", b! "b", b! "post ab"]) := by decide +kernel
/-! `Rule.FirstAlternative`, `Rule.SecondAlternative`, `Rule.AlternativeFail` -/
example : runRule (b! "ab") (fun r => do Rule.alternative [one 'b', one 'c'] (← cat (sc 'a') .remember r)) = some (some [b! "a", b! "b"]) := by decide +kernel
example : runRule (b! "ac") (fun r => do Rule.alternative [one 'b', one 'c'] (← cat (sc 'a') .remember r)) = some (some [b! "a", b! "c"]) := by decide +kernel
example : runRule (b! "ad") (fun r => do Rule.alternative [one 'b', one 'c'] (← cat (sc 'a') .remember r)) = some none := by rfl
/-! `Rule.Star`, `Rule.StarConcat`, `Rule.Star2` (with a finite bound on the repetitions: the default bound is not
evaluated here). -/
example : runRule (b! "aaa") (Rule.star (one 'a') 0 10) = some (some [b! "a", b! "a", b! "a"]) := by decide +kernel
example : runRule (b! "aaab") (fun r => do cat (sc 'b') .remember (← Rule.star (one 'a') 0 10 r)) = some (some [b! "a", b! "a", b! "a", b! "b"]) := by
  decide +kernel
example : runRule (b! "/") (Rule.star (fun r1 => do
      Rule.matched r1 (← cat (fun r2 => do Rule.matched r2 (← Rule.star (Rule.charRange ⟨true⟩ 0x61 0x7A) 0 10 r2)) .remember
        (← cat (sc '/') .remember r1))) 0 10) = some (some [b! "/", []]) := by decide +kernel
/-! `Rule.OptionalPresent`, `Rule.OptionalNotPresent` -/
example : runRule (b! "abc") (fun r => do cat (sc 'c') .remember (← Rule.optionalA (sc 'b') (some .remember) (← cat (sc 'a') .remember r))) =
    some (some [b! "a", b! "b", b! "c"]) := by decide +kernel
example : runRule (b! "ac") (fun r => do cat (sc 'c') .remember (← Rule.optionalA (sc 'b') (some .remember) (← cat (sc 'a') .remember r))) =
    some (some [b! "a", b! "c"]) := by decide +kernel

/-! ### `unittests/uri/test_find_last.cpp` -/

/-- `uri::find_last` as on a forward and on a bidirectional range. -/
def lasts (l : List Nat) (v : Nat) (proj : Nat → Nat := id) : List (Option (Nat × Nat)) :=
  [(findLast false proj v l).toOption, (findLast true proj v l).toOption]

/-! `FindLast.A`, `B`, `Empty`, `FoundAtFirst`, `FoundInMiddle`, `FoundAtLast`, `Filtered` -/
example : lasts [1, 2, 3, 1, 2, 3, 1, 2] 3 = [some (5, 8), some (5, 8)] := by decide +kernel
example : lasts [] 0x61 = [some (0, 0), some (0, 0)] := by decide +kernel
example : lasts [0x61, 0x62] 0x61 = [some (0, 2), some (0, 2)] := by decide +kernel
example : lasts [0x61, 0x62, 0x61] 0x62 = [some (1, 3), some (1, 3)] := by decide +kernel
example : lasts [0x61, 0x62, 0x61] 0x61 = [some (2, 3), some (2, 3)] := by decide +kernel
example : lasts ([1, 3, 5, 7, 7, 11].filter (decide <| · ≥ 5)) 7 = [some (2, 4), some (2, 4)] := by decide +kernel
/-! `FindLastInt.NotFound`, `One`, `Two`, `Three`, `Four`, `Five` -/
example : lasts [1, 2, 1, 2, 1, 2, 1, 2] 0 = [some (8, 8), some (8, 8)] := by decide +kernel
example : lasts [1, 2, 1, 2, 1, 2, 1, 2] 1 = [some (6, 8), some (6, 8)] := by decide +kernel
example : lasts [1, 2, 1, 2, 1, 2, 1, 2] 2 = [some (7, 8), some (7, 8)] := by decide +kernel
example : lasts [1, 2, 1, 2, 1, 2, 1, 2] 3 (· + 3) = [some (8, 8), some (8, 8)] := by decide +kernel
example : lasts [1, 2, 1, 2, 1, 2, 1, 2] 4 (· + 3) = [some (6, 8), some (6, 8)] := by decide +kernel
example : lasts [1, 2, 1, 2, 1, 2, 1, 2] 5 (· + 3) = [some (7, 8), some (7, 8)] := by decide +kernel

/-! ### `unittests/uri/test_starts_with.cpp` -/

/-- The test's `ascii_upper`. -/
def upper (c : UInt8) : UInt8 := if 0x61 ≤ c ∧ c ≤ 0x7A then c - 0x20 else c

/-- A string literal: an array with its terminating zero. -/
def lit (s : Str) : Str := s ++ [0]

example : startsWith (· == ·) id id (lit (b! "const_cast")) (b! "const") = true := by decide +kernel
example : startsWith (· == ·) id id (lit (b! "constexpr")) (b! "const") = true := by decide +kernel
example : startsWith (· == ·) id id (lit (b! "volatile")) (b! "const") = false := by decide +kernel
example : startsWith (· == ·) upper upper (lit (b! "Constantinopolis")) (b! "constant") = true := by decide +kernel
example : startsWith (· == ·) upper upper (lit (b! "Istanbul")) (b! "constant") = false := by decide +kernel
example : startsWith (fun x y => upper x == upper y) id id (lit (b! "Metropolis")) (b! "metro") = true := by decide +kernel
example : startsWith (fun x y => upper x == upper y) id id (lit (b! "Acropolis")) (b! "metro") = false := by decide +kernel
example : startsWith (· == ·) id id [1, 3, 5, 7, 9] [1, 3, 5] = true := by decide +kernel

end Verif.Tests
