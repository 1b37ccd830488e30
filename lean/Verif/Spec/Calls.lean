import Verif.Spec.Utf

/-!
# Specification: sequences of calls to a transcoder
-/

namespace Verif.Icu
open Verif.Unicode

/-- A call of a member function of a transcoder. -/
inductive Call (ι : Type)
  /-- `operator()` with a code unit. -/
  | unit (c : ι)
  /-- `end_cp`. -/
  | endCp
  deriving DecidableEq

/-- The code units of a sequence of calls. -/
def given {ι : Type} : List (Call ι) → List ι
  | [] => []
  | .unit c :: h => c :: given h
  | .endCp :: h => given h

/-- The code units given before the first call of `end_cp`. -/
def lead {ι : Type} : List (Call ι) → List ι
  | .unit c :: h => c :: lead h
  | _ => []

/-- The first call of `end_cp` and what comes after it. -/
def afterLead {ι : Type} : List (Call ι) → List (Call ι)
  | .unit _ :: h => afterLead h
  | h => h

/-- The calls that bytes of UTF-16 amount to: one for every two bytes, and one for every `end_cp`, even between the two
bytes of a code unit.  A byte of which nothing has come yet is in `p`. -/
def callUnits16 (big : Bool) : Option UInt8 → List (Call UInt8) → List (Call UInt16)
  | _, [] => []
  | p, .endCp :: h => .endCp :: callUnits16 big p h
  | none, .unit a :: h => callUnits16 big (some a) h
  | some a, .unit b :: h =>
      .unit (UInt16.ofNat (if big then a.toNat * 0x100 + b.toNat else b.toNat * 0x100 + a.toNat)) :: callUnits16 big none h

/-- The calls that bytes of UTF-32 amount to, as `callUnits16`.  As built, the upper eight bits of a little-endian code unit
are lost. -/
def callUnits32 (big : Bool) : Str → List (Call UInt8) → List (Call Nat)
  | _, [] => []
  | p, .endCp :: h => .endCp :: callUnits32 big p h
  | [a, b, c], .unit d :: h =>
      .unit (if big then ((a.toNat * 0x100 + b.toNat) * 0x100 + c.toNat) * 0x100 + d.toNat
        else (((d.toNat * 0x100 + c.toNat) * 0x100 + b.toNat) * 0x100 + a.toNat) % 0x1000000) :: callUnits32 big [] h
  | p, .unit a :: h => callUnits32 big (p ++ [a]) h

/-- What the calls to a transcoder of bytes amount to. -/
inductive CallContent
  /-- The encoding is not known yet. -/
  | undecided
  | utf8 (h : List (Call UInt8))
  | utf16 (big : Bool) (h : List (Call UInt16))
  | utf32 (big : Bool) (h : List (Call Nat))
  deriving DecidableEq

/-- What the calls to a transcoder of bytes amount to, as built.  The encoding is decided by the bytes before the first
`end_cp`; if these are only the beginning of a mark (or none) then this `end_cp` makes them UTF-8, they gain a zero byte
(unless there are none), and the `end_cp` itself is not passed on. -/
def callContent (h : List (Call UInt8)) : CallContent :=
  if [0xEF, 0xBB, 0xBF] <+: lead h then .utf8 (h.drop 3)
  else if [0xFE, 0xFF] <+: lead h then .utf16 true (callUnits16 true none (h.drop 2))
  else if [0x00, 0x00, 0xFE, 0xFF] <+: lead h then .utf32 true (callUnits32 true [] (h.drop 4))
  else if [0xFF, 0xFE, 0x00, 0x00] <+: lead h then .utf32 false (callUnits32 false [] (h.drop 4))
  else if [0xFF, 0xFE] <+: lead h ∧ 2 < (lead h).length ∧ (lead h)[2]? ≠ some 0 then .utf16 false (callUnits16 false none (h.drop 2))
  else if ∃ m ∈ marks, lead h <+: m then
    if afterLead h = [] then .undecided
    else if lead h = [] then .utf8 (afterLead h).tail
    else .utf8 ((lead h ++ [0]).map .unit ++ (afterLead h).tail)
  else .utf8 h

end Verif.Icu
