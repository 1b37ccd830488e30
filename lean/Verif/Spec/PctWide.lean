import Verif.Spec.Pct

/-!
# Specification: percent coding of text in other character types

A unit is the number it is as an unsigned value.
-/

namespace Verif.WideSpec

/-- The unit `c` is a hexadecimal digit, of either case, with value `v`. -/
def HexVal (c v : Nat) : Prop := ∃ b : UInt8, b.toNat = c ∧ PctSpec.HexVal b v

/-- The unit `c` is an upper-case hexadecimal digit with value `v`. -/
def HexUpper (c v : Nat) : Prop := ∃ b : UInt8, b.toNat = c ∧ PctSpec.HexUpper b v

/-- `%hl` is a triplet denoting `b`. -/
def Triplet (h l b : Nat) : Prop := ∃ x y, HexVal h x ∧ HexVal l y ∧ b = 16 * x + y

/-- The text begins with a well-formed triplet. -/
def StartsTriplet (s : List Nat) : Prop := ∃ h l b t, s = 0x25 :: h :: l :: t ∧ Triplet h l b

/-- `Decodes s d`: scanning `s` from left to right, replacing each well-formed triplet by what it denotes and copying every
other unit, yields `d`. -/
inductive Decodes : List Nat → List Nat → Prop
  | nil : Decodes [] []
  | triplet {h l b s d} : Triplet h l b → Decodes s d → Decodes (0x25 :: h :: l :: s) (b :: d)
  | copy {c s d} : ¬ StartsTriplet (c :: s) → Decodes s d → Decodes (c :: s) (c :: d)

/-- `Encodes P s e`: `e` is `s` with each unit *whose low eight bits* are in `P` replaced by `%` and the two upper-case
digits of *those bits*, and every other unit copied, whatever its size. -/
inductive Encodes (P : UInt8 → Prop) : List Nat → List Nat → Prop
  | nil : Encodes P [] []
  | triplet {c b h l s e} : b.toNat = c % 256 → P b → (∃ x y, HexUpper h x ∧ HexUpper l y ∧ c % 256 = 16 * x + y) → Encodes P s e →
      Encodes P (c :: s) (0x25 :: h :: l :: e)
  | copy {c b s e} : b.toNat = c % 256 → ¬ P b → Encodes P s e → Encodes P (c :: s) (c :: e)

end Verif.WideSpec
