import Verif.Model.Locale

/-!
# Locales

What ISO C says of `isalpha`, `isalnum` and `tolower` in any locale, and what all locales that extend ASCII have in common.
-/

namespace Verif.Loc

/-- A locale on top of ASCII. -/
structure Standard (L : Locale) : Prop where
  /-- `isalnum` is `isalpha` or `isdigit` (ISO C 7.4.1.1). -/
  alnum : ∀ b, L.alnum b = (L.alpha b || isDigitB b)
  /-- `tolower` changes upper case letters only, and makes them lower case letters (7.4.1.7, 7.4.1.11, 7.4.2.1). -/
  lower : ∀ b, L.lower b = b ∨ (L.alpha b = true ∧ L.alpha (L.lower b) = true)
  /-- The ASCII letters are letters, and no other ASCII character is. -/
  ascii : ∀ b, b.toNat < 0x80 → L.alpha b = isAlphaB b
  /-- `V` and `v` are the upper and the lower case of one letter, and of no other.  (Nothing is asked of the other letters: in
  Turkish, `tolower ('I')` is not `i`.) -/
  letterV : ∀ b, L.lower b = 0x76 ↔ b = 0x76 ∨ b = 0x56

/-- A letter of the locale outside ASCII, as far as `<cctype>` can be asked: where `char` is signed these bytes are
negative values, for which the functions are not defined, or `EOF`. -/
def Foreign (e : Env) (b : UInt8) : Prop := e.pl.charSigned = false ∧ 0x80 ≤ b.toNat ∧ e.loc.alpha b = true

instance (e : Env) (b : UInt8) : Decidable (Foreign e b) := inferInstanceAs (Decidable (_ ∧ _))

/-- Write the letter `g` for each foreign letter. -/
def plain (e : Env) (b : UInt8) : UInt8 := if Foreign e b then 0x67 else b

/-- The same for the text of a view. -/
def plainV (e : Env) (s : SV) : SV := ⟨s.ptr, s.chars.map (plain e)⟩

/-- The same for every string of a parts value; everything else (which components there are, where their text is, how many
segments there are) stays as it is. -/
def plainP (e : Env) (p : Parts SV) : Parts SV := p.map (plainV e)

end Verif.Loc
