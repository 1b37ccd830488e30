/-!
# Bytes, string views, faults and `<cctype>`

The vocabulary shared by every model file.
-/

namespace Verif

/-- A byte string: the contents of a `std::string` or of the range seen through a
`std::string_view`. -/
abbrev Str := List UInt8

open Lean in
/-- `b! "text"` is the list of bytes of a string literal (notation only). -/
macro "b!" s:str : term => do
  let elems := s.getString.toUTF8.toList.map fun b => Syntax.mkNumLit (toString b.toNat)
  `(([$(elems.toArray),*] : List UInt8))

/-- Abnormal outcomes.  Each is distinct from every value a function can return.
* `ctype`      a `<cctype>` function called with a value outside `unsigned char` and `EOF`
* `outOfRange` `string_view::substr` with `pos > size()` (throws; the callers are `noexcept` or
               do not catch), or `remove_prefix` beyond the size (undefined)
* `emptyBack`  `vector::back()` on an empty vector (undefined; guarded by an `assert`)
* `assertion`  a failed `assert`
* `diverge`    a loop that never terminates
* `dangling`   use of an object that has been destroyed (undefined) -/
inductive Fault
  | ctype | outOfRange | emptyBack | assertion | diverge | dangling
  deriving DecidableEq, Repr

/-- Computations that may end in a fault. -/
abbrev M := Except Fault

deriving instance DecidableEq for Except

/-- Implementation-defined choices of the platform the code relies on: whether `char` is a
signed type. -/
structure Plat where
  charSigned : Bool
  deriving DecidableEq, Repr

/-- A `std::string_view`: address of the first byte (0 is `nullptr`) and the bytes seen. -/
structure SV where
  ptr : Nat
  chars : Str
  deriving DecidableEq, Repr

namespace SV

/-- The default-constructed view: null pointer, size 0 (`emplace_back ()`, uri.cpp:487,797,800). -/
def null : SV := ⟨0, []⟩

/-- `string_view::size`/`length`. -/
def size (s : SV) : Nat := s.chars.length

/-- `string_view::substr (pos, n)`: throws `out_of_range` if `pos > size ()`. -/
def substr (s : SV) (pos : Nat) (n : Nat) : M SV :=
  if pos ≤ s.size then .ok ⟨s.ptr + pos, (s.chars.drop pos).take n⟩ else .error .outOfRange

/-- `string_view::substr (pos)`. -/
def substrFrom (s : SV) (pos : Nat) : M SV :=
  if pos ≤ s.size then .ok ⟨s.ptr + pos, s.chars.drop pos⟩ else .error .outOfRange

/-- `string_view::remove_prefix (n)`: undefined if `n > size ()`. -/
def removePrefix (s : SV) (n : Nat) : M SV := s.substrFrom n

end SV

/-- Values for which a `<cctype>` function called as `f (static_cast<int> (c))` is defined: with
signed `char`, bytes `0x80 ..= 0xFE` become negative and are not `EOF`. -/
def ctypeOk (pl : Plat) (c : UInt8) : Bool :=
  !pl.charSigned || decide (c.toNat < 0x80) || decide (c.toNat = 0xFF)

/-- `ALPHA` in the "C" locale. -/
def isAlphaB (c : UInt8) : Bool :=
  (decide (0x41 ≤ c.toNat) && decide (c.toNat ≤ 0x5A)) ||
  (decide (0x61 ≤ c.toNat) && decide (c.toNat ≤ 0x7A))

/-- `DIGIT`. -/
def isDigitB (c : UInt8) : Bool := decide (0x30 ≤ c.toNat) && decide (c.toNat ≤ 0x39)

/-- Hexadecimal digit, either case. -/
def isXDigitB (c : UInt8) : Bool :=
  isDigitB c || (decide (0x41 ≤ c.toNat) && decide (c.toNat ≤ 0x46)) ||
  (decide (0x61 ≤ c.toNat) && decide (c.toNat ≤ 0x66))

/-- `tolower` in the "C" locale. -/
def toLowerB (c : UInt8) : UInt8 :=
  if 0x41 ≤ c.toNat ∧ c.toNat ≤ 0x5A then UInt8.ofNat (c.toNat + 0x20) else c

/-- A `<cctype>` call on a `char` converted with `static_cast<int>`. -/
def ctype {β : Type} (pl : Plat) (f : UInt8 → β) (c : UInt8) : M β :=
  if ctypeOk pl c then .ok (f c) else .error .ctype

/-- `std::isalpha (static_cast<int> (c))`. -/
def isalpha (pl : Plat) (c : UInt8) : M Bool := ctype pl isAlphaB c
/-- `std::isdigit (static_cast<int> (c))`. -/
def isdigit (pl : Plat) (c : UInt8) : M Bool := ctype pl isDigitB c
/-- `std::isxdigit (static_cast<int> (c))`. -/
def isxdigit (pl : Plat) (c : UInt8) : M Bool := ctype pl isXDigitB c
/-- `std::isalnum (static_cast<int> (c))`. -/
def isalnum (pl : Plat) (c : UInt8) : M Bool := ctype pl (fun c => isAlphaB c || isDigitB c) c
/-- `std::tolower (static_cast<int> (c))`; the `int` result is kept as a byte (`EOF` as 0xFF,
which compares unequal to, and outside every range of, the ASCII values it is compared with). -/
def tolower (pl : Plat) (c : UInt8) : M UInt8 := ctype pl toLowerB c

end Verif
