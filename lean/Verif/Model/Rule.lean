import Verif.Model.Base

/-!
# The `rule` class

`include/uri/rule.hpp` and `lib/uri/rule.cpp`, member by member.

`std::function<void (std::string_view)>` acceptors are represented by values of a type `α`; what
running one does is given when `done` is called.  Match functions are functions from a rule to an
optional (matched text, acceptors) pair; they may fault.
-/

namespace Verif

/-- `unsigned` is 32 bits: `std::numeric_limits<unsigned>::max () + 1`. -/
def uintMod : Nat := 4294967296

/-- `std::numeric_limits<unsigned>::max ()`: the default `max` of `star` (rule.hpp:146-147). -/
def uintMax : Nat := 4294967295

/-- rule.hpp:96-97 `acceptor_container`. -/
abbrev Acceptors (α : Type) := List (α × SV)

/-- rule.hpp:98-99 `matched_result`. -/
abbrev Matched (α : Type) := Option (SV × Acceptors α)

/-- rule.hpp:203-204: the data members `tail_` and `acceptors_`. -/
structure Rule (α : Type) where
  tail : Option SV
  acc : Acceptors α
  deriving DecidableEq, Repr

/-- A match function (`std::is_invocable_v<MatchFunction, rule&&>`). -/
abbrev Matcher (α : Type) := Rule α → M (Matched α)

namespace Rule
variable {α : Type}

/-- rule.hpp:101: `explicit rule (std::string_view string)`. -/
def ofSV (s : SV) : Rule α := ⟨some s, []⟩

/-- rule.hpp:172: the default (failed) rule. -/
def failed : Rule α := ⟨none, []⟩

/-- rule.hpp:187-190: `join_rule (matched_result::value_type const&)`.  Only called when `tail_`
holds a value; a disengaged `tail_` would be undefined and is a fault here. -/
def joinMatched (r : Rule α) (m : SV × Acceptors α) : M (Rule α) :=
  match r.tail with
  | none => .error .assertion
  | some t => do
      let t' ← t.substrFrom m.1.size
      return ⟨some t', r.acc ++ m.2⟩

/-- rule.hpp:192-194: `join_rule (rule const&)`. -/
def joinRule (r other : Rule α) : Rule α := ⟨other.tail, r.acc ++ other.acc⟩

/-- rule.hpp:293-312 `concat_impl`.  `accept = none` stands for `&rule::accept_nop`. -/
def concatImpl (m : Matcher α) (accept : Option α) (isOptional : Bool) (r : Rule α) : M (Rule α) :=
  match r.tail with
  | none => .ok r
  | some t => do
      match ← m (ofSV t) with
      | some (head, acc) =>
          let acc' := match accept with
            | none => acc
            | some a => acc ++ [(a, head)]
          r.joinMatched (head, acc')
      | none => if isOptional then .ok r else .ok failed

/-- rule.hpp:117-121 `concat (match)`. -/
def concat (m : Matcher α) (r : Rule α) : M (Rule α) := concatImpl m none false r

/-- rule.hpp:111-115 `concat (match, accept)`. -/
def concatA (m : Matcher α) (accept : α) (r : Rule α) : M (Rule α) :=
  concatImpl m (some accept) false r

/-- rule.hpp:273-284 `optional (match, accept)`; `accept = none` stands for `&rule::accept_nop`. -/
def optionalA (m : Matcher α) (accept : Option α) (r : Rule α) : M (Rule α) :=
  match r.tail with
  | none => .ok r
  | some t => do
      let res ← concatImpl m accept true (ofSV t)
      match res.tail with
      | none => .ok r
      | some _ => .ok (r.joinRule res)

/-- rule.hpp:286-290 `optional (match)`. -/
def optional (m : Matcher α) (r : Rule α) : M (Rule α) := optionalA m none r

/-- The loop of `star` (rule.hpp:215-235).  State: `count` (an `unsigned`, wrapping), the text
still to be matched, the accumulated length and acceptors.  Returns them as the loop is left.

`fuel` bounds the number of iterations.  `star` starts it with `size + max + 2`.  Every
iteration increments `count`, so with `max` below `uintMax` the loop ends by `count > max` before
the fuel is used up; with `max = uintMax`, running out of it means that some match consumed
nothing, and as a match function is a function of the text the real loop then never ends. -/
def starLoop (m : Matcher α) (max : Nat) :
    Nat → Nat → SV → Nat → Acceptors α → M (Nat × Nat × Acceptors α)
  | 0, _, _, _, _ => .error .diverge
  | fuel + 1, count, str, length, acc => do
      match ← m (ofSV str) with
      | none => .ok (count, length, acc)
      | some (head, a) =>
          let count := (count + 1) % uintMod
          if count > max then .ok (count, length, acc)
          else do
            let l := head.size
            let str ← str.removePrefix l
            starLoop m max fuel count str (length + l) (acc ++ a)

/-- rule.hpp:209-241 `star`. -/
def star (m : Matcher α) (min max : Nat) (r : Rule α) : M (Rule α) :=
  match r.tail with
  | none => .ok r
  | some t => do
      let (count, length, acc) ← starLoop m max (t.size + max + 2) 0 t 0 r.acc
      if count < min then .ok failed
      else do
        let t' ← t.substrFrom length
        return ⟨some t', acc⟩

/-- rule.hpp:149 and 245-257 `alternative`; the parameter pack is a list. -/
def alternative : List (Matcher α) → Rule α → M (Rule α)
  | [], _ => .ok failed
  | m :: rest, r =>
      match r.tail with
      | none => .ok r
      | some t => do
          match ← m (ofSV t) with
          | some x => r.joinMatched x
          | none => alternative rest r

/-- rule.cpp:36-56 `matched`: `this` is the rule after matching, `inp` the one before it.  The
count passed to `substr` is `in.tail_->length () - tail_->length ()`, an unsigned subtraction: if
the tail were longer than the input it would wrap to a huge number, which `substr` clamps to the
whole input. -/
def matched (inp : Rule α) (r : Rule α) : M (Matched α) :=
  match r.tail with
  | none => .ok none
  | some t =>
      match inp.tail with
      | none => .error .assertion
      | some it => do
          let n := if t.size ≤ it.size then it.size - t.size else it.size
          let s ← it.substr 0 n
          return some (s, r.acc)

/-- rule.hpp:316-323 `single_char (Predicate)`. -/
def singleCharP (pred : UInt8 → M Bool) (r : Rule α) : M (Matched α) :=
  match r.tail with
  | none => .ok none
  | some sv =>
      match sv.chars with
      | [] => .ok none
      | c :: _ => do
          if ← pred c then do
            let s ← sv.substr 0 1
            return some (s, [])
          else return none

/-- rule.hpp:163-167 `single_char (char)`: comparison after `tolower` of both. -/
def singleChar (pl : Plat) (c : UInt8) (r : Rule α) : M (Matched α) := do
  let c2 ← tolower pl c
  singleCharP (fun d => do return c2 == (← tolower pl d)) r

/-- rule.hpp:328-336 `char_range` (and uri.cpp:32-46 `code_point_range`). -/
def charRange (pl : Plat) (first last : UInt8) (r : Rule α) : M (Matched α) := do
  let f ← tolower pl first
  let l ← tolower pl last
  singleCharP (fun c => do
    let cl ← tolower pl c
    return decide (f.toNat ≤ cl.toNat) && decide (cl.toNat ≤ l.toNat)) r

/-- rule.hpp:338-341 `alpha`. -/
def alpha (pl : Plat) (r : Rule α) : M (Matched α) := singleCharP (isalpha pl) r
/-- rule.hpp:342-345 `digit`. -/
def digit (pl : Plat) (r : Rule α) : M (Matched α) := singleCharP (isdigit pl) r
/-- rule.hpp:346-349 `hexdig`. -/
def hexdig (pl : Plat) (r : Rule α) : M (Matched α) := singleCharP (isxdigit pl) r

/-- rule.cpp:23-34 `done`: when everything was matched, run the acceptors in order on a state and
return `true` (here: `some` of the final state); otherwise return `false` (`none`), having run
nothing. -/
def done {σ : Type} (run : σ → α → SV → M σ) (st : σ) (r : Rule α) : M (Option σ) :=
  match r.tail with
  | none => .ok none
  | some t =>
      match t.chars with
      | [] => do
          let st' ← r.acc.foldlM (fun s a => run s a.1 a.2) st
          return some st'
      | _ :: _ => .ok none

end Rule
end Verif
