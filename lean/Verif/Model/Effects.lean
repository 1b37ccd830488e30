import Verif.Model.Rule

/-!
# The `rule` class with match functions, predicates and acceptors that have effects

`include/uri/rule.hpp` and `lib/uri/rule.cpp` again.  The functions given to the members are the user's: they may change any state they
can reach and may throw.  `σ` is that state, `ε` the exceptions.  All members are `const`, so the rules themselves do not change.
-/

namespace Verif.Eff

variable {σ ε α β γ : Type}

/-- What runs the user's functions: from a state, a result or an exception, and the state then; or a fault. -/
abbrev E (σ ε β : Type) := σ → M (Except ε β × σ)

def ret (x : β) : E σ ε β := fun s => .ok (.ok x, s)

/-- What touches no user function. -/
def lift (x : M β) : E σ ε β := fun s =>
  match x with
  | .error f => .error f
  | .ok b => .ok (.ok b, s)

/-- An exception leaves at once. -/
def andThen (x : E σ ε β) (f : β → E σ ε γ) : E σ ε γ := fun s =>
  match x s with
  | .error e => .error e
  | .ok (.error e, s') => .ok (.error e, s')
  | .ok (.ok b, s') => f b s'

/-- A match function (rule.hpp:111-160, `std::is_invocable_v<MatchFunction, rule&&>`). -/
abbrev Matcher (σ ε α : Type) := Rule α → E σ ε (Matched α)

/-- rule.hpp:293-312 `concat_impl`.  Simplification: copying the accept function (306) does not throw. -/
def concatImpl (m : Matcher σ ε α) (accept : Option α) (isOptional : Bool) (r : Rule α) : E σ ε (Rule α) :=
  match r.tail with
  | none => ret r
  | some t => andThen (m (Rule.ofSV t)) fun
      | some (head, acc) => lift (r.joinMatched (head, acc ++ (accept.map fun a => (a, head)).toList))
      | none => ret (if isOptional then r else Rule.failed)

/-- rule.hpp:111-121 `concat`. -/
def concat (m : Matcher σ ε α) (accept : Option α) (r : Rule α) : E σ ε (Rule α) := concatImpl m accept false r

/-- rule.hpp:273-290 `optional`. -/
def optional (m : Matcher σ ε α) (accept : Option α) (r : Rule α) : E σ ε (Rule α) :=
  match r.tail with
  | none => ret r
  | some t => andThen (concatImpl m accept true (Rule.ofSV t)) fun res => ret (if res.tail.isSome then r.joinRule res else r)

/-- rule.hpp:215-235 the loop of `star`; `fuel` is how often its body may run.  The loop may run for ever if the match function always matches; see
`star`. -/
def starLoop (m : Matcher σ ε α) (max : Nat) : Nat → Nat → SV → Nat → Acceptors α → E σ ε (Nat × Nat × Acceptors α)
  | 0, _, _, _, _ => lift (.error .diverge)
  | fuel + 1, count, str, length, acc => andThen (m (Rule.ofSV str)) fun
      | none => ret (count, length, acc)
      | some (head, a) =>
          if (count + 1) % uintMod > max then ret ((count + 1) % uintMod, length, acc)
          else andThen (lift (str.removePrefix head.size)) fun str =>
            starLoop m max fuel ((count + 1) % uintMod) str (length + head.size) (acc ++ a)

/-- rule.hpp:209-241 `star`, run for at most `fuel` rounds: what it does is what it does for some number of rounds, and if there is
none it does not return. -/
def star (fuel : Nat) (m : Matcher σ ε α) (min max : Nat) (r : Rule α) : E σ ε (Rule α) :=
  match r.tail with
  | none => ret r
  | some t => andThen (starLoop m max fuel 0 t 0 r.acc) fun x =>
      if x.1 < min then ret Rule.failed
      else andThen (lift (t.substrFrom x.2.1)) fun t' => ret ⟨some t', x.2.2⟩

/-- rule.hpp:149 and 245-257 `alternative`. -/
def alternative : List (Matcher σ ε α) → Rule α → E σ ε (Rule α)
  | [], _ => ret Rule.failed
  | m :: rest, r =>
      match r.tail with
      | none => ret r
      | some t => andThen (m (Rule.ofSV t)) fun
          | some x => lift (r.joinMatched x)
          | none => alternative rest r

/-- rule.hpp:316-323 `single_char (Predicate)`. -/
def singleChar (pred : UInt8 → E σ ε Bool) (r : Rule α) : E σ ε (Matched α) :=
  match r.tail with
  | none => ret none
  | some sv =>
      match sv.chars with
      | [] => ret none
      | c :: _ => andThen (pred c) fun
          | true => andThen (lift (sv.substr 0 1)) fun s => ret (some (s, []))
          | false => ret none

/-- rule.cpp:29-32 the acceptors are run in order. -/
def runAll (run : α → SV → E σ ε Unit) : Acceptors α → E σ ε Unit
  | [] => ret ()
  | (a, v) :: rest => andThen (run a v) fun _ => runAll run rest

/-- rule.cpp:23-34 `done`. -/
def done (run : α → SV → E σ ε Unit) (r : Rule α) : E σ ε Bool :=
  match r.tail with
  | none => ret false
  | some t => if t.chars.isEmpty then andThen (runAll run r.acc) fun _ => ret true else ret false

/-- rule.hpp:102, 106: the copy constructor and assignment: the source is as before. -/
def copied (r : Rule α) : Rule α × Rule α := (r, r)

/-- rule.hpp:103, 107: the move constructor and assignment, member by member: the new rule, and what is left of the source.  Moving a
`std::optional<std::string_view>` copies it; a vector that was moved from is empty ([vector.cons]; of the
assignment, which need only leave a valid vector, this is what the implementations do). -/
def moved (r : Rule α) : Rule α × Rule α := (r, ⟨r.tail, []⟩)

end Verif.Eff
