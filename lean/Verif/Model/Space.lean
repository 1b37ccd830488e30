import Verif.Model.Cost

/-!
# The `rule` class with the room it takes

The member functions of `include/uri/rule.hpp` and `lib/uri/rule.cpp` again, each with the number of accept functions (with their texts:
the elements of `acceptors_`, the only thing a rule has outside the stack) that are held at the same time, at most, while it runs: in the
vectors of all the rules and results that it and the functions it calls have made and not yet destroyed, the result included, what it was
given not.  A temporary lives to the end of the full-expression: all the rules of a chain `r.concat (...).star (...).matched (...)` do
until `matched` has returned.  Room that a vector has to spare, and the old elements while it grows, are not counted: they are as many
again at most.

Forgetting the numbers gives the model of `Verif/Model/Rule.lean`: that is proved in `Verif/Props/Space.lean`.
-/

namespace Verif.Space

/-- A computation that may fault, with the largest number of accept functions held at a time (up to the fault, if it faults). -/
abbrev SM (β : Type) := M β × Nat

variable {α β γ : Type}

/-- The result of the first computation is held while the second runs, and destroyed then. -/
def holding (x : SM β) (size : β → Nat) (f : β → SM γ) : SM γ :=
  match x.1 with
  | .error e => (.error e, x.2)
  | .ok b => ((f b).1, max x.2 (size b + (f b).2))

/-- A match function with its room. -/
abbrev SMatcher (α : Type) := Rule α → SM (Matched α)

open Rule (ofSV failed)
open Cost (Gr Chain Alts)

/-- What a rule holds. -/
def sizeR (r : Rule α) : Nat := r.acc.length

/-- What the result of a match function holds. -/
def sizeM : Matched α → Nat
  | none => 0
  | some (_, acc) => acc.length

/-- rule.hpp:187-190 `join_rule (matched_result::value_type const&)`: a vector with room for both is made. -/
def joinMatched (r : Rule α) (m : SV × Acceptors α) : SM (Rule α) := (r.joinMatched m, r.acc.length + m.2.length)

/-- rule.hpp:192-194 `join_rule (rule const&)`. -/
def joinRule (r other : Rule α) : SM (Rule α) := (.ok (r.joinRule other), r.acc.length + other.acc.length)

/-- `return *this;` copies the vector. -/
def copy (r : Rule α) : SM (Rule α) := (.ok r, r.acc.length)

/-- rule.hpp:293-312 `concat_impl`: the match (with the accept function added to it, if there is one) is held while it is joined. -/
def concatImpl (m : SMatcher α) (accept : Option α) (isOptional : Bool) (r : Rule α) : SM (Rule α) :=
  match r.tail with
  | none => copy r
  | some t =>
      holding (m (ofSV t)) sizeM fun
        | some (head, acc) =>
            match accept with
            | none => joinMatched r (head, acc)
            | some a => ((joinMatched r (head, acc ++ [(a, head)])).1, 1 + (joinMatched r (head, acc ++ [(a, head)])).2)
        | none => if isOptional then copy r else (.ok failed, 0)

/-- rule.hpp:273-290 `optional`: `res` is held to the end. -/
def optional (m : SMatcher α) (r : Rule α) : SM (Rule α) :=
  match r.tail with
  | none => copy r
  | some t =>
      holding (concatImpl m none true (ofSV t)) sizeR fun res =>
        match res.tail with
        | none => copy r
        | some _ => joinRule r res

/-- The loop of `star` (rule.hpp:215-235); what `acc` holds is counted here.  Each match is held while it is added to `acc`. -/
def starLoop (m : SMatcher α) (max : Nat) : Nat → Nat → SV → Nat → Acceptors α → SM (Nat × Nat × Acceptors α)
  | 0, _, _, _, acc => (.error .diverge, acc.length)
  | fuel + 1, count, str, length, acc =>
      match (m (ofSV str)).1 with
      | .error e => (.error e, acc.length + (m (ofSV str)).2)
      | .ok none => (.ok (count, length, acc), acc.length + (m (ofSV str)).2)
      | .ok (some (head, a)) =>
          if (count + 1) % uintMod > max then (.ok ((count + 1) % uintMod, length, acc), acc.length + (m (ofSV str)).2)
          else
            match str.removePrefix head.size with
            | .error e => (.error e, acc.length + (m (ofSV str)).2)
            | .ok str' =>
                ((starLoop m max fuel ((count + 1) % uintMod) str' (length + head.size) (acc ++ a)).1,
                  Nat.max (acc.length + (m (ofSV str)).2) (Nat.max (acc.length + a.length + a.length)
                    (starLoop m max fuel ((count + 1) % uintMod) str' (length + head.size) (acc ++ a)).2))

/-- rule.hpp:209-241 `star`.  The vector is copied at the start and moved at the end. -/
def star (m : SMatcher α) (min max : Nat) (r : Rule α) : SM (Rule α) :=
  match r.tail with
  | none => copy r
  | some t =>
      ((starLoop m max (t.size + max + 2) 0 t 0 r.acc).1 >>= fun x =>
        if x.1 < min then .ok failed else t.substrFrom x.2.1 >>= fun t' => .ok ⟨some t', x.2.2⟩,
       (starLoop m max (t.size + max + 2) 0 t 0 r.acc).2)

/-- rule.hpp:149 and 245-257 `alternative`. -/
def alternative : List (SMatcher α) → Rule α → SM (Rule α)
  | [], _ => (.ok failed, 0)
  | m :: rest, r =>
      match r.tail with
      | none => copy r
      | some t =>
          holding (m (ofSV t)) sizeM fun
            | some x => joinMatched r x
            | none => alternative rest r

/-- A chain of calls: the rule it has come to, what all its temporaries hold, and the most that was held so far. -/
structure Held (α : Type) where
  rule : M (Rule α)
  now : Nat
  most : Nat

/-- The next call of a chain. -/
def Held.call (h : Held α) (f : Rule α → SM (Rule α)) : Held α :=
  match h.rule with
  | .error _ => h
  | .ok r =>
      ⟨(f r).1, h.now + (match (f r).1 with | .ok r' => sizeR r' | .error _ => 0), Nat.max h.most (h.now + (f r).2)⟩

/-- rule.cpp:36-56 `matched`, the end of a chain: the vector is copied into the result. -/
def Held.matched (h : Held α) (inp : Rule α) : SM (Matched α) :=
  match h.rule with
  | .error e => (.error e, h.most)
  | .ok r => (Rule.matched inp r, Nat.max h.most (h.now + r.acc.length))

mutual
/-- The match function with its room. -/
def grSpace : Gr α → Rule α → SM (Matched α)
  | .chr p, r => (r.singleCharP p, 0)
  | .look p, r => (Cost.lookM p r, 0)
  | .rule c, r => (chainSpace c r).matched r
/-- The chain of calls with its room. -/
def chainSpace : Chain α → Rule α → Held α
  | .nil, r => ⟨.ok r, 0, 0⟩
  | .concat c g accept, r => (chainSpace c r).call (concatImpl (grSpace g) accept false)
  | .optional c g, r => (chainSpace c r).call (optional (grSpace g))
  | .star c g min max, r => (chainSpace c r).call (star (grSpace g) min max)
  | .alternative c gs, r => (chainSpace c r).call (alternative (altsSpace gs))
/-- The match functions with their room. -/
def altsSpace : Alts α → List (Rule α → SM (Matched α))
  | .nil => []
  | .cons g gs => grSpace g :: altsSpace gs
end

/-- The accept functions of uri.cpp, one after the other, with the largest number of segments the path has meanwhile. -/
def acts : Acceptors Act → Parts SV → SM (Parts SV)
  | [], p => (.ok p, p.path.segments.length)
  | (a, s) :: rest, p =>
      match runAct p a s with
      | .error e => (.error e, p.path.segments.length)
      | .ok p' => ((acts rest p').1, Nat.max p.path.segments.length (acts rest p').2)

/-- rule.cpp:23-34 `done`, with the accept functions of uri.cpp. -/
def done (r : Rule Act) : SM (Option (Parts SV)) :=
  match r.tail with
  | none => (.ok none, 0)
  | some t =>
      match t.chars with
      | [] => ((acts r.acc Parts.init).1 >>= fun p => .ok (some p), (acts r.acc Parts.init).2)
      | _ :: _ => (.ok none, 0)

/-- `rule{in}.concat (m).done ()`, as `runGrammar` of `Verif/Model/Uri.lean`: accept functions and segments of the result together. -/
def runGrammar (g : Gr Act) (inp : SV) : SM (Option (Parts SV)) := holding (concatImpl (grSpace g) none false (ofSV inp)) sizeR done

/-- uri.cpp:896-901 `split` with its room. -/
def split (pl : Plat) (inp : SV) : SM (Option (Parts SV)) := runGrammar (Cost.Uri.URI pl) inp

/-- uri.cpp:902-907 `split_reference` with its room. -/
def splitReference (pl : Plat) (inp : SV) : SM (Option (Parts SV)) := runGrammar (Cost.Uri.URIReference pl) inp

end Verif.Space
