import Verif.Model.Cost

/-!
# The `rule` class with the depth of its calls

The member functions of `include/uri/rule.hpp` and `lib/uri/rule.cpp` again, each with the number of calls that are open at
the same time while it runs: the height of the stack, in frames.  Counted are the members of `rule`, match functions, the
predicates of single characters and accept functions; functions of the standard library are part of the call they are made from.
No call is assumed to be made a jump or to be expanded in place by the compiler.

Forgetting the depth gives the model of `Verif/Model/Rule.lean`: that is proved in `Verif/Props/Depth.lean`.
-/

namespace Verif.Depth

/-- A computation that may fault, with the largest number of calls open at a time (up to the fault, if it faults). -/
abbrev DM (β : Type) := M β × Nat

variable {α β γ : Type}

/-- `x` makes no call. -/
def here (x : M β) : DM β := (x, 0)

/-- A call of a function whose body is `x`. -/
def call (x : DM β) : DM β := (x.1, 1 + x.2)

/-- One computation after the other: what the first has called is closed when the second begins. -/
def andThen (x : DM β) (f : β → DM γ) : DM γ :=
  match x.1 with
  | .error e => (.error e, x.2)
  | .ok b => ((f b).1, max x.2 (f b).2)

/-- A match function with its depth. -/
abbrev DMatcher (α : Type) := Rule α → DM (Matched α)

open Rule (ofSV failed)
open Cost (Gr Chain Alts)

/-- rule.hpp:187-190 `join_rule (matched_result::value_type const&)`, which calls `join` (rule.hpp:178-185). -/
def joinMatched (r : Rule α) (m : SV × Acceptors α) : DM (Rule α) := call (call (here (r.joinMatched m)))

/-- rule.hpp:192-194 `join_rule (rule const&)`, which calls `join`. -/
def joinRule (r other : Rule α) : DM (Rule α) := call (call (here (.ok (r.joinRule other))))

/-- rule.hpp:293-312 `concat_impl`; it calls `is_nop`. -/
def concatImpl (m : DMatcher α) (accept : Option α) (isOptional : Bool) (r : Rule α) : DM (Rule α) :=
  call (match r.tail with
  | none => here (.ok r)
  | some t =>
      andThen (m (ofSV t)) fun
        | some (head, acc) =>
            andThen (call (here (.ok accept))) fun
              | none => joinMatched r (head, acc)
              | some a => joinMatched r (head, acc ++ [(a, head)])
        | none => if isOptional then here (.ok r) else here (.ok failed))

/-- rule.hpp:107-118 `concat`, with or without an accept function. -/
def concat (m : DMatcher α) (accept : Option α) (r : Rule α) : DM (Rule α) := call (concatImpl m accept false r)

/-- rule.hpp:273-284 `optional` with an accept function, called by 286-290 `optional` without. -/
def optional (m : DMatcher α) (r : Rule α) : DM (Rule α) :=
  call (call (match r.tail with
  | none => here (.ok r)
  | some t =>
      andThen (concatImpl m none true (ofSV t)) fun res =>
        match res.tail with
        | none => here (.ok r)
        | some _ => joinRule r res))

/-- The loop of `star` (rule.hpp:215-235). -/
def starLoop (m : DMatcher α) (max : Nat) : Nat → Nat → SV → Nat → Acceptors α → DM (Nat × Nat × Acceptors α)
  | 0, _, _, _, _ => here (.error .diverge)
  | fuel + 1, count, str, length, acc =>
      andThen (m (ofSV str)) fun
        | none => here (.ok (count, length, acc))
        | some (head, a) =>
            if (count + 1) % uintMod > max then here (.ok ((count + 1) % uintMod, length, acc))
            else
              andThen (here (str.removePrefix head.size)) fun str' =>
                starLoop m max fuel ((count + 1) % uintMod) str' (length + head.size) (acc ++ a)

/-- rule.hpp:209-241 `star`. -/
def star (m : DMatcher α) (min max : Nat) (r : Rule α) : DM (Rule α) :=
  call (match r.tail with
  | none => here (.ok r)
  | some t =>
      andThen (starLoop m max (t.size + max + 2) 0 t 0 r.acc) fun x =>
        if x.1 < min then here (.ok failed)
        else andThen (here (t.substrFrom x.2.1)) fun t' => here (.ok ⟨some t', x.2.2⟩))

/-- rule.hpp:149 and 245-257 `alternative`: for what is left it calls itself. -/
def alternative : List (DMatcher α) → Rule α → DM (Rule α)
  | [], _ => call (here (.ok failed))
  | m :: rest, r =>
      call (match r.tail with
      | none => here (.ok r)
      | some t =>
          andThen (m (ofSV t)) fun
            | some x => joinMatched r x
            | none => alternative rest r)

/-- rule.cpp:36-56 `matched`. -/
def matched (inp r : Rule α) : DM (Matched α) := call (here (Rule.matched inp r))

/-- rule.hpp:316-323 `single_char`, as it is called by a match function such as those of 325-349: the function, `single_char (char)`
(rule.hpp:163-167), `single_char` with a predicate, and either the predicate or `tail`.  Simplified: some match
functions leave out the second of these, and they are counted as if they made it too. -/
def singleChar (pred : UInt8 → M Bool) (r : Rule α) : DM (Matched α) := call (call (call (call (here (r.singleCharP pred)))))

/-- rule.cpp:23-34 `done`: the lambda for each accept function, the function itself, and (uri.hpp:107-109) `ensure_authority`. -/
def done {σ : Type} (run : σ → α → SV → M σ) (st : σ) (r : Rule α) : DM (Option σ) :=
  call (call (call (call (here (r.done run st)))))

mutual
/-- The match function with its depth. -/
def grDepth : Gr α → Rule α → DM (Matched α)
  | .chr p, r => singleChar p r
  | .look p, r => call (call (here (Cost.lookM p r)))
  | .rule c, r => call (andThen (chainDepth c r) (matched r))
/-- The chain of calls with its depth. -/
def chainDepth : Chain α → Rule α → DM (Rule α)
  | .nil, r => here (.ok r)
  | .concat c g accept, r => andThen (chainDepth c r) (concat (grDepth g) accept)
  | .optional c g, r => andThen (chainDepth c r) (optional (grDepth g))
  | .star c g min max, r => andThen (chainDepth c r) (star (grDepth g) min max)
  | .alternative c gs, r => andThen (chainDepth c r) (alternative (altsDepth gs))
/-- The match functions with their depth. -/
def altsDepth : Alts α → List (Rule α → DM (Matched α))
  | .nil => []
  | .cons g gs => grDepth g :: altsDepth gs
end

/-- `rule{in}.concat (m).done ()`, as `runGrammar` of `Verif/Model/Uri.lean`, with its depth. -/
def runGrammar (g : Gr Act) (inp : SV) : DM (Option (Parts SV)) :=
  andThen (concat (grDepth g) none (ofSV inp)) (done runAct Parts.init)

/-- uri.cpp:896-901 `split` with its depth. -/
def split (pl : Plat) (inp : SV) : DM (Option (Parts SV)) := call (runGrammar (Cost.Uri.URI pl) inp)

/-- uri.cpp:902-907 `split_reference` with its depth. -/
def splitReference (pl : Plat) (inp : SV) : DM (Option (Parts SV)) := call (runGrammar (Cost.Uri.URIReference pl) inp)

/-- `rule{s}.concat (m).done ()` for the field matchers. -/
def fieldOk (g : Gr Act) (s : SV) : DM Bool := andThen (runGrammar g s) fun o => here (.ok o.isSome)

/-- An optional field. -/
def optOk (g : Gr Act) : Option SV → DM Bool
  | none => here (.ok true)
  | some s => fieldOk g s

/-- The loop of `path::valid` (uri.cpp:829-833). -/
def allOk (ok : SV → DM Bool) : List SV → DM Bool
  | [] => here (.ok true)
  | g :: gs => andThen (ok g) fun b => if b then allOk ok gs else here (.ok false)

/-- `if (!x) return false; f` -/
def ifOk (x f : DM Bool) : DM Bool := andThen x fun b => if !b then here (.ok false) else f

/-- uri.cpp:841-853 `authority::valid` with its depth. -/
def authorityValid (pl : Plat) (a : Authority SV) : DM Bool :=
  call (ifOk (optOk (Cost.Uri.userinfo pl) a.userinfo) (ifOk (fieldOk (Cost.Uri.host pl) a.host)
    (ifOk (optOk (Cost.Uri.port pl) a.port) (here (.ok true)))))

/-- uri.cpp:855-875 `parts::valid` with its depth. -/
def valid (pl : Plat) (p : Parts SV) : DM Bool :=
  call (match p.scheme with
  | none => here (.ok false)
  | some s =>
    ifOk (fieldOk (Cost.Uri.scheme pl) s)
    (ifOk (match p.authority with
      | none => here (.ok true)
      | some a => authorityValid pl a)
    (ifOk (call (allOk (fieldOk (Cost.Uri.segment pl)) p.path.segments))
    (ifOk (optOk (Cost.Uri.query pl) p.query)
    (ifOk (optOk (Cost.Uri.fragment pl) p.fragment) (here (.ok true)))))))

end Verif.Depth
