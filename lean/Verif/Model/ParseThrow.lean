import Verif.Model.Cost

/-!
# The parser when memory runs out

`include/uri/rule.hpp`, `lib/uri/rule.cpp` and the functions of `lib/uri/uri.cpp` built on them again, with every place at
which they may ask for memory.  An *oracle* says which of these requests, counted from the start, are granted; one that is
refused throws `std::bad_alloc`, which nothing in these files catches.  Where an implementation need not ask (a vector
with room to spare, an accept function small enough to be kept in the `std::function`) the oracle is free to say yes: as it
is arbitrary, all such choices are covered.

An empty vector asks for nothing: not when it is made, copied, given a capacity of zero, or extended by an empty range.  A
vector of k > 0 accept functions is copied with one request for the vector and one for each `std::function`.
-/

namespace Verif.Mem

/-- What a function does given an oracle and the number of requests made before: its result (`none`: `std::bad_alloc` left
it) and the number of requests made when it ends. -/
abbrev AM (β : Type) := (Nat → Bool) → Nat → Option (M β) × Nat

variable {α β γ : Type}

/-- No request. -/
def ret (x : M β) : AM β := fun _ n => (some x, n)

/-- `k` requests, then `x`. -/
def requests : Nat → AM β → AM β
  | 0, x => x
  | k + 1, x => fun o n => if o n then requests k x o (n + 1) else (none, n + 1)

/-- One computation after the other. -/
def andThen (x : AM β) (f : β → AM γ) : AM γ := fun o n =>
  match x o n with
  | (none, n') => (none, n')
  | (some (.error e), n') => (some (.error e), n')
  | (some (.ok b), n') => f b o n'

/-- Copying `k` accept functions into a new or a growing vector. -/
def copies (k : Nat) : Nat := if k = 0 then 0 else 1 + k

/-- A match function. -/
abbrev AMatcher (α : Type) := Rule α → AM (Matched α)

open Rule (ofSV failed)

/-- rule.hpp:178-190 `join_rule (matched_result::value_type const&)` with `join`: `reserve`, then the copies. -/
def joinMatched (r : Rule α) (m : SV × Acceptors α) : AM (Rule α) :=
  requests (copies (r.acc.length + m.2.length)) (ret (r.joinMatched m))

/-- rule.hpp:178-185, 192-194 `join_rule (rule const&)`. -/
def joinRule (r other : Rule α) : AM (Rule α) :=
  requests (copies (r.acc.length + other.acc.length)) (ret (.ok (r.joinRule other)))

/-- `return *this;` copies the vector. -/
def copy (r : Rule α) : AM (Rule α) := requests (copies r.acc.length) (ret (.ok r))

/-- rule.hpp:293-312 `concat_impl`.  `emplace_back` makes a `std::function` and may make the vector grow (accept functions
are moved then, without a request). -/
def concatImpl (m : AMatcher α) (accept : Option α) (isOptional : Bool) (r : Rule α) : AM (Rule α) :=
  match r.tail with
  | none => copy r
  | some t =>
      andThen (m (ofSV t)) fun
        | some (head, acc) =>
            match accept with
            | none => joinMatched r (head, acc)
            | some a => requests 2 (joinMatched r (head, acc ++ [(a, head)]))
        | none => if isOptional then copy r else ret (.ok failed)

/-- rule.hpp:273-290 `optional`. -/
def optionalA (m : AMatcher α) (accept : Option α) (r : Rule α) : AM (Rule α) :=
  match r.tail with
  | none => copy r
  | some t =>
      andThen (concatImpl m accept true (ofSV t)) fun res =>
        match res.tail with
        | none => copy r
        | some _ => joinRule r res

/-- The loop of `star` (rule.hpp:215-235); `insert` copies the accept functions of one match. -/
def starLoop (m : AMatcher α) (max : Nat) : Nat → Nat → SV → Nat → Acceptors α → AM (Nat × Nat × Acceptors α)
  | 0, _, _, _, _ => ret (.error .diverge)
  | fuel + 1, count, str, length, acc =>
      andThen (m (ofSV str)) fun
        | none => ret (.ok (count, length, acc))
        | some (head, a) =>
            if (count + 1) % uintMod > max then ret (.ok ((count + 1) % uintMod, length, acc))
            else
              andThen (ret (str.removePrefix head.size)) fun str' =>
                requests (copies a.length) (starLoop m max fuel ((count + 1) % uintMod) str' (length + head.size) (acc ++ a))

/-- rule.hpp:209-241 `star`: `auto acc = acceptors_` copies; the result is moved. -/
def star (m : AMatcher α) (min max : Nat) (r : Rule α) : AM (Rule α) :=
  match r.tail with
  | none => copy r
  | some t =>
      requests (copies r.acc.length) (andThen (starLoop m max (t.size + max + 2) 0 t 0 r.acc) fun x =>
        if x.1 < min then ret (.ok failed)
        else andThen (ret (t.substrFrom x.2.1)) fun t' => ret (.ok ⟨some t', x.2.2⟩))

/-- rule.hpp:149 and 245-257 `alternative`. -/
def alternative : List (AMatcher α) → Rule α → AM (Rule α)
  | [], _ => ret (.ok failed)
  | m :: rest, r =>
      match r.tail with
      | none => copy r
      | some t =>
          andThen (m (ofSV t)) fun
            | some x => joinMatched r x
            | none => alternative rest r

/-- rule.cpp:36-56 `matched`: `std::make_tuple (str, acceptors_)` copies the vector; a failed rule gives nothing. -/
def matched (inp r : Rule α) : AM (Matched α) :=
  match r.tail with
  | none => ret (.ok none)
  | some _ => andThen (ret (Rule.matched inp r)) fun x => requests (copies r.acc.length) (ret (.ok x))

mutual
/-- The match function; `single_char` (rule.hpp:316-323) returns an empty container and asks for nothing. -/
def grammar : Cost.Gr α → Rule α → AM (Matched α)
  | .chr p, r => ret (r.singleCharP p)
  | .look p, r => ret (Cost.lookM p r)
  | .rule c, r => andThen (chain c r) (matched r)
/-- The chain of calls. -/
def chain : Cost.Chain α → Rule α → AM (Rule α)
  | .nil, r => ret (.ok r)
  | .concat c g accept, r => andThen (chain c r) (concatImpl (grammar g) accept false)
  | .optional c g, r => andThen (chain c r) (optionalA (grammar g) none)
  | .star c g min max, r => andThen (chain c r) (star (grammar g) min max)
  | .alternative c gs, r => andThen (chain c r) (alternative (alts gs))
/-- The list of match functions. -/
def alts : Cost.Alts α → List (Rule α → AM (Matched α))
  | .nil => []
  | .cons g gs => grammar g :: alts gs
end

/-- The accept functions that append to `path.segments` (uri.cpp:487, 512); the others only assign views. -/
def appends : Act → Nat
  | .appendDir _ => 1
  | .recordInitial => 1
  | _ => 0

/-- The loop of rule.cpp:29-32 over the accept functions. -/
def runAll : Parts SV → Acceptors Act → AM (Parts SV)
  | p, [] => ret (.ok p)
  | p, a :: as => requests (appends a.1) (andThen (ret (runAct p a.1 a.2)) fun p' => runAll p' as)

/-- rule.cpp:23-34 `done`. -/
def done (r : Rule Act) : AM (Option (Parts SV)) :=
  match r.tail with
  | none => ret (.ok none)
  | some t =>
      match t.chars with
      | [] => andThen (runAll Parts.init r.acc) fun p => ret (.ok (some p))
      | _ :: _ => ret (.ok none)

/-- `rule{in}.concat (m).done ()`. -/
def runGrammar (g : Cost.Gr Act) (inp : SV) : AM (Option (Parts SV)) :=
  andThen (concatImpl (grammar g) none false (ofSV inp)) done

/-- uri.cpp:896-901 `split`; the result is moved out. -/
def split (pl : Plat) (inp : SV) : AM (Option (Parts SV)) := runGrammar (Cost.Uri.URI pl) inp

/-- uri.cpp:902-907 `split_reference`. -/
def splitReference (pl : Plat) (inp : SV) : AM (Option (Parts SV)) := runGrammar (Cost.Uri.URIReference pl) inp

/-- `rule{s}.concat (m).done ()` for the field matchers. -/
def fieldOk (g : Cost.Gr Act) (s : SV) : AM Bool := andThen (runGrammar g s) fun o => ret (.ok o.isSome)

/-- An optional field. -/
def optOk (g : Cost.Gr Act) : Option SV → AM Bool
  | none => ret (.ok true)
  | some s => fieldOk g s

/-- The loop of `path::valid` (uri.cpp:829-833). -/
def allOk (ok : SV → AM Bool) : List SV → AM Bool
  | [] => ret (.ok true)
  | g :: gs => andThen (ok g) fun b => if b then allOk ok gs else ret (.ok false)

/-- `if (!x) return false; f` -/
def ifOk (x f : AM Bool) : AM Bool := andThen x fun b => if !b then ret (.ok false) else f

/-- uri.cpp:828-835 `path::valid`. -/
def pathValid (pl : Plat) (p : Path SV) : AM Bool := allOk (fieldOk (Cost.Uri.segment pl)) p.segments

/-- uri.cpp:841-853 `authority::valid`. -/
def authorityValid (pl : Plat) (a : Authority SV) : AM Bool :=
  ifOk (optOk (Cost.Uri.userinfo pl) a.userinfo) (ifOk (fieldOk (Cost.Uri.host pl) a.host)
    (ifOk (optOk (Cost.Uri.port pl) a.port) (ret (.ok true))))

/-- uri.cpp:855-875 `parts::valid`. -/
def valid (pl : Plat) (p : Parts SV) : AM Bool :=
  match p.scheme with
  | none => ret (.ok false)
  | some s =>
    ifOk (fieldOk (Cost.Uri.scheme pl) s)
    (ifOk (match p.authority with
      | none => ret (.ok true)
      | some a => authorityValid pl a)
    (ifOk (pathValid pl p.path)
    (ifOk (optOk (Cost.Uri.query pl) p.query)
    (ifOk (optOk (Cost.Uri.fragment pl) p.fragment) (ret (.ok true))))))

end Verif.Mem
