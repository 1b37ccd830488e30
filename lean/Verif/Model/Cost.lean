import Verif.Model.Uri

/-!
# The `rule` class with its running time

The member functions of `include/uri/rule.hpp` and `lib/uri/rule.cpp` again, each with a count of the steps it takes.  A
step is: a call of a member function of `rule`, a call of a match function by one, a turn of the loop of `star`, the
copying of one accept function with its text (`acceptors_` is a vector: it is copied whenever a rule is), or the calling of
one accept function.  Growth of a vector by `insert` and `push_back` is counted per element added, as the standard
guarantees on average.  A predicate of one character, `substr` and `remove_prefix` take constant time and are part of the
call they occur in.

Forgetting the count gives the model of `Verif/Model/Rule.lean`: that is proved in `Verif/Proofs/Cost.lean`.
-/

namespace Verif.Cost

/-- A computation that may fault, with the number of steps it takes (up to the fault, if it faults). -/
abbrev CM (β : Type) := M β × Nat

variable {α β γ : Type}

/-- `n` steps and nothing else, then `x`. -/
def tick (n : Nat) (x : CM β) : CM β := (x.1, n + x.2)

/-- No steps. -/
def ret (x : M β) : CM β := (x, 0)

/-- One computation after the other. -/
def andThen (x : CM β) (f : β → CM γ) : CM γ :=
  match x.1 with
  | .error e => (.error e, x.2)
  | .ok b => ((f b).1, x.2 + (f b).2)

/-- A match function with its steps. -/
abbrev CMatcher (α : Type) := Rule α → CM (Matched α)

open Rule (ofSV failed)

/-- rule.hpp:187-190 `join_rule (matched_result::value_type const&)`: both vectors are copied (rule.hpp:178-185 `join`). -/
def joinMatched (r : Rule α) (m : SV × Acceptors α) : CM (Rule α) :=
  tick (1 + r.acc.length + m.2.length) (ret (r.joinMatched m))

/-- rule.hpp:192-194 `join_rule (rule const&)`. -/
def joinRule (r other : Rule α) : CM (Rule α) :=
  tick (1 + r.acc.length + other.acc.length) (ret (.ok (r.joinRule other)))

/-- `return *this;` copies the vector. -/
def copy (r : Rule α) : CM (Rule α) := tick r.acc.length (ret (.ok r))

/-- rule.hpp:293-312 `concat_impl`. -/
def concatImpl (m : CMatcher α) (accept : Option α) (isOptional : Bool) (r : Rule α) : CM (Rule α) :=
  tick 1 (match r.tail with
  | none => copy r
  | some t =>
      andThen (tick 1 (m (ofSV t))) fun
        | some (head, acc) =>
            match accept with
            | none => joinMatched r (head, acc)
            | some a => tick 1 (joinMatched r (head, acc ++ [(a, head)]))
        | none => if isOptional then copy r else ret (.ok failed))

/-- rule.hpp:273-290 `optional`. -/
def optionalA (m : CMatcher α) (accept : Option α) (r : Rule α) : CM (Rule α) :=
  tick 1 (match r.tail with
  | none => copy r
  | some t =>
      andThen (concatImpl m accept true (ofSV t)) fun res =>
        match res.tail with
        | none => copy r
        | some _ => joinRule r res)

/-- The loop of `star` (rule.hpp:215-235). -/
def starLoop (m : CMatcher α) (max : Nat) : Nat → Nat → SV → Nat → Acceptors α → CM (Nat × Nat × Acceptors α)
  | 0, _, _, _, _ => ret (.error .diverge)
  | fuel + 1, count, str, length, acc =>
      andThen (tick 1 (m (ofSV str))) fun
        | none => ret (.ok (count, length, acc))
        | some (head, a) =>
            if (count + 1) % uintMod > max then ret (.ok ((count + 1) % uintMod, length, acc))
            else
              tick a.length (andThen (ret (str.removePrefix head.size)) fun str' =>
                starLoop m max fuel ((count + 1) % uintMod) str' (length + head.size) (acc ++ a))

/-- rule.hpp:209-241 `star`.  The vector is copied at the start and moved at the end. -/
def star (m : CMatcher α) (min max : Nat) (r : Rule α) : CM (Rule α) :=
  tick 1 (match r.tail with
  | none => copy r
  | some t =>
      tick r.acc.length (andThen (starLoop m max (t.size + max + 2) 0 t 0 r.acc) fun x =>
        if x.1 < min then ret (.ok failed)
        else andThen (ret (t.substrFrom x.2.1)) fun t' => ret (.ok ⟨some t', x.2.2⟩)))

/-- rule.hpp:149 and 245-257 `alternative`. -/
def alternative : List (CMatcher α) → Rule α → CM (Rule α)
  | [], _ => tick 1 (ret (.ok failed))
  | m :: rest, r =>
      tick 1 (match r.tail with
      | none => copy r
      | some t =>
          andThen (tick 1 (m (ofSV t))) fun
            | some x => joinMatched r x
            | none => alternative rest r)

/-- rule.cpp:36-56 `matched`: the vector is copied into the result. -/
def matched (inp r : Rule α) : CM (Matched α) := tick (1 + r.acc.length) (ret (Rule.matched inp r))

/-- rule.hpp:316-323 `single_char`. -/
def singleCharP (pred : UInt8 → M Bool) (r : Rule α) : CM (Matched α) := tick 1 (ret (r.singleCharP pred))

/-- rule.cpp:23-34 `done`: one step for each accept function. -/
def done {σ : Type} (run : σ → α → SV → M σ) (st : σ) (r : Rule α) : CM (Option σ) :=
  tick (1 + r.acc.length) (ret (r.done run st))

/-! ### Match functions as data

A match function of `lib/uri/uri.cpp` is a chain of calls on its argument ended by `matched`; a grammar is the tree of its
match functions. -/

mutual
/-- A match function. -/
inductive Gr (α : Type)
  /-- `single_char` with a predicate -/
  | chr (p : UInt8 → M Bool)
  /-- a look-ahead: any other match function that takes constant time and matches nothing or the empty text -/
  | look (p : SV → Bool)
  /-- `[] (rule const& r) { return r. ... .matched ("name", r); }` -/
  | rule (c : Chain α)
/-- A chain of calls on a rule. -/
inductive Chain (α : Type)
  /-- the argument of the match function itself -/
  | nil
  /-- `.concat (g)`, `.concat (g, accept)` -/
  | concat (c : Chain α) (g : Gr α) (accept : Option α)
  /-- `.optional (g)` -/
  | optional (c : Chain α) (g : Gr α)
  /-- `.star (g, min, max)` -/
  | star (c : Chain α) (g : Gr α) (min max : Nat)
  /-- `.alternative (g, ...)` -/
  | alternative (c : Chain α) (gs : Alts α)
/-- The arguments of `alternative`. -/
inductive Alts (α : Type)
  | nil
  | cons (g : Gr α) (gs : Alts α)
end

/-- uri.cpp:96-104: a match function that only looks at the text. -/
def lookM (p : SV → Bool) (r : Rule α) : M (Matched α) :=
  match r.tail with
  | none => .ok none
  | some sv => if p sv then do return some (← sv.substr 0 0, []) else .ok none

mutual
/-- The match function (as in `Verif/Model/Rule.lean`). -/
def Gr.run : Gr α → Rule α → M (Matched α)
  | .chr p, r => r.singleCharP p
  | .look p, r => lookM p r
  | .rule c, r => c.run r >>= Rule.matched r
/-- The chain of calls. -/
def Chain.run : Chain α → Rule α → M (Rule α)
  | .nil, r => .ok r
  | .concat c g accept, r => c.run r >>= Rule.concatImpl g.run accept false
  | .optional c g, r => c.run r >>= Rule.optional g.run
  | .star c g min max, r => c.run r >>= Rule.star g.run min max
  | .alternative c gs, r => c.run r >>= Rule.alternative gs.run
/-- The list of match functions. -/
def Alts.run : Alts α → List (Rule α → M (Matched α))
  | .nil => []
  | .cons g gs => g.run :: gs.run
end

mutual
/-- The match function with its steps. -/
def Gr.steps : Gr α → Rule α → CM (Matched α)
  | .chr p, r => singleCharP p r
  | .look p, r => tick 1 (ret (lookM p r))
  | .rule c, r => andThen (c.steps r) (matched r)
/-- The chain of calls with its steps. -/
def Chain.steps : Chain α → Rule α → CM (Rule α)
  | .nil, r => ret (.ok r)
  | .concat c g accept, r => andThen (c.steps r) (concatImpl g.steps accept false)
  | .optional c g, r => andThen (c.steps r) (optionalA g.steps none)
  | .star c g min max, r => andThen (c.steps r) (star g.steps min max)
  | .alternative c gs, r => andThen (c.steps r) (alternative gs.steps)
/-- The list of match functions with their steps. -/
def Alts.steps : Alts α → List (Rule α → CM (Matched α))
  | .nil => []
  | .cons g gs => g.steps :: gs.steps
end

/-! ### The grammar of `lib/uri/uri.cpp`

The match functions of uri.cpp 25-703 as data; `Verif/Proofs/CostGrammar.lean` proves each equal to its model in
`Verif/Model/Grammar.lean`. -/

namespace Uri

/-- The arguments of `alternative`. -/
def alts : List (Gr Act) → Alts Act
  | [] => .nil
  | g :: gs => .cons g (alts gs)

/-- rule.hpp:163-167 `single_char (char)`. -/
def ch (pl : Plat) (c : UInt8) : Gr Act := .chr fun d => do
  let c2 ← tolower pl c
  return c2 == (← tolower pl d)

/-- rule.hpp:328-336 `char_range`. -/
def range (pl : Plat) (first last : UInt8) : Gr Act := .chr fun c => do
  let f ← tolower pl first
  let l ← tolower pl last
  let cl ← tolower pl c
  return decide (f.toNat ≤ cl.toNat) && decide (cl.toNat ≤ l.toNat)

/-- rule.hpp:338-341 `alpha`. -/
def alpha (pl : Plat) : Gr Act := .chr (isalpha pl)
/-- rule.hpp:342-345 `digit`. -/
def digit (pl : Plat) : Gr Act := .chr (isdigit pl)
/-- rule.hpp:346-349 `hexdig`. -/
def hexdig (pl : Plat) : Gr Act := .chr (isxdigit pl)

/-- uri.cpp:48-50 -/
def commercialAt (pl : Plat) : Gr Act := ch pl 0x40
/-- uri.cpp:51-53 -/
def colon (pl : Plat) : Gr Act := ch pl 0x3A
/-- uri.cpp:54-56 -/
def hash (pl : Plat) : Gr Act := ch pl 0x23
/-- uri.cpp:57-59 -/
def plus (pl : Plat) : Gr Act := ch pl 0x2B
/-- uri.cpp:60-62 -/
def minus (pl : Plat) : Gr Act := ch pl 0x2D
/-- uri.cpp:63-65 -/
def solidus (pl : Plat) : Gr Act := ch pl 0x2F
/-- uri.cpp:66-68 -/
def questionMark (pl : Plat) : Gr Act := ch pl 0x3F
/-- uri.cpp:69-71 -/
def fullStop (pl : Plat) : Gr Act := ch pl 0x2E
/-- uri.cpp:72-74 -/
def leftSquareBracket (pl : Plat) : Gr Act := ch pl 0x5B
/-- uri.cpp:75-77 -/
def rightSquareBracket (pl : Plat) : Gr Act := ch pl 0x5D
/-- uri.cpp:78-80 -/
def percentSign (pl : Plat) : Gr Act := ch pl 0x25
/-- uri.cpp:81-83 -/
def digitOne (pl : Plat) : Gr Act := ch pl 0x31
/-- uri.cpp:84-86 -/
def digitTwo (pl : Plat) : Gr Act := ch pl 0x32
/-- uri.cpp:87-89 -/
def digitFive (pl : Plat) : Gr Act := ch pl 0x35
/-- uri.cpp:90-92 -/
def latinSmallLetterV (pl : Plat) : Gr Act := ch pl 0x76

/-- uri.cpp:96-104: the look-ahead lambda of `single_colon`. -/
def notColon : Gr Act := .look fun sv => sv.chars.head? != some 0x3A

/-- uri.cpp:94-106 `single_colon`. -/
def singleColon (pl : Plat) : Gr Act := .rule ((Chain.nil.concat (colon pl) none).concat notColon none)

/-- uri.cpp:110-120 `sub_delims`. -/
def subDelims : Gr Act := .chr fun c => .ok (Grammar.isSubDelim c)

/-- uri.cpp:123-130 `unreserved`. -/
def unreserved (pl : Plat) : Gr Act := .chr fun c => do
  return (← isalnum pl c) || c == 0x2D || c == 0x2E || c == 0x5F || c == 0x7E

/-- uri.cpp:133-138 `pct_encoded`. -/
def pctEncoded (pl : Plat) : Gr Act := .rule (((Chain.nil.concat (percentSign pl) none).concat (hexdig pl) none).concat (hexdig pl) none)

/-- uri.cpp:141-145 `pchar`. -/
def pchar (pl : Plat) : Gr Act := .rule (Chain.nil.alternative (alts [unreserved pl, pctEncoded pl, subDelims, colon pl, commercialAt pl]))

/-- uri.cpp:150-153: the lambda of `userinfo`. -/
def userinfoElem (pl : Plat) : Gr Act := .rule (Chain.nil.alternative (alts [unreserved pl, pctEncoded pl, subDelims, colon pl]))

/-- uri.cpp:148-155 `userinfo`. -/
def userinfo (pl : Plat) : Gr Act := .rule (Chain.nil.star (userinfoElem pl) 0 uintMax)

/-- uri.cpp:161-164: the lambda of `scheme`. -/
def schemeElem (pl : Plat) : Gr Act := .rule (Chain.nil.alternative (alts [alpha pl, digit pl, plus pl, minus pl, fullStop pl]))

/-- uri.cpp:159-166 `scheme`. -/
def scheme (pl : Plat) : Gr Act := .rule ((Chain.nil.concat (alpha pl) none).star (schemeElem pl) 0 uintMax)

/-- uri.cpp:172-175: the lambda of `reg_name`. -/
def regNameElem (pl : Plat) : Gr Act := .rule (Chain.nil.alternative (alts [unreserved pl, pctEncoded pl, subDelims]))

/-- uri.cpp:170-177 `reg_name`. -/
def regName (pl : Plat) : Gr Act := .rule (Chain.nil.star (regNameElem pl) 0 uintMax)

/-- uri.cpp:187-194: `"25" %x30-35`. -/
def octet25 (pl : Plat) : Gr Act := .rule (((Chain.nil.concat (digitTwo pl) none).concat (digitFive pl) none).concat (range pl 0x30 0x35) none)

/-- uri.cpp:195-202: `"2" %x30-34 DIGIT`. -/
def octet2 (pl : Plat) : Gr Act := .rule (((Chain.nil.concat (digitTwo pl) none).concat (range pl 0x30 0x34) none).concat (digit pl) none)

/-- uri.cpp:203-209: `"1" 2DIGIT`. -/
def octet1 (pl : Plat) : Gr Act := .rule (((Chain.nil.concat (digitOne pl) none).concat (digit pl) none).concat (digit pl) none)

/-- uri.cpp:210-216: `%x31-39 DIGIT`. -/
def octetXX (pl : Plat) : Gr Act := .rule ((Chain.nil.concat (range pl 0x31 0x39) none).concat (digit pl) none)

/-- uri.cpp:184-219 `dec_octet`. -/
def decOctet (pl : Plat) : Gr Act := .rule (Chain.nil.alternative (alts [octet25 pl, octet2 pl, octet1 pl, octetXX pl, digit pl]))

/-- uri.cpp:222-232 `ipv4address`. -/
def ipv4address (pl : Plat) : Gr Act := .rule (((((((Chain.nil.concat (decOctet pl) none).concat (fullStop pl) none).concat (decOctet pl) none).concat (fullStop pl) none).concat (decOctet pl) none).concat (fullStop pl) none).concat (decOctet pl) none)

/-- uri.cpp:235-237 `h16`. -/
def h16 (pl : Plat) : Gr Act := .rule (Chain.nil.star (hexdig pl) 1 4)

/-- uri.cpp:240-242 `h16_colon`. -/
def h16Colon (pl : Plat) : Gr Act := .rule ((Chain.nil.concat (h16 pl) none).concat (singleColon pl) none)

/-- uri.cpp:243-245 `colon_colon`. -/
def colonColon (pl : Plat) : Gr Act := .rule ((Chain.nil.concat (colon pl) none).concat (colon pl) none)

/-- uri.cpp:251-254: the lambda of `ls32`. -/
def h16h16 (pl : Plat) : Gr Act := .rule (((Chain.nil.concat (h16 pl) none).concat (colon pl) none).concat (h16 pl) none)

/-- uri.cpp:248-257 `ls32`. -/
def ls32 (pl : Plat) : Gr Act := .rule (Chain.nil.alternative (alts [h16h16 pl, ipv4address pl]))

/-- uri.cpp:295-299, 308-312, 321-325, 334-338, 346-350, 358-362: `*n( h16 ":" ) h16`. -/
def h16Prefix (pl : Plat) (n : Nat) : Gr Act := .rule ((Chain.nil.star (h16Colon pl) 0 n).concat (h16 pl) none)

/-- uri.cpp:271-276: `6( h16 ":" ) ls32`. -/
def ipv6r1 (pl : Plat) : Gr Act := .rule ((Chain.nil.star (h16Colon pl) 6 6).concat (ls32 pl) none)
/-- uri.cpp:277-283: `"::" 5( h16 ":" ) ls32`. -/
def ipv6r2 (pl : Plat) : Gr Act := .rule (((Chain.nil.concat (colonColon pl) none).star (h16Colon pl) 5 5).concat (ls32 pl) none)
/-- uri.cpp:284-291: `[ h16 ] "::" 4( h16 ":" ) ls32`. -/
def ipv6r3 (pl : Plat) : Gr Act := .rule ((((Chain.nil.optional (h16 pl)).concat (colonColon pl) none).star (h16Colon pl) 4 4).concat (ls32 pl) none)
/-- uri.cpp:292-304: `[ *1( h16 ":" ) h16 ] "::" 3( h16 ":" ) ls32`. -/
def ipv6r4 (pl : Plat) : Gr Act := .rule ((((Chain.nil.optional (h16Prefix pl 1)).concat (colonColon pl) none).star (h16Colon pl) 3 3).concat (ls32 pl) none)
/-- uri.cpp:305-317: `[ *2( h16 ":" ) h16 ] "::" 2( h16 ":" ) ls32`. -/
def ipv6r5 (pl : Plat) : Gr Act := .rule ((((Chain.nil.optional (h16Prefix pl 2)).concat (colonColon pl) none).star (h16Colon pl) 2 2).concat (ls32 pl) none)
/-- uri.cpp:318-330: `[ *3( h16 ":" ) h16 ] "::" h16 ":" ls32`. -/
def ipv6r6 (pl : Plat) : Gr Act := .rule ((((Chain.nil.optional (h16Prefix pl 3)).concat (colonColon pl) none).concat (h16Colon pl) none).concat (ls32 pl) none)
/-- uri.cpp:331-342: `[ *4( h16 ":" ) h16 ] "::" ls32`. -/
def ipv6r7 (pl : Plat) : Gr Act := .rule (((Chain.nil.optional (h16Prefix pl 4)).concat (colonColon pl) none).concat (ls32 pl) none)
/-- uri.cpp:343-354: `[ *5( h16 ":" ) h16 ] "::" h16`. -/
def ipv6r8 (pl : Plat) : Gr Act := .rule (((Chain.nil.optional (h16Prefix pl 5)).concat (colonColon pl) none).concat (h16 pl) none)
/-- uri.cpp:355-365: `[ *6( h16 ":" ) h16 ] "::"`. -/
def ipv6r9 (pl : Plat) : Gr Act := .rule ((Chain.nil.optional (h16Prefix pl 6)).concat (colonColon pl) none)

/-- uri.cpp:268-367 `ipv6address`. -/
def ipv6address (pl : Plat) : Gr Act := .rule (Chain.nil.alternative (alts [ipv6r1 pl, ipv6r2 pl, ipv6r3 pl, ipv6r4 pl, ipv6r5 pl, ipv6r6 pl, ipv6r7 pl, ipv6r8 pl, ipv6r9 pl]))

/-- uri.cpp:375-378: the lambda of `ipvfuture`. -/
def ipvfutureElem (pl : Plat) : Gr Act := .rule (Chain.nil.alternative (alts [unreserved pl, subDelims, colon pl]))

/-- uri.cpp:370-381 `ipvfuture`. -/
def ipvfuture (pl : Plat) : Gr Act := .rule ((((Chain.nil.concat (latinSmallLetterV pl) none).star (hexdig pl) 1 uintMax).concat (fullStop pl) none).star (ipvfutureElem pl) 1 uintMax)

/-- uri.cpp:386-389: the lambda of `ip_literal`. -/
def ipLiteralInner (pl : Plat) : Gr Act := .rule (Chain.nil.alternative (alts [ipv6address pl, ipvfuture pl]))

/-- uri.cpp:384-392 `ip_literal`. -/
def ipLiteral (pl : Plat) : Gr Act := .rule (((Chain.nil.concat (leftSquareBracket pl) none).concat (ipLiteralInner pl) none).concat (rightSquareBracket pl) none)

/-- uri.cpp:395-398 `host`. -/
def host (pl : Plat) : Gr Act := .rule (Chain.nil.alternative (alts [ipLiteral pl, ipv4address pl, regName pl]))

/-- uri.cpp:401-410 `host_rule`. -/
def hostRule (pl : Plat) : Gr Act := .rule (Chain.nil.concat (host pl) (some .setHost))

/-- uri.cpp:412-423 `userinfo_at`. -/
def userinfoAt (pl : Plat) : Gr Act := .rule ((Chain.nil.concat (userinfo pl) (some .setUserinfo)).concat (commercialAt pl) none)

/-- uri.cpp:426-428 `port`. -/
def port (pl : Plat) : Gr Act := .rule (Chain.nil.star (digit pl) 0 uintMax)

/-- uri.cpp:431-441 `colon_port`. -/
def colonPort (pl : Plat) : Gr Act := .rule ((Chain.nil.concat (colon pl) none).concat (port pl) (some .setPort))

/-- uri.cpp:443-451 `authority`. -/
def authority (pl : Plat) : Gr Act := .rule (((Chain.nil.optional (userinfoAt pl)).concat (hostRule pl) none).optional (colonPort pl))

/-- uri.cpp:454-456 `segment`. -/
def segment (pl : Plat) : Gr Act := .rule (Chain.nil.star (pchar pl) 0 uintMax)

/-- uri.cpp:459-461 `segment_nz`. -/
def segmentNz (pl : Plat) : Gr Act := .rule (Chain.nil.star (pchar pl) 1 uintMax)

/-- uri.cpp:468-472: the lambda of `segment_nz_nc`. -/
def segmentNzNcElem (pl : Plat) : Gr Act := .rule (Chain.nil.alternative (alts [unreserved pl, pctEncoded pl, subDelims, commercialAt pl]))

/-- uri.cpp:465-475 `segment_nz_nc`. -/
def segmentNzNc (pl : Plat) : Gr Act := .rule (Chain.nil.star (segmentNzNcElem pl) 1 uintMax)

/-- uri.cpp:523-527 (`isAbs = true`), 538-542, 553-557, 571-575 (`isAbs = false`): the lambda
`"/" segment`. -/
def slashSegment (pl : Plat) (isAbs : Bool) : Gr Act := .rule ((Chain.nil.concat (solidus pl) (some (.appendDir isAbs))).concat (segment pl) (some .appendSegment))

/-- uri.cpp:519-530 `path_abempty`. -/
def pathAbempty (pl : Plat) : Gr Act := .rule (Chain.nil.star (slashSegment pl true) 0 uintMax)

/-- uri.cpp:536-544: the optional part of `path_absolute`. -/
def pathAbsoluteTail (pl : Plat) : Gr Act := .rule ((Chain.nil.concat (segmentNz pl) (some .appendSegment)).star (slashSegment pl false) 0 uintMax)

/-- uri.cpp:532-547 `path_absolute`. -/
def pathAbsolute (pl : Plat) : Gr Act := .rule ((Chain.nil.concat (solidus pl) (some (.appendDir true))).optional (pathAbsoluteTail pl))

/-- uri.cpp:550-560 `path_noscheme`. -/
def pathNoscheme (pl : Plat) : Gr Act := .rule ((Chain.nil.concat (segmentNzNc pl) (some .recordInitial)).star (slashSegment pl false) 0 uintMax)

/-- uri.cpp:563-565 `path_empty`. -/
def pathEmpty (pl : Plat) : Gr Act := .rule (Chain.nil.star (pchar pl) 0 0)

/-- uri.cpp:568-578 `path_rootless`. -/
def pathRootless (pl : Plat) : Gr Act := .rule ((Chain.nil.concat (segmentNz pl) (some .recordInitial)).star (slashSegment pl false) 0 uintMax)

/-- uri.cpp:581-589 `auth_abempty`. -/
def authAbempty (pl : Plat) : Gr Act := .rule ((((Chain.nil.concat (solidus pl) none).concat (solidus pl) none).concat (authority pl) none).concat (pathAbempty pl) none)

/-- uri.cpp:595-602 `relative_part`. -/
def relativePart (pl : Plat) : Gr Act := .rule (Chain.nil.alternative (alts [authAbempty pl, pathAbsolute pl, pathNoscheme pl, pathEmpty pl]))

/-- uri.cpp:607-610: the lambda of `query`. -/
def queryElem (pl : Plat) : Gr Act := .rule (Chain.nil.alternative (alts [pchar pl, solidus pl, questionMark pl]))

/-- uri.cpp:605-612 `query`. -/
def query (pl : Plat) : Gr Act := .rule (Chain.nil.star (queryElem pl) 0 uintMax)

/-- uri.cpp:616-624 `question_query`. -/
def questionQuery (pl : Plat) : Gr Act := .rule ((Chain.nil.concat (questionMark pl) none).concat (query pl) (some .setQuery))

/-- uri.cpp:627-629 `fragment`. -/
def fragment (pl : Plat) : Gr Act := query pl

/-- uri.cpp:633-642 `hash_fragment` (and the identical lambda at 649-659). -/
def hashFragment (pl : Plat) : Gr Act := .rule ((Chain.nil.concat (hash pl) none).concat (fragment pl) (some .setFragment))

/-- uri.cpp:645-662 `relative_ref`. -/
def relativeRef (pl : Plat) : Gr Act := .rule (((Chain.nil.concat (relativePart pl) none).optional (questionQuery pl)).optional (hashFragment pl))

/-- uri.cpp:673-680 `hier_part`. -/
def hierPart (pl : Plat) : Gr Act := .rule (Chain.nil.alternative (alts [authAbempty pl, pathAbsolute pl, pathRootless pl, pathEmpty pl]))

/-- uri.cpp:683-695 `URI`. -/
def URI (pl : Plat) : Gr Act := .rule (((((Chain.nil.concat (scheme pl) (some .setScheme)).concat (colon pl) none).concat (hierPart pl) none).optional (questionQuery pl)).optional (hashFragment pl))

/-- uri.cpp:698-703 `URI_reference`. -/
def URIReference (pl : Plat) : Gr Act := .rule (Chain.nil.alternative (alts [URI pl, relativeRef pl]))

end Uri

/-- `rule{in}.concat (m).done ()`, as `runGrammar` of `Verif/Model/Uri.lean`, with its steps. -/
def runGrammar (g : Gr Act) (inp : SV) : CM (Option (Parts SV)) :=
  andThen (concatImpl g.steps none false (ofSV inp)) (done runAct Parts.init)

/-- uri.cpp:896-901 `split` with its steps. -/
def split (pl : Plat) (inp : SV) : CM (Option (Parts SV)) := runGrammar (Uri.URI pl) inp

/-- uri.cpp:902-907 `split_reference` with its steps. -/
def splitReference (pl : Plat) (inp : SV) : CM (Option (Parts SV)) := runGrammar (Uri.URIReference pl) inp

/-- `rule{s}.concat (m).done ()` for the field matchers. -/
def fieldOk (g : Gr Act) (s : SV) : CM Bool := andThen (runGrammar g s) fun o => ret (.ok o.isSome)

/-- An optional field. -/
def optOk (g : Gr Act) : Option SV → CM Bool
  | none => ret (.ok true)
  | some s => fieldOk g s

/-- The loop of `path::valid` (uri.cpp:829-833). -/
def allOk (ok : SV → CM Bool) : List SV → CM Bool
  | [] => ret (.ok true)
  | g :: gs => tick 1 (andThen (ok g) fun b => if b then allOk ok gs else ret (.ok false))

/-- `if (!x) return false; f` -/
def ifOk (x f : CM Bool) : CM Bool := andThen x fun b => if !b then ret (.ok false) else f

/-- uri.cpp:841-853 `authority::valid` with its steps. -/
def authorityValid (pl : Plat) (a : Authority SV) : CM Bool :=
  tick 1 (ifOk (optOk (Uri.userinfo pl) a.userinfo) (ifOk (fieldOk (Uri.host pl) a.host)
    (ifOk (optOk (Uri.port pl) a.port) (ret (.ok true)))))

/-- uri.cpp:855-875 `parts::valid` with its steps. -/
def valid (pl : Plat) (p : Parts SV) : CM Bool :=
  tick 1 (match p.scheme with
  | none => ret (.ok false)
  | some s =>
    ifOk (fieldOk (Uri.scheme pl) s)
    (ifOk (match p.authority with
      | none => ret (.ok true)
      | some a => authorityValid pl a)
    (ifOk (tick 1 (allOk (fieldOk (Uri.segment pl)) p.path.segments))
    (ifOk (optOk (Uri.query pl) p.query)
    (ifOk (optOk (Uri.fragment pl) p.fragment) (ret (.ok true)))))))

end Verif.Cost
