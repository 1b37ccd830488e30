import Verif.Model.Cost

/-!
# The parser in any locale

`isalpha`, `isalnum` and `tolower` consult the C locale the program has chosen with `std::setlocale`; `isdigit` and
`isxdigit` do not (ISO C 7.4.1.5, 7.4.1.12).  The other models fix the "C" locale.  Here the locale is an argument: the
match functions of `lib/uri/uri.cpp` again, as data (`Verif.Cost.Gr`), on top of the `<cctype>` functions of a locale.
-/

namespace Verif.Loc
open Cost (Gr Chain Alts)
open Cost.Uri (alts)

/-- What a locale decides: the results of `isalpha`, `isalnum` and `tolower` on the values 0 ..= 255 of `unsigned char`. -/
structure Locale where
  alpha : UInt8 → Bool
  alnum : UInt8 → Bool
  lower : UInt8 → UInt8

/-- A platform and the locale in force. -/
structure Env where
  pl : Plat
  loc : Locale

/-- Where `char` is signed, the byte 0xFF becomes -1, which is `EOF`: not a character in any locale. -/
def Env.eof (e : Env) (c : UInt8) : Bool := e.pl.charSigned && c == 0xFF

/-- `std::isalpha (static_cast<int> (c))`. -/
def Env.isalpha (e : Env) (c : UInt8) : M Bool := ctype e.pl (fun c => !e.eof c && e.loc.alpha c) c
/-- `std::isalnum (static_cast<int> (c))`. -/
def Env.isalnum (e : Env) (c : UInt8) : M Bool := ctype e.pl (fun c => !e.eof c && e.loc.alnum c) c
/-- `std::isdigit (static_cast<int> (c))`: the same in every locale. -/
def Env.isdigit (e : Env) (c : UInt8) : M Bool := ctype e.pl isDigitB c
/-- `std::isxdigit (static_cast<int> (c))`: the same in every locale. -/
def Env.isxdigit (e : Env) (c : UInt8) : M Bool := ctype e.pl isXDigitB c
/-- `std::tolower (static_cast<int> (c))`, an `int`; `tolower (EOF)` is `EOF`. -/
def Env.tolower (e : Env) (c : UInt8) : M Int :=
  ctype e.pl (fun c => if e.eof c then -1 else Int.ofNat (e.loc.lower c).toNat) c

/-- rule.hpp:163-167 `single_char (char)`. -/
def ch (e : Env) (c : UInt8) : Gr Act := .chr fun d => do
  let c2 ← e.tolower c
  return c2 == (← e.tolower d)

/-- rule.hpp:328-336 `char_range`, uri.cpp:32-46 `code_point_range`. -/
def range (e : Env) (first last : UInt8) : Gr Act := .chr fun c => do
  let f ← e.tolower first
  let l ← e.tolower last
  let cl ← e.tolower c
  return decide (f ≤ cl) && decide (cl ≤ l)

/-- rule.hpp:338-341 `alpha`. -/
def alpha (e : Env) : Gr Act := .chr e.isalpha
/-- rule.hpp:342-345 `digit`. -/
def digit (e : Env) : Gr Act := .chr e.isdigit
/-- rule.hpp:346-349 `hexdig`. -/
def hexdig (e : Env) : Gr Act := .chr e.isxdigit

/-- uri.cpp:48-50 -/
def commercialAt (e : Env) : Gr Act := ch e 0x40
/-- uri.cpp:51-53 -/
def colon (e : Env) : Gr Act := ch e 0x3A
/-- uri.cpp:54-56 -/
def hash (e : Env) : Gr Act := ch e 0x23
/-- uri.cpp:57-59 -/
def plus (e : Env) : Gr Act := ch e 0x2B
/-- uri.cpp:60-62 -/
def minus (e : Env) : Gr Act := ch e 0x2D
/-- uri.cpp:63-65 -/
def solidus (e : Env) : Gr Act := ch e 0x2F
/-- uri.cpp:66-68 -/
def questionMark (e : Env) : Gr Act := ch e 0x3F
/-- uri.cpp:69-71 -/
def fullStop (e : Env) : Gr Act := ch e 0x2E
/-- uri.cpp:72-74 -/
def leftSquareBracket (e : Env) : Gr Act := ch e 0x5B
/-- uri.cpp:75-77 -/
def rightSquareBracket (e : Env) : Gr Act := ch e 0x5D
/-- uri.cpp:78-80 -/
def percentSign (e : Env) : Gr Act := ch e 0x25
/-- uri.cpp:81-83 -/
def digitOne (e : Env) : Gr Act := ch e 0x31
/-- uri.cpp:84-86 -/
def digitTwo (e : Env) : Gr Act := ch e 0x32
/-- uri.cpp:87-89 -/
def digitFive (e : Env) : Gr Act := ch e 0x35
/-- uri.cpp:90-92 -/
def latinSmallLetterV (e : Env) : Gr Act := ch e 0x76

/-- uri.cpp:96-104: the look-ahead lambda of `single_colon`. -/
def notColon : Gr Act := .look fun sv => sv.chars.head? != some 0x3A

/-- uri.cpp:94-106 `single_colon`. -/
def singleColon (e : Env) : Gr Act := .rule ((Chain.nil.concat (colon e) none).concat notColon none)

/-- uri.cpp:110-120 `sub_delims`. -/
def subDelims : Gr Act := .chr fun c => .ok (Grammar.isSubDelim c)

/-- uri.cpp:123-130 `unreserved`. -/
def unreserved (e : Env) : Gr Act := .chr fun c => do
  return (← e.isalnum c) || c == 0x2D || c == 0x2E || c == 0x5F || c == 0x7E

/-- uri.cpp:133-138 `pct_encoded`. -/
def pctEncoded (e : Env) : Gr Act := .rule (((Chain.nil.concat (percentSign e) none).concat (hexdig e) none).concat (hexdig e) none)

/-- uri.cpp:141-145 `pchar`. -/
def pchar (e : Env) : Gr Act := .rule (Chain.nil.alternative (alts [unreserved e, pctEncoded e, subDelims, colon e, commercialAt e]))

/-- uri.cpp:150-153: the lambda of `userinfo`. -/
def userinfoElem (e : Env) : Gr Act := .rule (Chain.nil.alternative (alts [unreserved e, pctEncoded e, subDelims, colon e]))

/-- uri.cpp:148-155 `userinfo`. -/
def userinfo (e : Env) : Gr Act := .rule (Chain.nil.star (userinfoElem e) 0 uintMax)

/-- uri.cpp:161-164: the lambda of `scheme`. -/
def schemeElem (e : Env) : Gr Act := .rule (Chain.nil.alternative (alts [alpha e, digit e, plus e, minus e, fullStop e]))

/-- uri.cpp:159-166 `scheme`. -/
def scheme (e : Env) : Gr Act := .rule ((Chain.nil.concat (alpha e) none).star (schemeElem e) 0 uintMax)

/-- uri.cpp:172-175: the lambda of `reg_name`. -/
def regNameElem (e : Env) : Gr Act := .rule (Chain.nil.alternative (alts [unreserved e, pctEncoded e, subDelims]))

/-- uri.cpp:170-177 `reg_name`. -/
def regName (e : Env) : Gr Act := .rule (Chain.nil.star (regNameElem e) 0 uintMax)

/-- uri.cpp:187-194: `"25" %x30-35`. -/
def octet25 (e : Env) : Gr Act := .rule (((Chain.nil.concat (digitTwo e) none).concat (digitFive e) none).concat (range e 0x30 0x35) none)

/-- uri.cpp:195-202: `"2" %x30-34 DIGIT`. -/
def octet2 (e : Env) : Gr Act := .rule (((Chain.nil.concat (digitTwo e) none).concat (range e 0x30 0x34) none).concat (digit e) none)

/-- uri.cpp:203-209: `"1" 2DIGIT`. -/
def octet1 (e : Env) : Gr Act := .rule (((Chain.nil.concat (digitOne e) none).concat (digit e) none).concat (digit e) none)

/-- uri.cpp:210-216: `%x31-39 DIGIT`. -/
def octetXX (e : Env) : Gr Act := .rule ((Chain.nil.concat (range e 0x31 0x39) none).concat (digit e) none)

/-- uri.cpp:184-219 `dec_octet`. -/
def decOctet (e : Env) : Gr Act := .rule (Chain.nil.alternative (alts [octet25 e, octet2 e, octet1 e, octetXX e, digit e]))

/-- uri.cpp:222-232 `ipv4address`. -/
def ipv4address (e : Env) : Gr Act := .rule (((((((Chain.nil.concat (decOctet e) none).concat (fullStop e) none).concat (decOctet e) none).concat (fullStop e) none).concat (decOctet e) none).concat (fullStop e) none).concat (decOctet e) none)

/-- uri.cpp:235-237 `h16`. -/
def h16 (e : Env) : Gr Act := .rule (Chain.nil.star (hexdig e) 1 4)

/-- uri.cpp:240-242 `h16_colon`. -/
def h16Colon (e : Env) : Gr Act := .rule ((Chain.nil.concat (h16 e) none).concat (singleColon e) none)

/-- uri.cpp:243-245 `colon_colon`. -/
def colonColon (e : Env) : Gr Act := .rule ((Chain.nil.concat (colon e) none).concat (colon e) none)

/-- uri.cpp:251-254: the lambda of `ls32`. -/
def h16h16 (e : Env) : Gr Act := .rule (((Chain.nil.concat (h16 e) none).concat (colon e) none).concat (h16 e) none)

/-- uri.cpp:248-257 `ls32`. -/
def ls32 (e : Env) : Gr Act := .rule (Chain.nil.alternative (alts [h16h16 e, ipv4address e]))

/-- uri.cpp:295-299, 308-312, 321-325, 334-338, 346-350, 358-362: `*n( h16 ":" ) h16`. -/
def h16Prefix (e : Env) (n : Nat) : Gr Act := .rule ((Chain.nil.star (h16Colon e) 0 n).concat (h16 e) none)

/-- uri.cpp:271-276: `6( h16 ":" ) ls32`. -/
def ipv6r1 (e : Env) : Gr Act := .rule ((Chain.nil.star (h16Colon e) 6 6).concat (ls32 e) none)
/-- uri.cpp:277-283: `"::" 5( h16 ":" ) ls32`. -/
def ipv6r2 (e : Env) : Gr Act := .rule (((Chain.nil.concat (colonColon e) none).star (h16Colon e) 5 5).concat (ls32 e) none)
/-- uri.cpp:284-291: `[ h16 ] "::" 4( h16 ":" ) ls32`. -/
def ipv6r3 (e : Env) : Gr Act := .rule ((((Chain.nil.optional (h16 e)).concat (colonColon e) none).star (h16Colon e) 4 4).concat (ls32 e) none)
/-- uri.cpp:292-304: `[ *1( h16 ":" ) h16 ] "::" 3( h16 ":" ) ls32`. -/
def ipv6r4 (e : Env) : Gr Act := .rule ((((Chain.nil.optional (h16Prefix e 1)).concat (colonColon e) none).star (h16Colon e) 3 3).concat (ls32 e) none)
/-- uri.cpp:305-317: `[ *2( h16 ":" ) h16 ] "::" 2( h16 ":" ) ls32`. -/
def ipv6r5 (e : Env) : Gr Act := .rule ((((Chain.nil.optional (h16Prefix e 2)).concat (colonColon e) none).star (h16Colon e) 2 2).concat (ls32 e) none)
/-- uri.cpp:318-330: `[ *3( h16 ":" ) h16 ] "::" h16 ":" ls32`. -/
def ipv6r6 (e : Env) : Gr Act := .rule ((((Chain.nil.optional (h16Prefix e 3)).concat (colonColon e) none).concat (h16Colon e) none).concat (ls32 e) none)
/-- uri.cpp:331-342: `[ *4( h16 ":" ) h16 ] "::" ls32`. -/
def ipv6r7 (e : Env) : Gr Act := .rule (((Chain.nil.optional (h16Prefix e 4)).concat (colonColon e) none).concat (ls32 e) none)
/-- uri.cpp:343-354: `[ *5( h16 ":" ) h16 ] "::" h16`. -/
def ipv6r8 (e : Env) : Gr Act := .rule (((Chain.nil.optional (h16Prefix e 5)).concat (colonColon e) none).concat (h16 e) none)
/-- uri.cpp:355-365: `[ *6( h16 ":" ) h16 ] "::"`. -/
def ipv6r9 (e : Env) : Gr Act := .rule ((Chain.nil.optional (h16Prefix e 6)).concat (colonColon e) none)

/-- uri.cpp:268-367 `ipv6address`. -/
def ipv6address (e : Env) : Gr Act := .rule (Chain.nil.alternative (alts [ipv6r1 e, ipv6r2 e, ipv6r3 e, ipv6r4 e, ipv6r5 e, ipv6r6 e, ipv6r7 e, ipv6r8 e, ipv6r9 e]))

/-- uri.cpp:375-378: the lambda of `ipvfuture`. -/
def ipvfutureElem (e : Env) : Gr Act := .rule (Chain.nil.alternative (alts [unreserved e, subDelims, colon e]))

/-- uri.cpp:370-381 `ipvfuture`. -/
def ipvfuture (e : Env) : Gr Act := .rule ((((Chain.nil.concat (latinSmallLetterV e) none).star (hexdig e) 1 uintMax).concat (fullStop e) none).star (ipvfutureElem e) 1 uintMax)

/-- uri.cpp:386-389: the lambda of `ip_literal`. -/
def ipLiteralInner (e : Env) : Gr Act := .rule (Chain.nil.alternative (alts [ipv6address e, ipvfuture e]))

/-- uri.cpp:384-392 `ip_literal`. -/
def ipLiteral (e : Env) : Gr Act := .rule (((Chain.nil.concat (leftSquareBracket e) none).concat (ipLiteralInner e) none).concat (rightSquareBracket e) none)

/-- uri.cpp:395-398 `host`. -/
def host (e : Env) : Gr Act := .rule (Chain.nil.alternative (alts [ipLiteral e, ipv4address e, regName e]))

/-- uri.cpp:401-410 `host_rule`. -/
def hostRule (e : Env) : Gr Act := .rule (Chain.nil.concat (host e) (some .setHost))

/-- uri.cpp:412-423 `userinfo_at`. -/
def userinfoAt (e : Env) : Gr Act := .rule ((Chain.nil.concat (userinfo e) (some .setUserinfo)).concat (commercialAt e) none)

/-- uri.cpp:426-428 `port`. -/
def port (e : Env) : Gr Act := .rule (Chain.nil.star (digit e) 0 uintMax)

/-- uri.cpp:431-441 `colon_port`. -/
def colonPort (e : Env) : Gr Act := .rule ((Chain.nil.concat (colon e) none).concat (port e) (some .setPort))

/-- uri.cpp:443-451 `authority`. -/
def authority (e : Env) : Gr Act := .rule (((Chain.nil.optional (userinfoAt e)).concat (hostRule e) none).optional (colonPort e))

/-- uri.cpp:454-456 `segment`. -/
def segment (e : Env) : Gr Act := .rule (Chain.nil.star (pchar e) 0 uintMax)

/-- uri.cpp:459-461 `segment_nz`. -/
def segmentNz (e : Env) : Gr Act := .rule (Chain.nil.star (pchar e) 1 uintMax)

/-- uri.cpp:468-472: the lambda of `segment_nz_nc`. -/
def segmentNzNcElem (e : Env) : Gr Act := .rule (Chain.nil.alternative (alts [unreserved e, pctEncoded e, subDelims, commercialAt e]))

/-- uri.cpp:465-475 `segment_nz_nc`. -/
def segmentNzNc (e : Env) : Gr Act := .rule (Chain.nil.star (segmentNzNcElem e) 1 uintMax)

/-- uri.cpp:523-527 (`isAbs = true`), 538-542, 553-557, 571-575 (`isAbs = false`): the lambda
`"/" segment`. -/
def slashSegment (e : Env) (isAbs : Bool) : Gr Act := .rule ((Chain.nil.concat (solidus e) (some (.appendDir isAbs))).concat (segment e) (some .appendSegment))

/-- uri.cpp:519-530 `path_abempty`. -/
def pathAbempty (e : Env) : Gr Act := .rule (Chain.nil.star (slashSegment e true) 0 uintMax)

/-- uri.cpp:536-544: the optional part of `path_absolute`. -/
def pathAbsoluteTail (e : Env) : Gr Act := .rule ((Chain.nil.concat (segmentNz e) (some .appendSegment)).star (slashSegment e false) 0 uintMax)

/-- uri.cpp:532-547 `path_absolute`. -/
def pathAbsolute (e : Env) : Gr Act := .rule ((Chain.nil.concat (solidus e) (some (.appendDir true))).optional (pathAbsoluteTail e))

/-- uri.cpp:550-560 `path_noscheme`. -/
def pathNoscheme (e : Env) : Gr Act := .rule ((Chain.nil.concat (segmentNzNc e) (some .recordInitial)).star (slashSegment e false) 0 uintMax)

/-- uri.cpp:563-565 `path_empty`. -/
def pathEmpty (e : Env) : Gr Act := .rule (Chain.nil.star (pchar e) 0 0)

/-- uri.cpp:568-578 `path_rootless`. -/
def pathRootless (e : Env) : Gr Act := .rule ((Chain.nil.concat (segmentNz e) (some .recordInitial)).star (slashSegment e false) 0 uintMax)

/-- uri.cpp:581-589 `auth_abempty`. -/
def authAbempty (e : Env) : Gr Act := .rule ((((Chain.nil.concat (solidus e) none).concat (solidus e) none).concat (authority e) none).concat (pathAbempty e) none)

/-- uri.cpp:595-602 `relative_part`. -/
def relativePart (e : Env) : Gr Act := .rule (Chain.nil.alternative (alts [authAbempty e, pathAbsolute e, pathNoscheme e, pathEmpty e]))

/-- uri.cpp:607-610: the lambda of `query`. -/
def queryElem (e : Env) : Gr Act := .rule (Chain.nil.alternative (alts [pchar e, solidus e, questionMark e]))

/-- uri.cpp:605-612 `query`. -/
def query (e : Env) : Gr Act := .rule (Chain.nil.star (queryElem e) 0 uintMax)

/-- uri.cpp:616-624 `question_query`. -/
def questionQuery (e : Env) : Gr Act := .rule ((Chain.nil.concat (questionMark e) none).concat (query e) (some .setQuery))

/-- uri.cpp:627-629 `fragment`. -/
def fragment (e : Env) : Gr Act := query e

/-- uri.cpp:633-642 `hash_fragment` (and the identical lambda at 649-659). -/
def hashFragment (e : Env) : Gr Act := .rule ((Chain.nil.concat (hash e) none).concat (fragment e) (some .setFragment))

/-- uri.cpp:645-662 `relative_ref`. -/
def relativeRef (e : Env) : Gr Act := .rule (((Chain.nil.concat (relativePart e) none).optional (questionQuery e)).optional (hashFragment e))

/-- uri.cpp:673-680 `hier_part`. -/
def hierPart (e : Env) : Gr Act := .rule (Chain.nil.alternative (alts [authAbempty e, pathAbsolute e, pathRootless e, pathEmpty e]))

/-- uri.cpp:683-695 `URI`. -/
def URI (e : Env) : Gr Act := .rule (((((Chain.nil.concat (scheme e) (some .setScheme)).concat (colon e) none).concat (hierPart e) none).optional (questionQuery e)).optional (hashFragment e))

/-- uri.cpp:698-703 `URI_reference`. -/
def URIReference (e : Env) : Gr Act := .rule (Chain.nil.alternative (alts [URI e, relativeRef e]))

/-- uri.cpp:896-901 `split`. -/
def split (e : Env) (inp : SV) : M (Option (Parts SV)) := runGrammar (URI e).run inp

/-- uri.cpp:902-907 `split_reference`. -/
def splitReference (e : Env) (inp : SV) : M (Option (Parts SV)) := runGrammar (URIReference e).run inp

/-- uri.cpp:985-996 `join` on strings. -/
def joinStr (e : Env) (base reference : SV) (strict : Bool) : M (Option (Parts SV)) := do
  match ← split e base with
  | none => return none
  | some b =>
    match ← splitReference e reference with
    | none => return none
    | some r => return some (join b r strict)

/-- uri.cpp:828-835 `path::valid`. -/
def pathValid (e : Env) (p : Path SV) : M Bool := allOk (fieldOk (segment e).run) p.segments

/-- uri.cpp:841-853 `authority::valid`. -/
def authorityValid (e : Env) (a : Authority SV) : M Bool := do
  if !(← optOk (userinfo e).run a.userinfo) then return false
  if !(← fieldOk (host e).run a.host) then return false
  if !(← optOk (port e).run a.port) then return false
  return true

/-- uri.cpp:855-875 `parts::valid`. -/
def valid (e : Env) (p : Parts SV) : M Bool := do
  match p.scheme with
  | none => return false
  | some s =>
    if !(← fieldOk (scheme e).run s) then return false
    if !(← (match p.authority with
            | none => pure true
            | some a => authorityValid e a)) then return false
    if !(← pathValid e p.path) then return false
    if !(← optOk (query e).run p.query) then return false
    if !(← optOk (fragment e).run p.fragment) then return false
    return true

end Verif.Loc
