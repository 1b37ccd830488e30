import Verif.Model.Rule

/-!
# The RFC 3986 grammar of `lib/uri/uri.cpp`

Every matcher of uri.cpp lines 25-703, in the same order and shape.  A chain
`r.concat (A).concat (B).matched (name, r)` becomes
`concat A r >>= concat B >>= matched r`: the rule argument comes last.  The
name passed to `matched` is only used for tracing and is dropped.  The `assert`s of
`single_code_point` and `code_point_range` compare constants below 0x80 with
`numeric_limits<char>::max ()` and always hold.
-/

namespace Verif

/-- The acceptor function objects of uri.cpp that write to the `result` parts. -/
inductive Act
  /-- uri.cpp:688 -/
  | setScheme
  /-- uri.cpp:417-419 -/
  | setUserinfo
  /-- uri.cpp:405-407 -/
  | setHost
  /-- uri.cpp:436-438 -/
  | setPort
  /-- uri.cpp:477-492 `append_dir<IsAbs>` -/
  | appendDir (isAbs : Bool)
  /-- uri.cpp:494-505 `append_segment` -/
  | appendSegment
  /-- uri.cpp:507-517 `record_initial_segment` -/
  | recordInitial
  /-- uri.cpp:620-621 -/
  | setQuery
  /-- uri.cpp:637-639, 655-657 -/
  | setFragment
  deriving DecidableEq, Repr

namespace Grammar
open Rule

/-- Matchers of the URI grammar. -/
abbrev Mt := Matcher Act

/-- uri.cpp:25-30 `single_code_point`. -/
def singleCodePoint (pl : Plat) (c : UInt8) : Mt := fun r => r.singleChar pl c

/-- uri.cpp:48-50 -/
def commercialAt (pl : Plat) : Mt := singleCodePoint pl 0x40
/-- uri.cpp:51-53 -/
def colon (pl : Plat) : Mt := singleCodePoint pl 0x3A
/-- uri.cpp:54-56 -/
def hash (pl : Plat) : Mt := singleCodePoint pl 0x23
/-- uri.cpp:57-59 -/
def plus (pl : Plat) : Mt := singleCodePoint pl 0x2B
/-- uri.cpp:60-62 -/
def minus (pl : Plat) : Mt := singleCodePoint pl 0x2D
/-- uri.cpp:63-65 -/
def solidus (pl : Plat) : Mt := singleCodePoint pl 0x2F
/-- uri.cpp:66-68 -/
def questionMark (pl : Plat) : Mt := singleCodePoint pl 0x3F
/-- uri.cpp:69-71 -/
def fullStop (pl : Plat) : Mt := singleCodePoint pl 0x2E
/-- uri.cpp:72-74 -/
def leftSquareBracket (pl : Plat) : Mt := singleCodePoint pl 0x5B
/-- uri.cpp:75-77 -/
def rightSquareBracket (pl : Plat) : Mt := singleCodePoint pl 0x5D
/-- uri.cpp:78-80 -/
def percentSign (pl : Plat) : Mt := singleCodePoint pl 0x25
/-- uri.cpp:81-83 -/
def digitOne (pl : Plat) : Mt := singleCodePoint pl 0x31
/-- uri.cpp:84-86 -/
def digitTwo (pl : Plat) : Mt := singleCodePoint pl 0x32
/-- uri.cpp:87-89 -/
def digitFive (pl : Plat) : Mt := singleCodePoint pl 0x35
/-- uri.cpp:90-92 -/
def latinSmallLetterV (pl : Plat) : Mt := singleCodePoint pl 0x76

/-- uri.cpp:96-104: the look-ahead lambda of `single_colon`: succeeds with an empty match when the
next character is not `':'`. -/
def notColon : Mt := fun r1 =>
  match r1.tail with
  | none => .ok none
  | some sv =>
      match sv.chars with
      | [] => do return some (← sv.substr 0 0, [])
      | c :: _ => if c ≠ 0x3A then do return some (← sv.substr 0 0, []) else .ok none

/-- uri.cpp:94-106 `single_colon`. -/
def singleColon (pl : Plat) : Mt := fun r =>
  concat (colon pl) r >>= concat notColon >>= matched r

/-- The predicate of uri.cpp:111-119: `static_cast<code_point> (c)` compared with ASCII constants. -/
def isSubDelim (c : UInt8) : Bool :=
  c == 0x21 || c == 0x24 || c == 0x26 || c == 0x27 || c == 0x28 || c == 0x29 || c == 0x2A ||
  c == 0x2B || c == 0x2C || c == 0x3B || c == 0x3D

/-- uri.cpp:110-120 `sub_delims`. -/
def subDelims : Mt := singleCharP fun c => .ok (isSubDelim c)

/-- uri.cpp:123-130 `unreserved`. -/
def unreserved (pl : Plat) : Mt := singleCharP fun c => do
  return (← isalnum pl c) || c == 0x2D || c == 0x2E || c == 0x5F || c == 0x7E

/-- uri.cpp:133-138 `pct_encoded`. -/
def pctEncoded (pl : Plat) : Mt := fun r =>
  concat (percentSign pl) r >>= concat (hexdig pl) >>= concat (hexdig pl) >>= matched r

/-- uri.cpp:141-145 `pchar`. -/
def pchar (pl : Plat) : Mt := fun r =>
  alternative [unreserved pl, pctEncoded pl, subDelims, colon pl, commercialAt pl] r >>= matched r

/-- uri.cpp:150-153: the lambda of `userinfo`. -/
def userinfoElem (pl : Plat) : Mt := fun r2 =>
  alternative [unreserved pl, pctEncoded pl, subDelims, colon pl] r2 >>= matched r2

/-- uri.cpp:148-155 `userinfo`. -/
def userinfo (pl : Plat) : Mt := fun r =>
  star (userinfoElem pl) 0 uintMax r >>= matched r

/-- uri.cpp:161-164: the lambda of `scheme`. -/
def schemeElem (pl : Plat) : Mt := fun r2 =>
  alternative [alpha pl, digit pl, plus pl, minus pl, fullStop pl] r2 >>= matched r2

/-- uri.cpp:159-166 `scheme`. -/
def scheme (pl : Plat) : Mt := fun r =>
  concat (alpha pl) r >>= star (schemeElem pl) 0 uintMax >>= matched r

/-- uri.cpp:172-175: the lambda of `reg_name`. -/
def regNameElem (pl : Plat) : Mt := fun r1 =>
  alternative [unreserved pl, pctEncoded pl, subDelims] r1 >>= matched r1

/-- uri.cpp:170-177 `reg_name`. -/
def regName (pl : Plat) : Mt := fun r =>
  star (regNameElem pl) 0 uintMax r >>= matched r

/-- uri.cpp:187-194: `"25" %x30-35`. -/
def octet25 (pl : Plat) : Mt := fun r4 =>
  concat (digitTwo pl) r4 >>= concat (digitFive pl) >>= concat (charRange pl 0x30 0x35) >>=
    matched r4

/-- uri.cpp:195-202: `"2" %x30-34 DIGIT`. -/
def octet2 (pl : Plat) : Mt := fun r3 =>
  concat (digitTwo pl) r3 >>= concat (charRange pl 0x30 0x34) >>= concat (digit pl) >>= matched r3

/-- uri.cpp:203-209: `"1" 2DIGIT`. -/
def octet1 (pl : Plat) : Mt := fun r2 =>
  concat (digitOne pl) r2 >>= concat (digit pl) >>= concat (digit pl) >>= matched r2

/-- uri.cpp:210-216: `%x31-39 DIGIT`. -/
def octetXX (pl : Plat) : Mt := fun r1 =>
  concat (charRange pl 0x31 0x39) r1 >>= concat (digit pl) >>= matched r1

/-- uri.cpp:184-219 `dec_octet`. -/
def decOctet (pl : Plat) : Mt := fun r =>
  alternative [octet25 pl, octet2 pl, octet1 pl, octetXX pl, digit pl] r >>= matched r

/-- uri.cpp:222-232 `ipv4address`. -/
def ipv4address (pl : Plat) : Mt := fun r =>
  concat (decOctet pl) r >>= concat (fullStop pl) >>= concat (decOctet pl) >>=
    concat (fullStop pl) >>= concat (decOctet pl) >>= concat (fullStop pl) >>=
    concat (decOctet pl) >>= matched r

/-- uri.cpp:235-237 `h16`. -/
def h16 (pl : Plat) : Mt := fun r => star (hexdig pl) 1 4 r >>= matched r

/-- uri.cpp:240-242 `h16_colon`. -/
def h16Colon (pl : Plat) : Mt := fun r => concat (h16 pl) r >>= concat (singleColon pl) >>= matched r

/-- uri.cpp:243-245 `colon_colon`. -/
def colonColon (pl : Plat) : Mt := fun r => concat (colon pl) r >>= concat (colon pl) >>= matched r

/-- uri.cpp:251-254: the lambda of `ls32`. -/
def h16h16 (pl : Plat) : Mt := fun r1 =>
  concat (h16 pl) r1 >>= concat (colon pl) >>= concat (h16 pl) >>= matched r1

/-- uri.cpp:248-257 `ls32`. -/
def ls32 (pl : Plat) : Mt := fun r => alternative [h16h16 pl, ipv4address pl] r >>= matched r

/-- uri.cpp:295-299, 308-312, 321-325, 334-338, 346-350, 358-362: `*n( h16 ":" ) h16`. -/
def h16Prefix (pl : Plat) (n : Nat) : Mt := fun ra =>
  star (h16Colon pl) 0 n ra >>= concat (h16 pl) >>= matched ra

/-- uri.cpp:271-276: `6( h16 ":" ) ls32`. -/
def ipv6r1 (pl : Plat) : Mt := fun r1 =>
  star (h16Colon pl) 6 6 r1 >>= concat (ls32 pl) >>= matched r1
/-- uri.cpp:277-283: `"::" 5( h16 ":" ) ls32`. -/
def ipv6r2 (pl : Plat) : Mt := fun r2 =>
  concat (colonColon pl) r2 >>= star (h16Colon pl) 5 5 >>= concat (ls32 pl) >>= matched r2
/-- uri.cpp:284-291: `[ h16 ] "::" 4( h16 ":" ) ls32`. -/
def ipv6r3 (pl : Plat) : Mt := fun r3 =>
  optional (h16 pl) r3 >>= concat (colonColon pl) >>= star (h16Colon pl) 4 4 >>=
    concat (ls32 pl) >>= matched r3
/-- uri.cpp:292-304: `[ *1( h16 ":" ) h16 ] "::" 3( h16 ":" ) ls32`. -/
def ipv6r4 (pl : Plat) : Mt := fun r4 =>
  optional (h16Prefix pl 1) r4 >>= concat (colonColon pl) >>= star (h16Colon pl) 3 3 >>=
    concat (ls32 pl) >>= matched r4
/-- uri.cpp:305-317: `[ *2( h16 ":" ) h16 ] "::" 2( h16 ":" ) ls32`. -/
def ipv6r5 (pl : Plat) : Mt := fun r5 =>
  optional (h16Prefix pl 2) r5 >>= concat (colonColon pl) >>= star (h16Colon pl) 2 2 >>=
    concat (ls32 pl) >>= matched r5
/-- uri.cpp:318-330: `[ *3( h16 ":" ) h16 ] "::" h16 ":" ls32`. -/
def ipv6r6 (pl : Plat) : Mt := fun r6 =>
  optional (h16Prefix pl 3) r6 >>= concat (colonColon pl) >>= concat (h16Colon pl) >>=
    concat (ls32 pl) >>= matched r6
/-- uri.cpp:331-342: `[ *4( h16 ":" ) h16 ] "::" ls32`. -/
def ipv6r7 (pl : Plat) : Mt := fun r7 =>
  optional (h16Prefix pl 4) r7 >>= concat (colonColon pl) >>= concat (ls32 pl) >>= matched r7
/-- uri.cpp:343-354: `[ *5( h16 ":" ) h16 ] "::" h16`. -/
def ipv6r8 (pl : Plat) : Mt := fun r8 =>
  optional (h16Prefix pl 5) r8 >>= concat (colonColon pl) >>= concat (h16 pl) >>= matched r8
/-- uri.cpp:355-365: `[ *6( h16 ":" ) h16 ] "::"`. -/
def ipv6r9 (pl : Plat) : Mt := fun r9 =>
  optional (h16Prefix pl 6) r9 >>= concat (colonColon pl) >>= matched r9

/-- uri.cpp:268-367 `ipv6address`. -/
def ipv6address (pl : Plat) : Mt := fun r =>
  alternative [ipv6r1 pl, ipv6r2 pl, ipv6r3 pl, ipv6r4 pl, ipv6r5 pl, ipv6r6 pl, ipv6r7 pl,
    ipv6r8 pl, ipv6r9 pl] r >>= matched r

/-- uri.cpp:375-378: the lambda of `ipvfuture`. -/
def ipvfutureElem (pl : Plat) : Mt := fun r1 =>
  alternative [unreserved pl, subDelims, colon pl] r1 >>= matched r1

/-- uri.cpp:370-381 `ipvfuture`. -/
def ipvfuture (pl : Plat) : Mt := fun r =>
  concat (latinSmallLetterV pl) r >>= star (hexdig pl) 1 uintMax >>= concat (fullStop pl) >>=
    star (ipvfutureElem pl) 1 uintMax >>= matched r

/-- uri.cpp:386-389: the lambda of `ip_literal`. -/
def ipLiteralInner (pl : Plat) : Mt := fun r1 =>
  alternative [ipv6address pl, ipvfuture pl] r1 >>= matched r1

/-- uri.cpp:384-392 `ip_literal`. -/
def ipLiteral (pl : Plat) : Mt := fun r =>
  concat (leftSquareBracket pl) r >>= concat (ipLiteralInner pl) >>=
    concat (rightSquareBracket pl) >>= matched r

/-- uri.cpp:395-398 `host`. -/
def host (pl : Plat) : Mt := fun r =>
  alternative [ipLiteral pl, ipv4address pl, regName pl] r >>= matched r

/-- uri.cpp:401-410 `host_rule`. -/
def hostRule (pl : Plat) : Mt := fun r => concatA (host pl) .setHost r >>= matched r

/-- uri.cpp:412-423 `userinfo_at`. -/
def userinfoAt (pl : Plat) : Mt := fun r =>
  concatA (userinfo pl) .setUserinfo r >>= concat (commercialAt pl) >>= matched r

/-- uri.cpp:426-428 `port`. -/
def port (pl : Plat) : Mt := fun r => star (digit pl) 0 uintMax r >>= matched r

/-- uri.cpp:431-441 `colon_port`. -/
def colonPort (pl : Plat) : Mt := fun r =>
  concat (colon pl) r >>= concatA (port pl) .setPort >>= matched r

/-- uri.cpp:443-451 `authority`. -/
def authority (pl : Plat) : Mt := fun r =>
  optional (userinfoAt pl) r >>= concat (hostRule pl) >>= optional (colonPort pl) >>= matched r

/-- uri.cpp:454-456 `segment`. -/
def segment (pl : Plat) : Mt := fun r => star (pchar pl) 0 uintMax r >>= matched r

/-- uri.cpp:459-461 `segment_nz`. -/
def segmentNz (pl : Plat) : Mt := fun r => star (pchar pl) 1 uintMax r >>= matched r

/-- uri.cpp:468-472: the lambda of `segment_nz_nc`. -/
def segmentNzNcElem (pl : Plat) : Mt := fun r2 =>
  alternative [unreserved pl, pctEncoded pl, subDelims, commercialAt pl] r2 >>= matched r2

/-- uri.cpp:465-475 `segment_nz_nc`. -/
def segmentNzNc (pl : Plat) : Mt := fun r => star (segmentNzNcElem pl) 1 uintMax r >>= matched r

/-- uri.cpp:523-527 (`isAbs = true`), 538-542, 553-557, 571-575 (`isAbs = false`): the lambda
`"/" segment`. -/
def slashSegment (pl : Plat) (isAbs : Bool) : Mt := fun r2 =>
  concatA (solidus pl) (.appendDir isAbs) r2 >>= concatA (segment pl) .appendSegment >>= matched r2

/-- uri.cpp:519-530 `path_abempty`. -/
def pathAbempty (pl : Plat) : Mt := fun r => star (slashSegment pl true) 0 uintMax r >>= matched r

/-- uri.cpp:536-544: the optional part of `path_absolute`. -/
def pathAbsoluteTail (pl : Plat) : Mt := fun r1 =>
  concatA (segmentNz pl) .appendSegment r1 >>= star (slashSegment pl false) 0 uintMax >>= matched r1

/-- uri.cpp:532-547 `path_absolute`. -/
def pathAbsolute (pl : Plat) : Mt := fun r =>
  concatA (solidus pl) (.appendDir true) r >>= optional (pathAbsoluteTail pl) >>= matched r

/-- uri.cpp:550-560 `path_noscheme`. -/
def pathNoscheme (pl : Plat) : Mt := fun r =>
  concatA (segmentNzNc pl) .recordInitial r >>= star (slashSegment pl false) 0 uintMax >>= matched r

/-- uri.cpp:563-565 `path_empty`. -/
def pathEmpty (pl : Plat) : Mt := fun r => star (pchar pl) 0 0 r >>= matched r

/-- uri.cpp:568-578 `path_rootless`. -/
def pathRootless (pl : Plat) : Mt := fun r =>
  concatA (segmentNz pl) .recordInitial r >>= star (slashSegment pl false) 0 uintMax >>= matched r

/-- uri.cpp:581-589 `auth_abempty`. -/
def authAbempty (pl : Plat) : Mt := fun r =>
  concat (solidus pl) r >>= concat (solidus pl) >>= concat (authority pl) >>=
    concat (pathAbempty pl) >>= matched r

/-- uri.cpp:595-602 `relative_part`. -/
def relativePart (pl : Plat) : Mt := fun r =>
  alternative [authAbempty pl, pathAbsolute pl, pathNoscheme pl, pathEmpty pl] r >>= matched r

/-- uri.cpp:607-610: the lambda of `query`. -/
def queryElem (pl : Plat) : Mt := fun r2 =>
  alternative [pchar pl, solidus pl, questionMark pl] r2 >>= matched r2

/-- uri.cpp:605-612 `query`. -/
def query (pl : Plat) : Mt := fun r => star (queryElem pl) 0 uintMax r >>= matched r

/-- uri.cpp:616-624 `question_query`. -/
def questionQuery (pl : Plat) : Mt := fun r =>
  concat (questionMark pl) r >>= concatA (query pl) .setQuery >>= matched r

/-- uri.cpp:627-629 `fragment`. -/
def fragment (pl : Plat) : Mt := fun r => query pl r

/-- uri.cpp:633-642 `hash_fragment` (and the identical lambda at 649-659). -/
def hashFragment (pl : Plat) : Mt := fun rf =>
  concat (hash pl) rf >>= concatA (fragment pl) .setFragment >>= matched rf

/-- uri.cpp:645-662 `relative_ref`. -/
def relativeRef (pl : Plat) : Mt := fun r =>
  concat (relativePart pl) r >>= optional (questionQuery pl) >>= optional (hashFragment pl) >>=
    matched r

/-- uri.cpp:673-680 `hier_part`. -/
def hierPart (pl : Plat) : Mt := fun r =>
  alternative [authAbempty pl, pathAbsolute pl, pathRootless pl, pathEmpty pl] r >>= matched r

/-- uri.cpp:683-695 `URI`. -/
def URI (pl : Plat) : Mt := fun r =>
  concatA (scheme pl) .setScheme r >>= concat (colon pl) >>= concat (hierPart pl) >>=
    optional (questionQuery pl) >>= optional (hashFragment pl) >>= matched r

/-- uri.cpp:698-703 `URI_reference`. -/
def URIReference (pl : Plat) : Mt := fun r =>
  alternative [URI pl, relativeRef pl] r >>= matched r

end Grammar
end Verif
