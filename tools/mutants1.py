MUTANTS = []
def m(id, file, definition, what, edits, breaks):
    MUTANTS.append(dict(id=id, file=file, definition=definition, what=what, edits=edits, breaks=breaks))
# --- Rule
m("R01","Rule","Rule.starLoop","bound test 'count > max' becomes 'count >= max': one repetition too few",
  [("          if count > max then .ok (count, length, acc)\n          else do\n            let l","          if count ≥ max then .ok (count, length, acc)\n          else do\n            let l")],["C11","C12"])
m("R02","Rule","Rule.star","'count < min' becomes 'count <= min'",[("if count < min then .ok failed","if count ≤ min then .ok failed")],["C11","C02"])
m("R03","Rule","Rule.starLoop","acceptors of the iterations are dropped",[("(length + l) (acc ++ a)","(length + l) acc")],["C10","C01"])
m("R04","Rule","Rule.starLoop","acceptors of an iteration are put in front of the earlier ones",[("(length + l) (acc ++ a)","(length + l) (a ++ acc)")],["C10","C05"])
m("R05","Rule","Rule.joinMatched","acceptors joined in the wrong order",[("return ⟨some t', r.acc ++ m.2⟩","return ⟨some t', m.2 ++ r.acc⟩")],["C10"])
m("R06","Rule","Rule.concatImpl","a failed mandatory match leaves the rule unchanged (as if optional)",[("| none => if isOptional then .ok r else .ok failed","| none => if isOptional then .ok r else .ok r")],["C11","C01"])
m("R07","Rule","Rule.concatImpl","the accept function runs before those of the matched expression",[("| some a => acc ++ [(a, head)]","| some a => (a, head) :: acc")],["C10"])
m("R08","Rule","Rule.optionalA","a failed optional fails the rule",[("let res ← concatImpl m accept true (ofSV t)","let res ← concatImpl m accept false (ofSV t)"),("      | none => .ok r\n      | some _ => .ok (r.joinRule res)","      | none => .ok failed\n      | some _ => .ok (r.joinRule res)")],["C11","C02"])
m("R09","Rule","Rule.optionalA","the acceptors of the optional part are lost",[("| some _ => .ok (r.joinRule res)","| some _ => .ok ⟨res.tail, r.acc⟩")],["C10","C01"])
m("R10","Rule","Rule.alternative","the acceptors of the alternative chosen are lost",[("| some x => r.joinMatched x","| some x => r.joinMatched (x.1, [])")],["C10","C01"])
m("R11","Rule","Rule.alternative","only the first alternative is tried",[("| none => alternative rest r","| none => .ok failed")],["C11","C02"])
m("R12","Rule","Rule.matched","the matched text is one character short",[("let s ← it.substr 0 n","let s ← it.substr 0 (n - 1)")],["C01","C10","C05"])
m("R13","Rule","Rule.done","done succeeds although text is left",[("| _ :: _ => .ok none","| _ :: _ => do\n          let st' ← r.acc.foldlM (fun s a => run s a.1 a.2) st\n          return some st'")],["C10","C01"])
m("R14","Rule","Rule.done","acceptors run in reverse order",[("      | [] => do\n          let st' ← r.acc.foldlM","      | [] => do\n          let st' ← r.acc.reverse.foldlM")],["C10","C01"])
m("R15","Rule","Rule.singleChar","the input character is not folded to lower case",[("return c2 == (← tolower pl d)","return c2 == d")],["C12"])
m("R16","Rule","Rule.charRange","upper bound exclusive",[("decide (cl.toNat ≤ l.toNat)) r","decide (cl.toNat < l.toNat)) r")],["C12"])
m("R17","Rule","Rule.singleCharP","matches two characters",[("            let s ← sv.substr 0 1\n","            let s ← sv.substr 0 2\n")],["C01"])
m("R18","Rule","Rule.joinRule","the tail of the optional part is ignored (text consumed twice)",[("def joinRule (r other : Rule α) : Rule α := ⟨other.tail,","def joinRule (r other : Rule α) : Rule α := ⟨r.tail,")],["C01","C11"])
# --- Base
m("B01","Base","isXDigitB","'g' counted as a hexadecimal digit",[("decide (c.toNat ≤ 0x66)","decide (c.toNat ≤ 0x67)")],["C01","C12"])
m("B02","Base","isAlphaB","'[' counted as a letter",[("decide (c.toNat ≤ 0x5A)) ||","decide (c.toNat ≤ 0x5B)) ||")],["C01"])
m("B03","Base","SV.substr","address not advanced",[("def substr (s : SV) (pos : Nat) (n : Nat) : M SV :=\n  if pos ≤ s.size then .ok ⟨s.ptr + pos,","def substr (s : SV) (pos : Nat) (n : Nat) : M SV :=\n  if pos ≤ s.size then .ok ⟨s.ptr + pos + 1,")],["C08"])
m("B04","Base","SV.substrFrom","address of the tail not advanced",[("def substrFrom (s : SV) (pos : Nat) : M SV :=\n  if pos ≤ s.size then .ok ⟨s.ptr + pos,","def substrFrom (s : SV) (pos : Nat) : M SV :=\n  if pos ≤ s.size then .ok ⟨s.ptr,")],["C08"])
# --- Grammar
m("G01","Grammar","h16","up to five digits",[("star (hexdig pl) 1 4 r","star (hexdig pl) 1 5 r")],["C12","C01"])
m("G02","Grammar","octet25","25[0-9]",[("concat (charRange pl 0x30 0x35)","concat (charRange pl 0x30 0x39)")],["C12"])
m("G03","Grammar","octet2","2[0-5]DIGIT (accepts 256..259 after the first alternative fails)",[("concat (charRange pl 0x30 0x34)","concat (charRange pl 0x30 0x35)")],["C12"])
m("G04","Grammar","octetXX","leading zero accepted",[("concat (charRange pl 0x31 0x39) r1","concat (charRange pl 0x30 0x39) r1")],["C12"])
m("G05","Grammar","decOctet","the alternatives in ascending order: DIGIT first",[("[octet25 pl, octet2 pl, octet1 pl, octetXX pl, digit pl]","[digit pl, octetXX pl, octet1 pl, octet2 pl, octet25 pl]")],["C12"])
m("G06","Grammar","ipv6r1","5 groups instead of 6",[("star (h16Colon pl) 6 6 r1","star (h16Colon pl) 5 5 r1")],["C12"])
m("G07","Grammar","ipv6r5","[ *3( h16 ':' ) h16 ]",[("optional (h16Prefix pl 2) r5","optional (h16Prefix pl 3) r5")],["C12"])
m("G08","Grammar","ipv6r9","[ *5( h16 ':' ) h16 ]",[("optional (h16Prefix pl 6) r9","optional (h16Prefix pl 5) r9")],["C12"])
m("G09","Grammar","ipv6address","the eighth form is forgotten",[("ipv6r7 pl,\n    ipv6r8 pl, ipv6r9 pl]","ipv6r7 pl,\n    ipv6r9 pl]")],["C12"])
m("G10","Grammar","singleColon","the look-ahead is dropped (h16 ':' eats the first colon of '::')",[("  concat (colon pl) r >>= concat notColon >>= matched r","  concat (colon pl) r >>= matched r")],["C12"])
m("G11","Grammar","ls32","no embedded IPv4 address",[("alternative [h16h16 pl, ipv4address pl] r","alternative [h16h16 pl] r")],["C12"])
m("G12","Grammar","ipvfuture","'.' may be missing",[("star (hexdig pl) 1 uintMax >>= concat (fullStop pl) >>=","star (hexdig pl) 1 uintMax >>= optional (fullStop pl) >>=")],["C12"])
m("G13","Grammar","host","reg-name tried before IPv4address (accepts more, e.g. 1.2.3.4.com)",[("alternative [ipLiteral pl, ipv4address pl, regName pl] r","alternative [ipLiteral pl, regName pl, ipv4address pl] r")],["C02"])
m("G14","Grammar","userinfoElem","':' not allowed in userinfo",[("alternative [unreserved pl, pctEncoded pl, subDelims, colon pl] r2","alternative [unreserved pl, pctEncoded pl, subDelims] r2")],["C02","C13"])
m("G15","Grammar","userinfoAt","the acceptor captures nothing: userinfo not recorded",[("concatA (userinfo pl) .setUserinfo r","concat (userinfo pl) r")],["C01","C05"])
m("G16","Grammar","port","a port must not be empty",[("def port (pl : Plat) : Mt := fun r => star (digit pl) 0 uintMax r","def port (pl : Plat) : Mt := fun r => star (digit pl) 1 uintMax r")],["C02","C13"])
m("G17","Grammar","segmentNz","may be empty (so '//' could start a path-absolute)",[("def segmentNz (pl : Plat) : Mt := fun r => star (pchar pl) 1 uintMax r","def segmentNz (pl : Plat) : Mt := fun r => star (pchar pl) 0 uintMax r")],["C01"])
m("G18","Grammar","segmentNzNcElem","':' allowed in the first segment of a relative path",[("alternative [unreserved pl, pctEncoded pl, subDelims, commercialAt pl] r2","alternative [unreserved pl, pctEncoded pl, subDelims, colon pl, commercialAt pl] r2")],["C03"])
m("G19","Grammar","pathAbsolute","not recorded as absolute",[("concatA (solidus pl) (.appendDir true) r >>=","concatA (solidus pl) (.appendDir false) r >>=")],["C01","C05"])
m("G20","Grammar","pathAbempty","not recorded as absolute",[("star (slashSegment pl true) 0 uintMax","star (slashSegment pl false) 0 uintMax")],["C01"])
m("G21","Grammar","queryElem","'?' not allowed inside a query",[("alternative [pchar pl, solidus pl, questionMark pl]","alternative [pchar pl, solidus pl]")],["C02"])
m("G22","Grammar","hashFragment","stores the fragment as the query",[("concatA (fragment pl) .setFragment","concatA (fragment pl) .setQuery")],["C01","C05"])
m("G23","Grammar","URI","the query is mandatory",[("concat (hierPart pl) >>=\n    optional (questionQuery pl)","concat (hierPart pl) >>=\n    concat (questionQuery pl)")],["C02"])
m("G24","Grammar","hierPart","path-absolute tried before '//' authority",[("alternative [authAbempty pl, pathAbsolute pl, pathRootless pl, pathEmpty pl]","alternative [pathAbsolute pl, authAbempty pl, pathRootless pl, pathEmpty pl]")],["C02"])
m("G25","Grammar","relativePart","path-empty forgotten",[("alternative [authAbempty pl, pathAbsolute pl, pathNoscheme pl, pathEmpty pl]","alternative [authAbempty pl, pathAbsolute pl, pathNoscheme pl]")],["C03"])
m("G26","Grammar","URIReference","relative-ref tried first",[("alternative [URI pl, relativeRef pl]","alternative [relativeRef pl, URI pl]")],["C03"])
m("G27","Grammar","schemeElem","digits not allowed in a scheme",[("alternative [alpha pl, digit pl, plus pl,","alternative [alpha pl, plus pl,")],["C02","C13"])
m("G28","Grammar","isSubDelim","';' forgotten",[("c == 0x2B || c == 0x2C || c == 0x3B ||","c == 0x2B || c == 0x2C ||")],["C02","C13"])
m("G29","Grammar","pctEncoded","one hex digit suffices",[("concat (percentSign pl) r >>= concat (hexdig pl) >>= concat (hexdig pl) >>=","concat (percentSign pl) r >>= concat (hexdig pl) >>=")],["C01","C13"])
m("G30","Grammar","unreserved","'~' forgotten",[(" || c == 0x5F || c == 0x7E"," || c == 0x5F")],["C02"])
m("G31","Grammar","authority","the port is looked for before the host",[("optional (userinfoAt pl) r >>= concat (hostRule pl) >>= optional (colonPort pl) >>=","optional (userinfoAt pl) r >>= optional (colonPort pl) >>= concat (hostRule pl) >>=")],["C02"])
m("G32","Grammar","ipLiteral","closing bracket optional",[("concat (ipLiteralInner pl) >>=\n    concat (rightSquareBracket pl)","concat (ipLiteralInner pl) >>=\n    optional (rightSquareBracket pl)")],["C01","C12"])
m("G33","Grammar","slashSegment","the segment is not recorded",[("concatA (segment pl) .appendSegment >>= matched r2","concat (segment pl) >>= matched r2")],["C01","C05"])
# --- Uri
m("U01","Uri","runAct","append_segment appends instead of replacing the last one",[("segments := (g :: gs).dropLast ++ [s]","segments := (g :: gs) ++ [s]")],["C01","C05"])
m("U02","Uri","runAct","append_dir overwrites absolute with IsAbs",[("absolute := if isAbs then true else p.path.absolute","absolute := isAbs")],["C01","C05"])
m("U03","Uri","runAct","set_port forgets the rest of the authority",[("authority := some { p.ensureAuthority with port := some s }","authority := some ⟨none, SV.null, some s⟩")],["C01","C05"])
m("U04","Uri","Parts.valid","the fragment is not checked",[("    if !(← optOk (Grammar.fragment pl) p.fragment) then return false\n","")],["C13"])
m("U05","Uri","Parts.valid","no scheme is valid too",[("  | none => return false\n  | some s =>\n    if !(← fieldOk (Grammar.scheme","  | none => return true\n  | some s =>\n    if !(← fieldOk (Grammar.scheme")],["C13","C07"])
m("U06","Uri","Authority.valid","the port is not checked",[("  if !(← optOk (Grammar.port pl) a.port) then return false\n","")],["C13"])
m("U07","Uri","Path.valid","only the first segment is checked",[("do if ← ok g then allOk ok gs else return false","do if ← ok g then return true else return false")],["C13"])
m("U08","Uri","Parts.eq","query ignored",[("     !(optEq SV.eq a.query b.query) ||","    ")],["C14"])
m("U09","Uri","Parts.eq","absolute ignored without an authority too",[("if !(Path.eq a.path b.path) then","if !(vecEq SV.eq a.path.segments b.path.segments) then")],["C14"])
m("U10","Uri","vecEq","a proper prefix compares equal",[("  | [], [] => true\n  | a :: as, b :: bs => eq a b && vecEq eq as bs","  | [], _ => true\n  | a :: as, b :: bs => eq a b && vecEq eq as bs")],["C14"])
m("U11","Uri","rdsLoop","'..' does not remove the previous segment",[("(if outit ≠ 0 then outit - 1 else outit)","outit")],["C17","C16"])
m("U12","Uri","rdsLoop","'..' at the root removes nothing but wraps: position kept at one",[("(if outit ≠ 0 then outit - 1 else outit)","(if outit > 1 then outit - 1 else outit)")],["C17"])
m("U13","Uri","rdsLoop","last_dir not reset by an ordinary segment",[("(outit + 1) g.chars.isEmpty (if","(outit + 1) (lastDir || g.chars.isEmpty) (if")],["C17","C18"])
m("U14","Uri","rdsLoop","'.' does not set last_dir",[("then rdsLoop n (it + 1) outit true v","then rdsLoop n (it + 1) outit lastDir v")],["C17"])
m("U15","Uri","rdsLoop","the segment is copied to the wrong place",[("v.set outit g else v)","v.set it g else v)")],["C17","C18"])
m("U16","Uri","Path.removeDotSegments","the vector is not shortened",[("let segs := v.take outit","let segs := v")],["C17","C18"])
m("U17","Uri","Path.removeDotSegments","no trailing empty segment after '.' or '..'",[("    | none => { p with segments := segs ++ [SV.null] }\n    | some b => if !b.chars.isEmpty then { p with segments := segs ++ [SV.null] }\n                else","    | none => { p with segments := segs }\n    | some b => if !b.chars.isEmpty then { p with segments := segs }\n                else")],["C17"])
m("U18","Uri","Path.toStr","separator also before the first segment of a relative path",[("go (if p.absolute then b! \"/\" else []) [] p.segments","go (b! \"/\") [] p.segments")],["C48","C05"])
m("U19","Uri","Path.toStr","no separators",[("| sep, acc, g :: gs => go (b! \"/\") (acc ++ sep","| sep, acc, g :: gs => go sep (acc ++ sep")],["C48"])
m("U20","Uri","merge","all segments of the base kept",[("let last := if base.path.segments.length > 1 then base.path.segments.length - 1\n                else base.path.segments.length","let last := base.path.segments.length")],["C16"])
m("U21","Uri","merge","two segments dropped",[("then base.path.segments.length - 1\n","then base.path.segments.length - 2\n")],["C16"])
m("U22","Uri","merge","result of an empty base path not absolute",[("{ absolute := true, segments := ref.path.segments }","{ absolute := false, segments := ref.path.segments }")],["C16"])
m("U23","Uri","merge","the authority of the base is not considered",[("if base.authority.isSome && base.path.empty then","if base.path.empty then")],["C16"])
m("U24","Uri","join","query of an empty-path reference dropped when absent in the base",[("query := if reference.query.isSome then reference.query else base.query","query := if base.query.isSome then base.query else reference.query")],["C15","C20"])
m("U25","Uri","join","fragment inherited from the base",[("query := if reference.query.isSome then reference.query else base.query,\n              fragment := reference.fragment }","query := if reference.query.isSome then reference.query else base.query,\n              fragment := base.fragment }")],["C15","C20"])
m("U26","Uri","join","strict and non-strict exchanged",[("if !strict && optEq","if strict && optEq")],["C15","C20"])
m("U27","Uri","join","dot segments of a reference with a scheme kept",[("      { scheme := some s, authority := reference.authority,\n        path := reference.path.removeDotSegments,","      { scheme := some s, authority := reference.authority,\n        path := reference.path,")],["C16","C21"])
m("U28","Uri","join","arguments of merge swapped",[("(merge base reference).removeDotSegments","(merge reference base).removeDotSegments")],["C16"])
m("U29","Uri","join","authority of an authority reference taken from the base",[("{ scheme := base.scheme, authority := some a,","{ scheme := base.scheme, authority := base.authority,")],["C15"])
m("U30","Uri","joinStr","the reference is parsed as a full URI",[("match ← splitReference pl reference with","match ← split pl reference with")],["C19"])
m("U31","Uri","joinStr","arguments exchanged",[("| some r => return some (join b r strict)","| some r => return some (join r b strict)")],["C19"])
m("U32","Uri","compose","no '/' between authority and relative path",[(" ++ (if !p.path.empty && !p.path.absolute then b! \"/\" else [])","")],["C06","C14"])
m("U33","Uri","compose","fragment before query",[("  (match p.query with\n    | some q => b! \"?\" ++ q.chars\n    | none => []) ++\n  (match p.fragment with\n    | some f => b! \"#\" ++ f.chars\n    | none => [])","  (match p.fragment with\n    | some f => b! \"#\" ++ f.chars\n    | none => []) ++\n  (match p.query with\n    | some q => b! \"?\" ++ q.chars\n    | none => [])")],["C05"])
m("U34","Uri","compose","an empty query is left out",[("    | some q => b! \"?\" ++ q.chars","    | some q => if q.chars.isEmpty then [] else b! \"?\" ++ q.chars")],["C05"])
m("U35","Uri","Authority.toStr","an empty port loses its ':'",[("| some p => b! \":\" ++ (if !p.chars.isEmpty then p.chars else [])","| some p => (if !p.chars.isEmpty then b! \":\" ++ p.chars else [])")],["C05"])
m("U36","Uri","Authority.toStr","'@' missing",[("| some u => u.chars ++ b! \"@\"","| some u => u.chars")],["C05"])
m("U37","Uri","split","accepts relative references",[("runGrammar (Grammar.URI pl) inp","runGrammar (Grammar.URIReference pl) inp")],["C01"])
m("U38","Uri","Path.toFs","root omitted for absolute paths",[("(if p.absolute then fsAppend [] (b! \"/\") else [])","[]")],["C48"])
m("U39","Uri","Authority.eq","user information ignored",[("  optEq SV.eq a.userinfo b.userinfo && SV.eq a.host","  SV.eq a.host")],["C14"])
