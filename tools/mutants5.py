MUTANTS = []
def m(id, file, definition, what, edits, breaks):
    MUTANTS.append(dict(id=id, file=file, definition=definition, what=what, edits=edits, breaks=breaks))
# --- PctWide
m("X01","PctWide","needsUnit","a unit above 0xFF always needs encoding",[("needsPctencodeB (UInt8.ofNat c) es","(decide (c > 255) || needsPctencodeB (UInt8.ofNat c) es)")],["C71"])
m("X02","PctWide","needsUnit","saturating, not truncating, conversion",[("needsPctencodeB (UInt8.ofNat c) es","needsPctencodeB (if c > 255 then 255 else UInt8.ofNat c) es")],["C71"])
m("X03","PctWide","pctencode","digits exchanged",[(".ok (0x25 :: hi.toNat :: lo.toNat :: rest)",".ok (0x25 :: lo.toNat :: hi.toNat :: rest)")],["C71"])
m("X04","PctWide","pctencode","no mask on the high digit",[("dec2hex ((c >>> 4) &&& 0xF)","dec2hex (c >>> 4)")],["C71"])
m("X05","PctWide","pctencode","a copied unit loses its high bits",[("        let rest ← pctencode es s\n        .ok (c :: rest)","        let rest ← pctencode es s\n        .ok (c % 256 :: rest)")],["C71"])
m("X06","PctWide","hex2dec","the digit is reduced to eight bits first",[("def hex2dec (digit : Nat) : UInt8 :=\n","def hex2dec (digit' : Nat) : UInt8 :=\n  let digit := digit' % 256\n")],["C71"])
m("X07","PctWide","hex2dec","'G' is a digit",[("decide (digit ≤ 0x46)","decide (digit ≤ 0x47)")],["C71"])
m("X08","PctWide","pctIncrement","more than three units must remain",[("else if remaining < 3 then .ok (pos + 1)","else if remaining ≤ 3 then .ok (pos + 1)")],["C71"])
m("X09","PctWide","pctDeref","reads beyond the end after a '%'",[("if c ≠ 0x25 || dist < 3 then .ok c","if c ≠ 0x25 || dist < 2 then .ok c")],["C71"])
m("X10","PctWide","pctDeref","either digit suffices",[("    if eitherBad nhi nlo then .ok c\n    else .ok","    if eitherBad nhi nhi then .ok c\n    else .ok")],["C71"])
m("X11","PctWide","needsPctencode","tests all, not any",[("s.any (fun c => needsUnit c es)","s.all (fun c => needsUnit c es)")],["C71"])
m("X12","PctWide","needsPctdecode","looks at the low eight bits",[("s.any (· == 0x25)","s.any (fun c => c % 256 == 0x25 && c > 255)")],["C71"])
m("X13","PctWide","pctViewLoop","the view yields the undecoded unit",[("        let c ← pctDeref s pos s.length\n","        let c ← readAt s pos\n")],["C71"])
m("X14","PctWide","pctIterLoop","advances before reading",[("        let c ← pctDeref s it.pos it.stop\n        let pos ← pctIncrement s it.pos it.stop\n","        let pos ← pctIncrement s it.pos it.stop\n        let c ← pctDeref s pos it.stop\n")],["C71"])
# --- ParseThrow
m("Y01","ParseThrow","copies","copying an empty vector asks for memory",[("if k = 0 then 0 else 1 + k","1 + k")],["C72"])
m("Y02","ParseThrow","concatImpl","failure to append an accept function is ignored: it is left out",[("| some a => requests 2 (joinMatched r (head, acc ++ [(a, head)]))","| some a => fun o n => if o n then joinMatched r (head, acc ++ [(a, head)]) o (n + 1) else joinMatched r (head, acc) o (n + 1)")],["C72"])
m("Y03","ParseThrow","andThen","an exception is caught and taken for a fault-free end",[("  | (none, n') => (none, n')\n  | (some (.error e), n')","  | (none, n') => (some (.error .diverge), n')\n  | (some (.error e), n')")],["C72"])
m("Y04","ParseThrow","alternative","an exception in one alternative makes the parser try the next",[("          andThen (m (ofSV t)) fun\n            | some x => joinMatched r x\n            | none => alternative rest r","          fun o n => match m (ofSV t) o n with\n            | (none, n') => alternative rest r o n'\n            | (some (.error e), n') => (some (.error e), n')\n            | (some (.ok (some x)), n') => joinMatched r x o n'\n            | (some (.ok none), n') => alternative rest r o n'")],["C72"])
m("Y05","ParseThrow","optionalA","an exception in the optional part is taken for no match",[("      andThen (concatImpl m accept true (ofSV t)) fun res =>\n        match res.tail with\n        | none => copy r\n        | some _ => joinRule r res","      fun o n => match concatImpl m accept true (ofSV t) o n with\n        | (none, n') => copy r o n'\n        | (some (.error e), n') => (some (.error e), n')\n        | (some (.ok res), n') => match res.tail with\n          | none => copy r o n'\n          | some _ => joinRule r res o n'")],["C72"])
m("Y06","ParseThrow","star","star keeps a buffer of its own even without accept functions",[("      requests (copies r.acc.length) (andThen (starLoop","      requests 1 (andThen (starLoop")],["C72"])
m("Y07","ParseThrow","matched","the container is reserved one larger",[("requests (copies r.acc.length) (ret (.ok x))","requests (copies (r.acc.length + 1)) (ret (.ok x))")],["C72"])
m("Y08","ParseThrow","runAll","refused append is skipped",[("requests (appends a.1) (andThen (ret (runAct p a.1 a.2)) fun p' => runAll p' as)","fun o n => if appends a.1 = 1 && !o n then runAll p as o (n + 1) else requests (appends a.1) (andThen (ret (runAct p a.1 a.2)) fun p' => runAll p' as) o n")],["C72"])
m("Y09","ParseThrow","valid","host checked with the rule that has an accept function",[("(ifOk (fieldOk (Cost.Uri.host pl) a.host)","(ifOk (fieldOk (Cost.Uri.hostRule pl) a.host)")],["C72"])
m("Y10","ParseThrow","valid","authority not checked",[("      | some a => authorityValid pl a)","      | some _ => ret (.ok true))")],["C72"])
m("Y11","ParseThrow","starLoop","a refused insert ends the repetition",[("                requests (copies a.length) (starLoop m max fuel ((count + 1) % uintMod) str' (length + head.size) (acc ++ a))","                fun o n => if copies a.length > 0 && !o n then (some (.ok (count, length, acc)), n + 1) else requests (copies a.length) (starLoop m max fuel ((count + 1) % uintMod) str' (length + head.size) (acc ++ a)) o n")],["C72"])
m("Y12","ParseThrow","starLoop","insert copies all that was collected each time (quadratic)",[("requests (copies a.length) (starLoop","requests (copies (acc.length + a.length)) (starLoop")],["C72"])
m("Y13","ParseThrow","splitReference","split_reference uses the grammar of split",[("runGrammar (Cost.Uri.URIReference pl) inp","runGrammar (Cost.Uri.URI pl) inp")],["C72"])
m("Y14","ParseThrow","requests","one refusal is overlooked",[("if o n then requests k x o (n + 1) else (none, n + 1)","if o n || n == 7 then requests k x o (n + 1) else (none, n + 1)")],["C72"])
# --- Stream
m("Z01","Stream","insert","the width is not reset",[("width := 0, good","good")],["C73"])
m("Z02","Stream","insert","goes on writing after a failure",[("if !os.good then if os.failThrows then .error (.failure, os) else .ok os\n  else","if false then .ok os\n  else")],["C73"])
m("Z03","Stream","insert","a partial write leaves the stream good",[("good := k == text.length }","good := true }")],["C73"])
m("Z04","Stream","insert","badbit throws before anything is written",[("then .error (.failure, os') else .ok os'","then .error (.failure, os) else .ok os'")],["C73"])
m("Z05","Stream","padded","padding on the wrong side",[("if os.left then s ++ fill else fill ++ s","if os.left then fill ++ s else s ++ fill")],["C73"])
m("Z06","Stream","putAuthority","'@' without userinfo",[("  put a.userinfo (fun u os => insert u.chars os >>= insert (b! \"@\")) os >>=\n","  insert (b! \"@\") os >>=\n")],["C73"])
m("Z07","Stream","putAuthority","':' dropped for an empty port",[("insert (b! \":\") os >>= putIf (!p.chars.isEmpty) p.chars","putIf (!p.chars.isEmpty) (b! \":\") os >>= putIf (!p.chars.isEmpty) p.chars")],["C73"])
m("Z08","Stream","compose","fragment before query",[("  put p.query (fun q os => insert (b! \"?\") os >>= insert q.chars) >>=\n  put p.fragment fun f os => insert (b! \"#\") os >>= insert f.chars","  put p.fragment (fun f os => insert (b! \"#\") os >>= insert f.chars) >>=\n  put p.query fun q os => insert (b! \"?\") os >>= insert q.chars")],["C73"])
m("Z09","Stream","putNet","'/' also before an absolute path",[("putIf (!p.path.empty && !p.path.absolute) (b! \"/\")","putIf (!p.path.empty) (b! \"/\")")],["C73"])
m("Z10","Stream","putPath","the conversion's exception is swallowed",[("else .error (.badAlloc, os)","else .ok os")],["C73"])
m("Z11","Stream","composeString","the string stream throws (which would be right): no truncation",[("    | .ok os => if mem.result then some os.out else none","    | .ok os => if mem.result && os.good then some os.out else none")],["C73"])
m("Z12","Stream","taken","the device drops the first character when full",[("  | some k => min k s.length","  | some k => min (k - 1) s.length")],["C73"])
m("Z13","Stream","compose","scheme without ':'",[("insert s.chars os >>= insert (b! \":\")) os >>=\n  putNet","insert s.chars os) os >>=\n  putNet")],["C73"])
m("Z14","Stream","putIf","empty texts are inserted too (only the width could tell)",[("def putIf (c : Bool) (s : Str) (os : OStream) : SM := if c then insert s os else .ok os","def putIf (c : Bool) (s : Str) (os : OStream) : SM := if c || s.isEmpty then insert s os else .ok os")],[])
