MUTANTS = []
def m(id, file, definition, what, edits, breaks):
    MUTANTS.append(dict(id=id, file=file, definition=definition, what=what, edits=edits, breaks=breaks))
# --- Tool
m("T01","Tool","getline","a last line without newline is dropped",[("  | _ => some (s.takeWhile (· != 0x0A), (s.dropWhile (· != 0x0A)).drop 1)","  | _ => if s.dropWhile (· != 0x0A) = [] then none else some (s.takeWhile (· != 0x0A), (s.dropWhile (· != 0x0A)).drop 1)")],["C59"])
m("T02","Tool","getline","the newline stays in the rest",[("(s.dropWhile (· != 0x0A)).drop 1)","s.dropWhile (· != 0x0A))")],["C59"])
m("T03","Tool","report","userinfo and port exchanged",[("userinfo: \" ++ valueOrNone a.userinfo","userinfo: \" ++ valueOrNone a.port"),("port: \" ++ valueOrNone a.port","port: \" ++ valueOrNone a.userinfo")],["C59"])
m("T04","Tool","report","the fragment printed as the query",[("query: \" ++ valueOrNone r.query","query: \" ++ valueOrNone r.fragment")],["C59"])
m("T05","Tool","valueOrNone","an empty value printed as None",[("  | some s => b! \"\\\"\" ++ s.chars ++ b! \"\\\"\"\n","  | some s => if s.chars.isEmpty then b! \"None\" else b! \"\\\"\" ++ s.chars ++ b! \"\\\"\"\n")],["C59"])
m("T06","Tool","readLoop","goes on after a line that is not a URI",[("          | none => return (false, out)\n","          | none => readLoop pl addr fuel rest out\n")],["C59"])
m("T07","Tool","readLoop","the URI line is printed only for accepted lines",[("          | none => return (false, out)\n          | some r","          | none => return (false, [])\n          | some r")],["C59"])
m("T08","Tool","argLoop","goes on after a failed file",[("      | (false, out) => return ⟨false, out, []⟩\n","      | (false, out) => argLoop pl addr rest out\n")],["C59"])
m("T09","Tool","argLoop","a file that cannot be opened is skipped",[("  | (name, none) :: _, out => .ok ⟨false, out, b! \"Error: couldn't open \" ++ quoted name ++ b! \"\\n\"⟩","  | (_, none) :: rest, out => argLoop pl addr rest out")],["C59"])
m("T10","Tool","main","the standard input is read although there are arguments",[("  if args.isEmpty then","  if !args.isEmpty then")],["C59"])
m("T11","Tool","argLoop","output of the earlier files lost",[("      | (true, out) => argLoop pl addr rest out","      | (true, _) => argLoop pl addr rest []")],["C59"])
m("T12","Tool","message","messages exchanged",[("if error = 1 then b! \"bad input\"","if error = 2 then b! \"bad input\""),("else if error = 2 then b! \"overflow\"","else if error = 1 then b! \"overflow\"")],["C60"])
m("T13","Tool","Err.code","enumerators start at zero (success)",[("  | .badInput => 1","  | .badInput => 0"),("  | .overflow => 2","  | .overflow => 1")],["C60"])
m("T14","Tool","makeErrorCode","generic category",[("⟨e.code, .punycode⟩","⟨e.code, .generic⟩")],["C60"])
m("T15","Tool","report","the path shown without separators",[("quoted r.path.toStr","quoted (r.path.segments.flatMap SV.chars)")],["C59"])
m("T16","Tool","report","scheme missing is not shown",[("b! \" scheme: \" ++ valueOrNone r.scheme ++","b! \" scheme: \" ++ valueOrNone none ++")],["C59"])
# --- Cost
m("Z01","Cost","starLoop","the accept functions gathered so far are copied at each turn (quadratic)",[("tick a.length (andThen (ret","tick (acc.length + a.length) (andThen (ret")],["C62"])
m("Z02","Cost","starLoop","each turn looks at the whole rest of the text",[("      andThen (tick 1 (m (ofSV str))) fun\n        | none => ret (.ok (count, length, acc))","      andThen (tick (1 + str.chars.length) (m (ofSV str))) fun\n        | none => ret (.ok (count, length, acc))")],["C62"])
m("Z03","Cost","alternative","each alternative is tried twice",[("          andThen (tick 1 (m (ofSV t))) fun\n            | some x => joinMatched r x","          andThen (tick 1 (andThen (m (ofSV t)) fun _ => m (ofSV t))) fun\n            | some x => joinMatched r x")],[])
m("Z04","Cost","Uri.pathAbempty","a different grammar (segments not repeated)",[("def pathAbempty (pl : Plat) : Gr Act := .rule (Chain.nil.star (slashSegment pl true) 0 uintMax)","def pathAbempty (pl : Plat) : Gr Act := .rule (Chain.nil.star (slashSegment pl true) 0 1)")],["C62"])
m("Z05","Cost","valid","the fragment not checked",[("    (ifOk (optOk (Uri.fragment pl) p.fragment) (ret (.ok true)))))))","    (ret (.ok true))))))")],["C62"])
m("Z06","Cost","starLoop","the loop does not count its result differently: count not incremented",[("starLoop m max fuel ((count + 1) % uintMod) str'","starLoop m max fuel count str'")],["C62"])
m("Z07","Cost","concatImpl","a step of square cost: acceptors copied once per acceptor",[("def joinMatched (r : Rule α) (m : SV × Acceptors α) : CM (Rule α) :=\n  tick (1 + r.acc.length + m.2.length)","def joinMatched (r : Rule α) (m : SV × Acceptors α) : CM (Rule α) :=\n  tick (1 + r.acc.length * m.2.length + m.2.length * m.2.length)")],["C62"])
# --- Shared
m("S01","Shared","Shared.step","begin() sets well_formed again",[("tr := T.init, parentWf := w.wf }","tr := T.init, parentWf := true }")],["C63"])
m("S02","Shared","Shared.step","++ overwrites the flag by what it saw itself",[("let it ← { it with parentWf := w.wf }.incr T cap","let it ← { it with parentWf := true }.incr T cap")],["C63"])
m("S03","Shared","Shared.step","a copy starts at the beginning",[("      let it ← w.get i\n      .ok { w with its := w.its ++ [it] }","      let _ ← w.get i\n      let it ← viewBegin T cap s\n      .ok { w with its := w.its ++ [it] }")],["C63"])
m("S04","Shared","Shared.step","assignment the wrong way round",[(".ok { w with its := w.its.set i it }\n  | .incr",".ok { w with its := w.its.set j (← w.get i) }\n  | .incr")],["C63"])
m("S05","Shared","Shared.step","++ of one iterator moves all (shared position)",[(".ok { wf := it.parentWf, its := w.its.set i it }\n\n",".ok { wf := it.parentWf, its := w.its.map (fun _ => it) }\n\n")],["C63"])
m("S06","Shared","Shared.step","++ does not tell the view",[(".ok { wf := it.parentWf, its := w.its.set i it }\n\n",".ok { wf := w.wf, its := w.its.set i it }\n\n")],["C63"])
# --- Refs
m("H01","Refs","stored","nibbles exchanged",[("(nhi <<< 4) ||| nlo","(nlo <<< 4) ||| nhi")],["C64"])
m("H02","Refs","stored","boundary dist < 4",[("dist < 3","dist < 4")],["C64"])
m("H03","Refs","World.step","a triplet refers to the text (value not decoded)",[("refs := w.refs ++ [.hex i] }\n  | .write","refs := w.refs ++ [.text o.pos] }\n  | .write")],["C64"])
m("H04","Refs","World.step","++ resets hex_",[("{ o with pos := pos }","{ o with pos := pos, hex := 0 }")],["C64"])
m("H05","Refs","World.step","++ does not skip a triplet whole",[("let pos ← pctIncrement w.text o.pos w.text.length","let pos ← (.ok (o.pos + 1) : M Nat)")],["C64"])
m("H06","Refs","World.step","iter_swap copies instead of exchanging",[("(w.text.set a.pos y).set b.pos x","(w.text.set a.pos y).set b.pos y")],["C64"])
m("H07","Refs","World.step","dereferencing moves the iterator",[("(some { o with hex := v }), refs","(some { pos := o.pos + 2, hex := v }), refs")],["C64"])
m("H08","Refs","World.step","a reference to a triplet is to a fresh object (no stashing)",[("| some v => .ok { w with its := w.its.set i (some { o with hex := v }), refs := w.refs ++ [.hex i] }","| some v => .ok { w with its := w.its ++ [some { o with hex := v }], refs := w.refs ++ [.hex w.its.length] }")],["C64"])
m("H09","Refs","World.store","writing at a triplet changes the text",[("      .ok { w with its := w.its.set i (some { o with hex := v }) }\n","      .ok { w with text := w.text.set o.pos v, its := w.its.set i (some { o with hex := v }) }\n")],["C64"])
m("H10","Refs","World.step","destroying does nothing",[(".ok { w with its := w.its.set i none }",".ok w")],["C64"])
# --- exact theorems and later properties
m("X01","Uri","Parts.ensureAuthority","a new authority keeps nothing: host overwritten when the port is set",[("  | some a => a\n  | none => ⟨none, SV.null, none⟩","  | some a => ⟨a.userinfo, SV.null, a.port⟩\n  | none => ⟨none, SV.null, none⟩")],["C01","C05"])
m("X02","Uri","join","query dropped for references with an absolute path",[("          else if reference.path.absolute then\n            { scheme := base.scheme, authority := base.authority,\n              path := reference.path.removeDotSegments,\n              query := reference.query,","          else if reference.path.absolute then\n            { scheme := base.scheme, authority := base.authority,\n              path := reference.path.removeDotSegments,\n              query := none,")],["C15"])
m("X03","Uri","join","dot segments of the base removed for an empty reference",[("authority := base.authority, path := base.path,","authority := base.authority, path := base.path.removeDotSegments,")],["C20"])
m("X04","Uri","join","merged path: dot segments kept",[("path := (merge base reference).removeDotSegments","path := merge base reference")],["C16","C21"])
m("X05","Uri","Path.removeDotSegments","empty segment added even after an empty one",[("    | some b => if !b.chars.isEmpty then { p with segments := segs ++ [SV.null] }\n                else { p with segments := segs }","    | some _ => { p with segments := segs ++ [SV.null] }")],["C17"])
m("X06","Uri","Path.removeDotSegments","absolute lost",[("                else { p with segments := segs }\n  else { p with segments := segs }","                else { p with segments := segs }\n  else { absolute := false, segments := segs }")],["C17","C16"])
m("X07","Uri","rdsLoop","'.' compared by prefix: '.a' removed",[("if g.chars = b! \".\" then","if g.chars.take 1 = b! \".\" ∧ g.chars ≠ b! \"..\" then")],["C17","C18"])
m("X08","Uri","joinStr","non-strict ignored",[("| some r => return some (join b r strict)","| some r => return some (join b r true)")],["C19"])
m("X09","Uri","Path.eq","only lengths of the paths compared",[("vecEq SV.eq a.segments b.segments\n","a.segments.length == b.segments.length\n")],["C14","C55"])
m("X10","Uri","SV.eq","addresses compared too",[("a.chars == b.chars","(a.chars == b.chars) && (a.ptr == b.ptr)")],["C14"])
m("X11","Uri","fsAppend","no separator inserted",[("then p ++ b! \"/\" ++ s","then p ++ s")],["C48"])
m("X12","Uri","runAct","recordInitial replaces the segments",[("{ p.path with segments := p.path.segments ++ [s] }","{ p.path with segments := [s] }")],[])
m("X13","Rule","Rule.starLoop","count does not wrap",[("let count := (count + 1) % uintMod","let count := count + 1")],["C11"])
m("X14","Rule","Rule.optionalA","failure of the rule itself restarts from nothing",[("  | none => .ok r\n  | some t => do\n      let res ←","  | none => .ok failed\n  | some t => do\n      let res ←")],[])
m("X15","Icubaby","endCp8to32","state accept after a truncated sequence (reusable)",[("{ st with wf := false, state := reject }","{ st with wf := false, state := accept }")],["C51"])
m("X16","Icubaby","step8to32","the well_formed flag set again by a good character",[("if state = accept then .ok ({ st with codePoint := cp, state := state }, [cp])","if state = accept then .ok ({ wf := true, codePoint := cp, state := state }, [cp])")],["C57","C41"])
m("X17","Icubaby","step16to32","low surrogate after high clears the flag",[(".ok ({ st with high := 0, hasHigh := false }, [(st.high",".ok ({ high := 0, hasHigh := false, wf := true }, [(st.high")],["C57","C44"])
m("X18","Icubaby","step32to32","flag assigned, not cleared",[("else .ok (wf, [c])","else .ok (true, [c])")],["C57"])
m("X19","Icubaby","ViewIt.eq","compares the buffers too (as it should)",[(": Bool := a.current.length == b.current.length",": Bool := a.current.length == b.current.length && a.buf.length == b.buf.length")],["C50"])
m("X20","Icubaby","boms","little-endian marks exchanged",[("[[0xFE, 0xFF, 0, 0], [0xFF, 0xFE, 0, 0], [0, 0, 0xFE, 0xFF]","[[0xFF, 0xFE, 0, 0], [0xFE, 0xFF, 0, 0], [0, 0, 0xFE, 0xFF]")],["C46"])
m("X21","Icubaby","char32FromLittle","the high byte kept (as it should be)",[("(v.toNat <<< 24) % 256 |||","(v.toNat <<< 24) |||")],["C46"])
m("X22","Icubaby","endCpX","the inner end_cp is called after the bytes of an unfinished mark",[("  | .mono => run8Start st (st.state != .start)","  | .mono => do\n      let (st, o) ← run8Start st (st.state != .start)\n      match st.var with\n      | .v8 t => do\n          let (t, o') ← T8.endCp t\n          .ok ({ st with var := .v8 t }, o ++ o')\n      | _ => .ok (st, o)")],["C46"])
m("X23","Icubaby","stepX","FF FE 00 xx taken for UTF-16 (as it should)",[("      .ok ({ st with state := ← startRunMode st.state, var := .v32 T32.init }, [])\n    else run8Start st true","      .ok ({ st with state := ← startRunMode st.state, var := .v32 T32.init }, [])\n    else do\n      let st ← run16Start st\n      .ok (st, [])")],["C46"])
m("X24","Icubaby","partialX","no mark pending counts as partial",[("  | .mono => st.state != .start\n  | .v8 t => T8.isPartial t","  | .mono => true\n  | .v8 t => T8.isPartial t")],[])
m("X25","Icubaby","run32","state not set back to byte 0",[(".ok ({ st with state := ← setByte st.state 0, var := .v32 t }, o)",".ok ({ st with state := ← setByte st.state 1, var := .v32 t }, o)")],["C46"])
m("X26","Icubaby","step8to32","the byte that revealed the error starts a new character (as the standard recommends)",[("  else if state = reject then .ok ({ codePoint := cp, wf := false, state := accept }, [replacementChar])","  else if state = reject then (if st.state ≠ accept ∧ ucu < 0x80 then .ok ({ codePoint := cp, wf := false, state := accept }, [replacementChar, ucu]) else .ok ({ codePoint := cp, wf := false, state := accept }, [replacementChar]))")],["C52"])
m("X27","Pct","pctIterMove","yields the decoded byte (as it should)",[("def pctIterMove (s : Str) (pos : Nat) : M UInt8 := readAt s pos","def pctIterMove (s : Str) (pos : Nat) : M UInt8 := pctDeref s pos s.length")],["C27"])
m("X28","Pct","pctViewLoop","the view decodes to the byte before the end only",[("      if pos == last then .ok []\n","      if pos + 1 == last then .ok []\n")],["C27"])
m("X29","Punycode","decodeDigit","digits 0-9 are 25-34",[("cp.toNat - (0x30 - 26)","cp.toNat - (0x30 - 25)")],["C29","C33"])
m("X31","PartsCodec","encode","scheme percent-encoded",[("  | _ => EncSet.none","  | _ => EncSet.userinfo")],["C35"])
