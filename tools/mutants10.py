MUTANTS = []
def m(id, file, definition, what, edits, breaks):
    MUTANTS.append(dict(id=id, file=file, definition=definition, what=what, edits=edits, breaks=breaks))
# --- CodecCost
m("EE01","CodecCost","pctencode","each character copies what was written before",[("tick 1 (andThen (pctencode es s) fun rest => ret (.ok (c :: rest))))","tick (1 + s.length) (andThen (pctencode es s) fun rest => ret (.ok (c :: rest))))")],["C87"])
m("EE02","CodecCost","pctIterLoop","each turn measures the string",[("      tick 1 (andThen (ret (it.eq last)) fun b =>","      tick (1 + s.length) (andThen (ret (it.eq last)) fun b =>")],["C87"])
m("EE03","CodecCost","fillLoop","each code unit looks at the rest",[("      tick 1 (andThen (ret (T.step st c)) fun r =>","      tick (1 + s.length) (andThen (ret (T.step st c)) fun r =>")],["C87"])
m("EE04","CodecCost","visitSegments","each segment counts those that follow",[("  | v :: vs, count, st =>\n      tick 1 (if","  | v :: vs, count, st =>\n      tick (1 + vs.length) (if")],["C87"])
m("EE05","CodecCost","passes","one pass for each pair of code points",[("def passes (label : List Nat) : Nat := 1 + ","def passes (label : List Nat) : Nat := label.length * label.length + 1 + ")],["C87"])
m("EE06","CodecCost","punyDecodedLoop","each label is searched for to the end of the host",[("tick (6 + (first.takeWhile (fun c => isNotDot c.toNat)).length)","tick (6 + first.length)")],["C87"])
m("EE07","CodecCost","encodeWriteHost","the host is encoded twice more",[("  andThen (punyEncoded str.chars) fun out =>\n  andThen (ret (check (store.chars","  andThen (punyEncoded str.chars) fun _ => andThen (punyEncoded str.chars) fun _ => andThen (punyEncoded str.chars) fun out =>\n  andThen (ret (check (store.chars")],["C87"])
m("EE08","CodecCost","encodeWritePct","the whole store is copied for each string",[("    andThen (pctencode (encSetOf fld) str.chars) fun out =>\n","    tick store.chars.length (andThen (pctencode (encSetOf fld) str.chars) fun out =>\n"),("    ret (.ok (⟨(store.pushAll hp out).addr + store.chars.length, (store.pushAll hp out).chars.drop store.chars.length⟩, store.pushAll hp out))\n\n/-- parts.hpp:268-298. -/","    ret (.ok (⟨(store.pushAll hp out).addr + store.chars.length, (store.pushAll hp out).chars.drop store.chars.length⟩, store.pushAll hp out)))\n\n/-- parts.hpp:268-298. -/")],["C87"])
m("EE09","CodecCost","decode","the second pass runs in spite of an error",[("  | some err => ret (.ok (.error err, store.clear.reserve hp a.2.required))","  | some err => andThen (partsStrings (decodeWrite hp a.2.bits) a.1 (store.clear.reserve hp a.2.required)) fun _ => ret (.ok (.error err, store.clear.reserve hp a.2.required))")],["C87"])
m("EE10","CodecCost","needsPctencode","never stops early",[("if needsPctencodeB c es then ret (.ok true) else needsPctencode es s)","andThen (needsPctencode es s) fun b => ret (.ok (needsPctencodeB c es || b)))")],[])
m("EE11","CodecCost","pctDecodedSize","quadratic search for the percent sign",[("  tick (1 + (s.takeWhile (fun c => !(c == 0x25))).length)","  tick (1 + (s.takeWhile (fun c => !(c == 0x25))).length * s.length)")],["C87"])
m("EE12","CodecCost","viewLoop","distance to the end computed each turn",[("      tick 1 (if it.atEnd then ret (.ok (it, []))\n      else\n        andThen (ret it.deref) fun c =>\n        tick 1 (andThen (incr T cap it) fun it =>\n        andThen (viewLoop","      tick (1 + it.next.length) (if it.atEnd then ret (.ok (it, []))\n      else\n        andThen (ret it.deref) fun c =>\n        tick 1 (andThen (incr T cap it) fun it =>\n        andThen (viewLoop")],["C87"])
# --- Icubaby: C89
m("EE30","Icubaby","maxOut8","room for three bytes",[("def maxOut8 : Nat := 4","def maxOut8 : Nat := 3")],["C89"])
m("EE31","Icubaby","maxOut8","room for six bytes",[("def maxOut8 : Nat := 4","def maxOut8 : Nat := 6")],["C89"])
m("EE32","Icubaby","maxOut16","room for four code units",[("def maxOut16 : Nat := 2","def maxOut16 : Nat := 4")],["C89"])
m("EE33","Icubaby","maxOut32","room for two code units",[("def maxOut32 : Nat := 1","def maxOut32 : Nat := 2")],["C89"])
m("EE34","Icubaby","maxOut16to8","room for four bytes",[("def maxOut16to8 : Nat := 6","def maxOut16to8 : Nat := 4")],["C89"])
m("EE35","Icubaby","fill","end_cp only if nothing was produced",[("if rest.isEmpty then T.endCp st else","if rest.isEmpty && o.isEmpty then T.endCp st else")],["C89"])
m("EE36","Icubaby","fill","the size after end_cp is not checked",[("    if (o ++ e).length > cap then .error .assertion\n    else .ok { current","    if false then .error .assertion\n    else .ok { current")],["C89"])
m("EE37","Icubaby","fill","well_formed_ is overwritten",[("parentWf := it.parentWf && T.wellFormed st }","parentWf := T.wellFormed st }")],[])
m("EE38","Icubaby","fillLoop","the size is not checked in the loop",[("      if o.length > cap then .error .assertion\n      else if o.isEmpty","      if o.isEmpty")],[])
m("EE39","Icubaby","viewBegin","the first fill is left out",[("if s.isEmpty then .ok it else fill T cap it","if true then .ok it else fill T cap it")],["C89"])
m("EE40","Icubaby","stepX","the byte that shows UTF-16LE is not kept",[("        .ok ({ st with state := .run_16le_byte1, buffer := ← bufSet st.buffer 0 v }, [])","        .ok ({ st with state := .run_16le_byte0, buffer := ← bufSet st.buffer 0 v }, [])")],["C89"])
m("EE41","Icubaby","bomStep","the byte after a broken mark is lost",[("  let st := { st with buffer := ← bufSet st.buffer (byteNo st.state) v }\n  if v == (← bomByte st.state) then .ok ({ st with state := ← nextByte st.state }, [])\n  else run8Start st true","  let st := { st with buffer := ← bufSet st.buffer (byteNo st.state) v }\n  if v == (← bomByte st.state) then .ok ({ st with state := ← nextByte st.state }, [])\n  else run8Start st false")],["C89"])
m("EE42","Icubaby","fill","the input is taken one further at the end",[("{ current := it.next, next := rest","{ current := rest, next := rest")],["C89"])
