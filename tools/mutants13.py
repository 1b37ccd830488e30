MUTANTS = []
def m(id, file, definition, what, edits, breaks):
    MUTANTS.append(dict(id=id, file=file, definition=definition, what=what, edits=edits, breaks=breaks))
# --- Rule (C100)
m("HH01","Rule","concatImpl","the match function's acceptors are dropped when there is an acceptor",[("            | some a => acc ++ [(a, head)]","            | some a => [(a, head)]")],["C100"])
m("HH02","Rule","concatImpl","the acceptor goes in front of those of the match",[("            | some a => acc ++ [(a, head)]","            | some a => (a, head) :: acc")],[])
m("HH03","Rule","optionalA","the acceptors so far are lost when nothing matches",[("      | none => if isOptional then .ok r else .ok failed","      | none => if isOptional then .ok (ofSV t) else .ok failed")],[])
m("HH04","Rule","alternative","a failed alternative is skipped, an empty match too",[("          | some x => r.joinMatched x\n          | none => alternative rest r","          | some x => if x.1.size = 0 then alternative rest r else r.joinMatched x\n          | none => alternative rest r")],["C100"])
m("HH05","Rule","alternative","an empty list of alternatives matches nothing successfully",[("  | [], _ => .ok failed","  | [], r => .ok r")],["C100"])
m("HH06","Rule","starLoop","the acceptors of the last round are lost",[("starLoop m max fuel count str (length + l) (acc ++ a)","starLoop m max fuel count str (length + l) a")],["C100"])
m("HH07","Rule","starLoop","max is exclusive",[("          if count > max then .ok (count, length, acc)","          if count ≥ max then .ok (count, length, acc)")],["C100"])
m("HH08","Rule","star","min is exclusive",[("      if count < min then .ok failed","      if count ≤ min then .ok failed")],["C100"])
m("HH09","Rule","joinMatched","acceptors in the wrong order",[("      return ⟨some t', r.acc ++ m.2⟩","      return ⟨some t', m.2 ++ r.acc⟩")],["C100"])
m("HH10","Rule","joinRule","the acceptors so far are dropped",[("def joinRule (r other : Rule α) : Rule α := ⟨other.tail, r.acc ++ other.acc⟩","def joinRule (r other : Rule α) : Rule α := ⟨other.tail, other.acc⟩")],["C100"])
m("HH11","Rule","matched","the acceptors are dropped",[("          return some (s, r.acc)","          return some (s, [])")],["C100"])
# --- Pct (C99, C101)
m("HH20","Pct","pctIncrement","a triplet at the very end is not one",[("  else if remaining < 3 then .ok (pos + 1)","  else if remaining ≤ 3 then .ok (pos + 1)")],["C99","C101"])
m("HH21","Pct","pctDeref","two characters at the end are enough",[("  if c ≠ 0x25 || dist < 3 then .ok c","  if c ≠ 0x25 || dist < 4 then .ok c")],["C99","C101"])
m("HH22","Pct","hex2dec","small hex digits are not taken",[("  if digit ≥ 0x61 && digit ≤ 0x66 then digit - (0x61 - 10)","  if digit > 0x66 && digit ≤ 0x66 then digit - (0x61 - 10)")],["C99","C101"])
m("HH23","Pct","hex2dec","an encoded % is a hex digit",[("  else hexBad\n","  else if digit = 0x25 then 0 else hexBad\n")],["C99","C101"])
m("HH24","Pct","needsPctencodeB","the percent sign is left alone, as an encoder that respects triplets would",[("  if c ≤ 0x20 || c > 0x7E then true\n","  if c = 0x25 then false else if c ≤ 0x20 || c > 0x7E then true\n")],["C101"])
m("HH25","Pct","pctencodeM","a triplet in the text is kept",[("      if needsPctencodeB c es then do\n        let hi","      if needsPctencodeB c es && !(c == 0x25 && s.length ≥ 2) then do\n        let hi")],["C101"])
m("HH26","Pct","encodeTable","% is not in the fragment set",[("0b01100000, 0b11111111, 0b01100000","0b01100000, 0b11111110, 0b01100000")],["C101"])
m("HH27","Pct","dec2hex","lower case digits",[("(if v < 10 then 0x30 else 0x41 - 10)","(if v < 10 then 0x30 else 0x61 - 10)")],[])
# --- hosts (C99, C101)
m("HH30","PartsCodec","punyEncodedLoop","the flag is that of the last label",[("        .ok (out ++ 0x2E :: rest, nonAscii || anyNeeded)","        .ok (out ++ 0x2E :: rest, anyNeeded)")],["C99"])
m("HH31","PartsCodec","punyDecodedLoop","the flag is that of the last label",[("            .ok (out ++ 0x2E :: rest, r.map (enc || ·))","            .ok (out ++ 0x2E :: rest, r)")],["C99"])
m("HH32","PartsCodec","punyEncodedLoop","the prefix only for the first label",[("        .ok (out ++ 0x2E :: rest, nonAscii || anyNeeded)","        .ok (out ++ 0x2E :: (if nonAscii then rest.drop 4 else rest), nonAscii || anyNeeded)")],["C99","C101"])
m("HH33","PartsCodec","punyDecodedLoop","labels are written although one before them was wrong",[("        | .error err => .ok ([], .error err)","        | .error err => do\n            let (rest, _) ← punyDecodedLoop fuel (sentinel.drop 1)\n            .ok (rest, .error err)")],["C99"])
m("HH34","PartsCodec","punyEncodedLoop","an ASCII label that begins with the prefix is encoded again",[("      let out := (if nonAscii then idnaPrefix else []) ++ segment\n","      let nonAscii := nonAscii || (label.take 4 == [0x78, 0x6E, 0x2D, 0x2D])\n      let out := (if nonAscii then idnaPrefix else []) ++ segment\n")],["C101"])
m("HH35","PartsCodec","encSetOf","the query is encoded for a form",[("  | .query => EncSet.query","  | .query => EncSet.formUrlencoded")],[])
# --- Uri (C102)
m("HH40","Uri","join","the query of the base is kept if it has a fragment",[("              query := if reference.query.isSome then reference.query else base.query,","              query := if reference.query.isSome && !base.fragment.isSome then reference.query else base.query,")],["C102"])
m("HH41","Uri","merge","the only segment of the base is dropped too",[("    let last := if base.path.segments.length > 1 then","    let last := if base.path.segments.length > 0 then")],["C102"])
m("HH42","Uri","merge","the reference's path is relative to an authority without path",[("    { absolute := true, segments := ref.path.segments }","    { absolute := false, segments := ref.path.segments }")],["C102"])
