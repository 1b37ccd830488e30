MUTANTS = []
def m(id, file, definition, what, edits, breaks):
    MUTANTS.append(dict(id=id, file=file, definition=definition, what=what, edits=edits, breaks=breaks))
# --- strict (C107)
m("JJ01","Uri","join","the test of strict is the wrong way round",[("if !strict && optEq SV.eq reference.scheme base.scheme","if strict && optEq SV.eq reference.scheme base.scheme")],["C107"])
m("JJ02","Uri","join","without strict the scheme of the reference is never looked at",[("if !strict && optEq SV.eq reference.scheme base.scheme then none","if !strict then none")],["C107"])
m("JJ03","Uri","join","strict is not looked at",[("if !strict && optEq SV.eq reference.scheme base.scheme","if optEq SV.eq reference.scheme base.scheme")],["C107"])
m("JJ04","Uri","join","a reference with an own scheme keeps its dot segments",[("      { scheme := some s, authority := reference.authority,\n        path := reference.path.removeDotSegments,","      { scheme := some s, authority := reference.authority,\n        path := reference.path,")],["C107"])
# --- case (C108)
m("JJ20","Rule","hexdig","hexadecimal digits in upper case only",[("singleCharP (isxdigit pl) r","singleCharP (fun c => do return (← isxdigit pl c) && decide (c.toNat < 0x60)) r")],["C108"])
m("JJ21","Rule","alpha","letters in lower case only",[("(r : Rule α) : M (Matched α) := singleCharP (isalpha pl) r","(r : Rule α) : M (Matched α) := singleCharP (fun c => do return (← isalpha pl c) && decide (0x60 < c.toNat)) r")],["C108"])
m("JJ22","Pct","hex2dec","no digits in lower case",[("  if digit ≥ 0x61 && digit ≤ 0x66 then digit - (0x61 - 10)\n  else if digit","  if digit")],["C108"])
# --- depth (C109)
m("JJ40","Depth","starLoop","star calls itself for each repetition",[("                starLoop m max fuel ((count + 1) % uintMod) str' (length + head.size) (acc ++ a)","                call (starLoop m max fuel ((count + 1) % uintMod) str' (length + head.size) (acc ++ a))")],["C109"])
m("JJ41","Depth","allOk","the segments of a path are checked by recursion",[("if b then allOk ok gs else","if b then call (allOk ok gs) else")],["C109"])
m("JJ42","Depth","concatImpl","what has matched stays open while the match is joined",[("              | none => joinMatched r (head, acc)","              | none => call (call (m (ofSV t))) |> fun x => andThen x fun _ => joinMatched r (head, acc)")],["C109"])
m("JJ43","Depth","star","the acceptors of the rule are dropped (the computation changes)",[("0 t 0 r.acc) fun x","0 t 0 []) fun x")],["C109"])
m("JJ44","Depth","alternative","an alternative that fails is tried once more by a further call",[("            | none => alternative rest r)","            | none => call (call (call (alternative rest r))))")],["C109"])
m("JJ45","Depth","singleChar","one frame more for each character matcher",[("call (call (call (call (here (r.singleCharP pred)))))","call (call (call (call (call (here (r.singleCharP pred))))))")],["C109"])
# --- length and index (C110)
m("JJ60","Icubaby","indexLoop","the code point is counted before it is compared",[("if start c then (if count = pos then off else indexLoop","if start c then (if count + 1 = pos then off else indexLoop")],["C110"])
m("JJ61","Icubaby","indexLoop","every element is counted",[("      else indexLoop start pos s count (off + 1)","      else indexLoop start pos s (count + 1) (off + 1)")],["C110"])
m("JJ62","Icubaby","isCodePointStart8","every byte from 0x80 on continues",[("(c &&& 0xC0) != 0x80","(c &&& 0x80) != 0x80")],["C110"])
m("JJ63","Icubaby","isCodePointStart16","high surrogates continue",[("(c : UInt16) : Bool := !isLowSurrogate c.toNat","(c : UInt16) : Bool := !isHighSurrogate c.toNat")],["C110"])
m("JJ64","Icubaby","length","elements that do not begin a code point are counted",[("(if start c then 1 else 0) + length start s","(if start c then 0 else 1) + length start s")],["C110"])
m("JJ65","Index","indexLoopP","the projection is called for the element behind the one found",[("(if count = pos then (off, [x])","(if count = pos then (off, x :: s.take 1)")],["C110"])
m("JJ66","Index","lengthP","the projection is called twice when it matters",[("x :: (lengthP start proj s).2)","x :: x :: (lengthP start proj s).2)")],["C110"])
# --- room (C111)
m("JJ80","Space","starLoop","star keeps a copy of what it has collected for each repetition",[("(Nat.max (acc.length + a.length + a.length)\n                    (starLoop","(Nat.max (acc.length + a.length + a.length)\n                    (acc.length + (starLoop"),("(length + head.size) (acc ++ a)).2))","(length + head.size) (acc ++ a)).2)))"),],["C111"])
m("JJ81","Space","starLoop","the accept functions of the last repetition replace the ones before",[("                ((starLoop m max fuel ((count + 1) % uintMod) str' (length + head.size) (acc ++ a)).1,","                ((starLoop m max fuel ((count + 1) % uintMod) str' (length + head.size) a).1,")],["C111"])
m("JJ82","Space","joinMatched","joining makes room for the square of what is needed",[("(r.joinMatched m, r.acc.length + m.2.length)","(r.joinMatched m, (r.acc.length + m.2.length) * (r.acc.length + m.2.length))")],["C111"])
m("JJ83","Space","Held.call","temporaries of a chain are held twice",[("Nat.max h.most (h.now + (f r).2)⟩","Nat.max h.most (h.now + h.now + (f r).2)⟩")],["C111"])
m("JJ84","Space","done","the segments are not kept",[("(acts r.acc Parts.init).1 >>= fun p => .ok (some p), (acts r.acc Parts.init).2)","(acts r.acc Parts.init).1 >>= fun p => .ok (some p), 0)")],["C111"])
m("JJ85","Space","runGrammar","the rule is gone before its accept functions are run",[("(concatImpl (grSpace g) none false (ofSV inp)) sizeR done","(concatImpl (grSpace g) none false (ofSV inp)) (fun _ => 0) done")],["C111"])
