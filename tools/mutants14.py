MUTANTS = []
def m(id, file, definition, what, edits, breaks):
    MUTANTS.append(dict(id=id, file=file, definition=definition, what=what, edits=edits, breaks=breaks))
# --- Icubaby (C103)
m("II01","Icubaby","write2","the continuation byte gets the mark of a leading one",[("def write2 (c : Nat) : Str := [UInt8.ofNat ((c >>> 6) ||| 0xC0), UInt8.ofNat ((c &&& 0x3F) ||| 0x80)]","def write2 (c : Nat) : Str := [UInt8.ofNat ((c >>> 6) ||| 0xC0), UInt8.ofNat ((c &&& 0x3F) ||| 0xC0)]")],["C103"])
m("II02","Icubaby","write3","the bytes in the wrong order",[("[UInt8.ofNat ((c >>> 12) ||| 0xE0), UInt8.ofNat (((c >>> 6) &&& 0x3F) ||| 0x80), UInt8.ofNat ((c &&& 0x3F) ||| 0x80)]","[UInt8.ofNat ((c >>> 12) ||| 0xE0), UInt8.ofNat ((c &&& 0x3F) ||| 0x80), UInt8.ofNat (((c >>> 6) &&& 0x3F) ||| 0x80)]")],["C103"])
m("II03","Icubaby","step32to8","overlong: two bytes from 0x40",[("if c < 0x80 then .ok (wf, [UInt8.ofNat c])\n      else if c < 0x800","if c < 0x7F then .ok (wf, [UInt8.ofNat c])\n      else if c < 0x800")],["C103"])
m("II04","Icubaby","step32to8","four bytes already for the last of the basic plane",[("else if c < 0x10000 then .ok (wf, write3 c)","else if c < 0xFFFF then .ok (wf, write3 c)")],["C103"])
m("II05","Icubaby","step32to16","the low surrogate first",[("[UInt16.ofNat (0xD7C0 + (c >>> 10)), UInt16.ofNat (0xDC00 + (c &&& 0x3FF))]","[UInt16.ofNat (0xDC00 + (c &&& 0x3FF)), UInt16.ofNat (0xD7C0 + (c >>> 10))]")],["C103"])
m("II06","Icubaby","step32to16","the offset 0x10000 is not taken off",[("UInt16.ofNat (0xD7C0 + (c >>> 10))","UInt16.ofNat (0xD800 + (c >>> 10))")],["C103"])
# --- Pct iterators (C104)
m("II20","Pct","PctIter.eq","iterators of different ranges can be compared",[("if a.stop = b.stop then .ok (a.pos == b.pos && a.stop == b.stop) else .error .assertion","if a.stop = b.stop then .ok (a.pos == b.pos && a.stop == b.stop) else .ok false")],["C104"])
m("II21","Pct","PctIter.eq","only the ends are compared",[(".ok (a.pos == b.pos && a.stop == b.stop) else",".ok (a.stop == b.stop) else")],["C104"])
m("II22","Pct","pctIncrement","moves past the end silently",[("if remaining ≤ 0 then .error .assertion","if remaining < 0 then .error .assertion")],["C104"])
m("II23","Pct","pctIncrement","the triplet is skipped by two",[("then .ok (pos + 1) else .ok (pos + 3)","then .ok (pos + 1) else .ok (pos + 2)")],["C104"])
m("II24","Pct","pctDeref","the digits are looked for beyond the end of the range",[("if c ≠ 0x25 || dist < 3 then .ok c","if c ≠ 0x25 then .ok c")],["C104"])
# --- normal forms (C105, C106)
m("II30","PartsCodec","encSetOf","the fragment is encoded as a query",[("| .fragment => EncSet.fragment","| .fragment => EncSet.query")],["C105"])
m("II31","PartsCodec","encSetOf","the path is encoded as user information",[("| .path => EncSet.path","| .path => EncSet.userinfo")],["C105"])
m("II32","Pct","encodeTable","the path set has the solidus",[("0b00000000, 0b00000000, 0b01110000,\n   0b01110000,","0b00000000, 0b00000000, 0b01111000,\n   0b01110000,")],["C105"])
m("II33","PartsCodec","decodeWrite","what is decoded to nothing is decoded",[("  if pos < fieldLast ∧ bits pos = false then .ok (str, store)\n  else\n    let originalSize := store.chars.length\n    if fld = .host then do\n      let (out, _) ← punyDecoded str.chars","  if pos < fieldLast ∧ bits pos = false ∧ fld ≠ .host then .ok (str, store)\n  else\n    let originalSize := store.chars.length\n    if fld = .host then do\n      let (out, _) ← punyDecoded str.chars")],["C106"])
m("II34","PartsCodec","punyDecodedLoop","xn-- in upper case is a prefix too",[("if startsWith (· == ·) id id view idnaPrefix then do","if startsWith (· == ·) (fun c => if 0x41 ≤ c ∧ c ≤ 0x5A then c + 0x20 else c) id view idnaPrefix then do")],["C106"])
m("II35","PartsCodec","punyEncodedLoop","a label is always given the prefix",[("let (segment, nonAscii) ← Puny.encode label true","let (segment, nonAscii) ← Puny.encode label false")],["C106"])
m("II36","PartsCodec","punyDecodedLoop","text after an encoded label is lost",[("            next out (rest ++ sentinel) true","            next out rest true")],["C106"])
