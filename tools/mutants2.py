MUTANTS = []
def m(id, file, definition, what, edits, breaks):
    MUTANTS.append(dict(id=id, file=file, definition=definition, what=what, edits=edits, breaks=breaks))
# --- Ranges
m("L01","Ranges","findLastForwardLoop","the first match wins",[("(if proj x = value then some first else found)","(if proj x = value then (match found with | none => some first | some k => some k) else found)")],["C47"])
m("L02","Ranges","findLastForward","an absent value yields the beginning",[("| (first, none) => (first, first)","| (_, none) => (0, l.length)")],["C47"])
m("L03","Ranges","findLastBidi","the base of the reverse iterator is not adjusted",[("= (rb - 1, l.length) then .ok (rb - 1, l.length)","= (rb - 1, l.length) then .ok (rb, l.length)")],["C47"])
m("L04","Ranges","rfind","searches up to the second element only",[("  | 0 => 0\n  | base + 1 =>","  | 0 => 0\n  | 1 => 0\n  | base + 1 =>")],["C47"])
m("L05","Ranges","startsWith","compares the wrong remainder",[("l1 l2).2.isEmpty","l1 l2).1.isEmpty")],["C47"])
m("L06","Ranges","mismatch","projections exchanged in effect: the second is not applied to its own element",[("if pred (proj1 x) (proj2 y) then","if pred (proj2 y) (proj1 x) then")],["C47"])
# --- Pct
m("P01","Pct","dec2hex","lower-case digits",[("else 0x41 - 10","else 0x61 - 10")],["C23"])
m("P02","Pct","dec2hex","10 spelled ':'",[("if v < 10 then 0x30","if v ≤ 10 then 0x30")],["C22","C23"])
m("P03","Pct","encodeTable","'#' no longer in the query set",[("[0b01000000, 0b01111111, 0b01111110,","[0b01000000, 0b01111111, 0b01111100,")],["C24"])
m("P04","Pct","encodeTable","'%' missing from the path set",[("0b01100000, 0b11111111, 0b01100000, 0b01000100","0b01100000, 0b11110111, 0b01100000, 0b01000100")],["C24","C22"])
m("P05","Pct","encodeTable","an entry too few before '?': '?' '@' shifted (last entry dropped, first duplicated)",[("  [0b01000000, 0b01111111,","  [0b01000000, 0b01000000, 0b01111111,"),("0b01111000, 0b01000000]","0b01111000]")],["C24"])
m("P06","Pct","needsPctencodeB","space not encoded (boundary)",[("if c ≤ 0x20 || c > 0x7E","if c < 0x20 || c > 0x7E")],["C24","C23"])
m("P07","Pct","needsPctencodeB","DEL not encoded (boundary)",[("c > 0x7E then true","c > 0x7F then true")],["C23","C24"])
m("P08","Pct","needsPctencodeB","'9' looked up in the table (boundary)",[("if c ≤ 0x39 - 0x21 then false","if c < 0x39 - 0x21 then false")],["C24"])
m("P09","Pct","needsCapital","'A' not recognised as a letter",[("if c ≥ 0x41 - (0x21 + 10) then","if c > 0x41 - (0x21 + 10) then")],["C24"])
m("P10","Pct","needsSmall","letters not subtracted",[("then false else needsLookup (c - 26) es","then false else needsLookup c es")],["C24"])
m("P11","Pct","needsLookup","union semantics: all bits of the set must be present",[("(encodeTable.getD c.toNat 0 &&& es) != 0","(encodeTable.getD c.toNat 0 &&& es) == es && es != 0")],["C24"])
m("P12","Pct","needsPctencode","all instead of any",[("s.any (fun c => needsPctencodeB c es)","s.all (fun c => needsPctencodeB c es)")],["C25"])
m("P13","Pct","pctencodeM","nibbles exchanged",[(".ok (0x25 :: hi :: lo :: rest)",".ok (0x25 :: lo :: hi :: rest)")],["C22","C23"])
m("P14","Pct","pctEncodedSize","the size of the input",[("    .ok sink.length\n\n/-! ### Decoding","    .ok (sink.length - (sink.length - s.length))\n\n/-! ### Decoding")],["C25","C35"])
m("P15","Pct","pctEncodedSize","never zero",[("  if !needsPctencode s es then .ok 0\n  else do\n    let sink","  if !needsPctencode s es then .ok s.length\n  else do\n    let sink")],["C25"])
m("P16","Pct","hex2dec","'a' is 0 (offset of ten forgotten)",[("then digit - (0x61 - 10)","then digit - 0x61")],["C26"])
m("P17","Pct","hex2dec","'F' not a digit (boundary)",[("digit ≥ 0x41 && digit ≤ 0x46","digit ≥ 0x41 && digit < 0x46")],["C26","C22"])
m("P18","Pct","hex2dec","'g' is a digit (boundary)",[("digit ≥ 0x61 && digit ≤ 0x66","digit ≥ 0x61 && digit ≤ 0x67")],["C26"])
m("P19","Pct","eitherBad","and instead of or",[("((n1 ||| n2) &&& hexBad)","((n1 &&& n2) &&& hexBad)")],["C26"])
m("P20","Pct","pctIncrement","boundary: 'remaining < 2'",[("else if remaining < 3 then .ok (pos + 1)","else if remaining < 2 then .ok (pos + 1)")],["C27","C26"])
m("P21","Pct","pctIncrement","boundary: 'remaining <= 3' (a triplet at the end is not skipped)",[("else if remaining < 3 then .ok (pos + 1)","else if remaining ≤ 3 then .ok (pos + 1)")],["C26"])
m("P22","Pct","pctIncrement","malformed triplets are skipped whole",[("then .ok (pos + 1) else .ok (pos + 3)","then .ok (pos + 3) else .ok (pos + 3)")],["C26"])
m("P23","Pct","pctDeref","nibbles exchanged",[("(nhi <<< 4) ||| nlo","(nlo <<< 4) ||| nhi")],["C22","C26"])
m("P24","Pct","pctDeref","boundary: dist < 2",[("dist < 3 then .ok c","dist < 2 then .ok c")],["C27"])
m("P25","Pct","needsPctdecode","looks for '+'",[("s.any (· == 0x25)","s.any (· == 0x2B)")],["C26","C36"])
m("P26","Pct","PctIter.eq","assertion of equal ends dropped, compares ends only",[("if a.stop = b.stop then .ok (a.pos == b.pos && a.stop == b.stop)","if a.stop = b.stop then .ok (a.stop == b.stop)")],["C26","C27"])
m("P27","Pct","pctDecodedSize","length of the input",[("    let r ← pctdecode s\n    .ok r.length","    let r ← pctdecode s\n    .ok (r.length + (s.length - r.length))")],["C26","C36"])
m("P28","Pct","pctdecodeEnd","one before the end",[("def pctdecodeEnd (s : Str) : PctIter := ⟨s.length, s.length⟩","def pctdecodeEnd (s : Str) : PctIter := ⟨s.length - 1, s.length⟩")],["C27"])
# --- Punycode
m("Y01","Punycode","damp","600",[("def damp : Nat := 700","def damp : Nat := 600")],["C29"])
m("Y02","Punycode","skew","36",[("def skew : Nat := 38","def skew : Nat := 36")],["C29"])
m("Y03","Punycode","tmax","25",[("def tmax : Nat := 26","def tmax : Nat := 25")],["C29"])
m("Y04","Punycode","initialBias","70",[("def initialBias : Nat := 72","def initialBias : Nat := 70")],["C29"])
m("Y05","Punycode","initialN","0x81",[("def initialN : Nat := 0x80","def initialN : Nat := 0x81")],["C29","C32"])
m("Y06","Punycode","clamp","boundary: k < bias in the encoder only",[("def clamp (k bias : Nat) : Nat :=\n  if k ≤ bias then tmin","def clamp (k bias : Nat) : Nat :=\n  if k + 1 ≤ bias then tmin")],["C29"])
m("Y07","Punycode","clampk","boundary: k > bias + tmax in the decoder only",[("def clampk (k bias : Nat) : Nat :=\n  if k ≤ bias then tmin\n  else if k ≥ (bias","def clampk (k bias : Nat) : Nat :=\n  if k ≤ bias then tmin\n  else if k > 1 + (bias")],["C29"])
m("Y08","Punycode","encodeDigit","capital letters",[("UInt8.ofNat (d + 0x61)","UInt8.ofNat (d + 0x41)")],["C31"])
m("Y09","Punycode","encodeVliLoop","most significant digit first",[(".ok (d :: rest)\n\n/-- punycode.hpp:93-107 `encode_vli`. -/",".ok (rest ++ [d])\n\n/-- punycode.hpp:93-107 `encode_vli`. -/")],["C29"])
m("Y10","Punycode","adapt","firsttime ignored",[("if firsttime then delta / damp else delta >>> 1","delta >>> 1")],["C29"])
m("Y11","Punycode","adaptLoop","boundary '>=': one more division",[("if delta > ((base - tmin) * tmax) / 2","if delta ≥ ((base - tmin) * tmax) / 2")],["C29"])
m("Y12","Punycode","encStep","delta not reset after an insertion",[("out := st.out ++ v, delta := 0,","out := st.out ++ v, delta := st.delta,")],["C29"])
m("Y13","Punycode","encStep","'c <= n' counts the code point itself",[("if c < n then .ok { st with","if c ≤ n then .ok { st with")],["C29"])
m("Y14","Punycode","encStep","number of points not incremented for adapt",[("adapt st.delta ((st.i + 1) % szMod)","adapt st.delta (st.i % szMod)")],["C29"])
m("Y15","Punycode","encLoop","delta not incremented after a pass",[("{ st with delta := (st.delta + 1) % szMod }\n\n/-- punycode.hpp:131","{ st with delta := st.delta % szMod }\n\n/-- punycode.hpp:131")],["C29"])
m("Y16","Punycode","encLoop","delta multiplied by i instead of i + 1",[("((m - n) * ((st.i + 1) % szMod))","((m - n) * (st.i % szMod))")],["C29"])
m("Y17","Punycode","encode","delimiter always written",[("let out := if numBasics > 0 then basics ++ [delimiter] else basics","let out := basics ++ [delimiter]")],["C31"])
m("Y18","Punycode","encode","flag inverted",[(".ok (st.out, !nonBasic.isEmpty)",".ok (st.out, nonBasic.isEmpty)")],["C31"])
m("Y19","Punycode","unique","duplicates kept",[("if x = y then unique (y :: r) else x :: unique (y :: r)","x :: unique (y :: r)")],["C29"])
m("Y20","Punycode","sortL","not sorted",[("| x :: xs => insertSorted x (sortL xs)","| x :: xs => x :: sortL xs")],["C29"])
m("Y21","Punycode","decodeDigit","small letters not accepted",[("let cp := if cp ≥ 0x61 then cp - (0x61 - 0x41) else cp\n","")],["C29","C33"])
m("Y22","Punycode","decodeDigit","'[' accepted (boundary)",[("if cp ≥ 0x41 && cp ≤ 0x5A then cp.toNat - 0x41","if cp ≥ 0x41 && cp ≤ 0x5B then cp.toNat - 0x41")],["C33"])
m("Y23","Punycode","decodeVliLoop","the first overflow test is missing",[("      else if digit > (szMax - vli) / w then .ok (.error .overflow)\n","")],["C32"])
m("Y24","Punycode","decodeVliLoop","the second overflow test is missing",[("        else if w > szMax / (base - t) then .ok (.error .overflow)\n","")],["C32"])
m("Y25","Punycode","decodeVliLoop","truncated integers accepted",[("  | [], _, _, _ => .ok (.error .badInput)","  | [], _, _, vli => .ok (.ok (vli, []))")],["C33"])
m("Y26","Punycode","decodeVliLoop","boundary: digit <= t ends the integer",[("if digit < t then .ok (.ok (vli, first))","if digit ≤ t then .ok (.ok (vli, first))")],["C29"])
m("Y27","Punycode","copyPlain","the delimiter is not skipped",[("input.drop (b + 1)","input.drop b")],["C29"])
m("Y28","Punycode","copyBasic","non-ASCII literal part accepted",[("      if !isBasic c.toNat then .error .badInput\n      else match","      match")],["C33"])
m("Y29","Punycode","decodeLoop","overflow test on n missing",[("              if vli / outputLength > (u32Mod - 1 + (szMod - n)) % szMod then .ok (.error .overflow)\n              else\n","              do\n")],["C32"])
m("Y30","Punycode","decodeLoop","index not incremented after the insertion",[("decodeLoop fuel rest output n ((index + 1) % szMod) bias","decodeLoop fuel rest output n (index % szMod) bias")],["C29"])
m("Y31","Punycode","decodeLoop","adapt is given vli instead of the difference",[("adapt ((vli + (szMod - index)) % szMod) outputLength","adapt vli outputLength")],["C29"])
m("Y32","Punycode","insertAt","inserted after instead of before",[(".ok (l.take index ++ c :: l.drop index)",".ok (l.take (index + 1) ++ c :: l.drop (index + 1))")],["C29","C32"])
m("Y33","Punycode","copyPlain","the first delimiter instead of the last",[("let (b, e) ← findLast bidi id delimiter input","let (b, e) ← (.ok (input.findIdx (· == delimiter), input.length) : M (Nat × Nat))")],["C29"])
# --- Icubaby
m("I01","Icubaby","isHighSurrogate","0xDBFF excluded",[("decide (c ≤ 0xDBFF)","decide (c < 0xDBFF)")],["C44","C40"])
m("I02","Icubaby","isLowSurrogate","0xDFFF excluded",[("decide (c ≤ 0xDFFF)","decide (c < 0xDFFF)")],["C44","C40"])
m("I03","Icubaby","write2","shift by 5",[("def write2 (c : Nat) : Str := [UInt8.ofNat ((c >>> 6) |||","def write2 (c : Nat) : Str := [UInt8.ofNat ((c >>> 5) |||")],["C40"])
m("I04","Icubaby","write3","middle byte not masked",[("[UInt8.ofNat ((c >>> 12) ||| 0xE0), UInt8.ofNat (((c >>> 6) &&& 0x3F) ||| 0x80), UInt8.ofNat ((c &&& 0x3F) ||| 0x80)]","[UInt8.ofNat ((c >>> 12) ||| 0xE0), UInt8.ofNat (((c >>> 6) &&& 0x7F) ||| 0x80), UInt8.ofNat ((c &&& 0x3F) ||| 0x80)]")],["C40"])
m("I05","Icubaby","step32to8","boundary: c <= 0x800 in two bytes",[("else if c < 0x800 then","else if c ≤ 0x800 then")],["C40"])
m("I06","Icubaby","step32to8","surrogates encoded as three bytes",[("      else if isSurrogate c then step32to8 fuel false replacementChar\n","")],["C40"])
m("I07","Icubaby","step32to8","well_formed not cleared for values above 0x10FFFF",[("      else step32to8 fuel false replacementChar\n\n","      else step32to8 fuel wf replacementChar\n\n")],["C40"])
m("I08","Icubaby","utf8d","C1 accepted as a lead byte",[("  8,8,2,2,2,2,2,2,","  8,2,2,2,2,2,2,2,")],["C41"])
m("I09","Icubaby","utf8d","ED treated like other E-bytes (surrogates accepted)",[("10,3,3,3,3,3,3,3,3,3,3,3,3,4,3,3,","10,3,3,3,3,3,3,3,3,3,3,3,3,3,3,3,")],["C41","C43"])
m("I10","Icubaby","utf8d","F4 treated like F1-F3 (values above 0x10FFFF)",[(" 11,6,6,6,5,8,"," 11,6,6,6,6,8,")],["C41"])
m("I11","Icubaby","utf8d","a transition of the DFA wrong (state 24)",[("12,24,12,12,12,12,12,24,12,24,12,12,\n  12,12,12","12,24,12,12,12,12,12,24,12,12,12,12,\n  12,12,12")],["C41"])
m("I12","Icubaby","step8to32","continuation bits masked with 0x1F",[("(ucu &&& 0x3F) ||| (st.codePoint <<< 6)","(ucu &&& 0x1F) ||| (st.codePoint <<< 6)")],["C41"])
m("I13","Icubaby","step8to32","state kept at reject after an error",[("wf := false, state := accept }, [replacementChar])","wf := false, state := reject }, [replacementChar])")],["C52"])
m("I14","Icubaby","step8to32","well_formed not cleared on an error",[("{ codePoint := cp, wf := false, state := accept }","{ codePoint := cp, wf := st.wf, state := accept }")],["C41"])
m("I15","Icubaby","endCp8to32","no replacement character for a truncated sequence",[("state := reject }, [replacementChar]) else","state := reject }, []) else")],["C41","C45"])
m("I16","Icubaby","endCp8to32","well_formed not cleared",[("{ st with wf := false, state := reject }","{ st with state := reject }")],["C41"])
m("I17","Icubaby","step32to16","lead surrogate base 0xD800",[("0xD7C0 + (c >>> 10)","0xD800 + (c >>> 10)")],["C44"])
m("I18","Icubaby","step32to16","boundary c < 0xFFFF",[("else if c ≤ 0xFFFF then","else if c < 0xFFFF then")],["C44"])
m("I19","Icubaby","step16to32","0x10000 not added",[("(cu - 0xDC00) + 0x10000]","(cu - 0xDC00)]")],["C44"])
m("I20","Icubaby","step16to32","the unit after an unpaired high surrogate is lost",[("wf := false }, [replacementChar, cu])","wf := false }, [replacementChar])")],["C44"])
m("I21","Icubaby","step16to32","second of two high surrogates forgotten",[(".ok ({ st with high := h % 2 ^ 10, wf := false }, [replacementChar])",".ok ({ st with wf := false }, [replacementChar])")],["C44"])
m("I22","Icubaby","endCp16to32","pending high surrogate ignored",[("if st.hasHigh then .ok ({ high := 0, hasHigh := false, wf := false }, [replacementChar])","if st.hasHigh then .ok ({ high := 0, hasHigh := false, wf := false }, [])")],["C44"])
m("I23","Icubaby","step32to32","surrogates passed through",[("if decide (c > maxCodePoint) || isSurrogate c then .ok (false, [replacementChar])","if decide (c > maxCodePoint) then .ok (false, [replacementChar])")],["C45"])
m("I24","Icubaby","triangulator","well_formed looks at the second half only",[("wellFormed st := A.wellFormed st.1 && B.wellFormed st.2","wellFormed st := B.wellFormed st.2")],["C44"])
m("I25","Icubaby","triangulator","end_cp of the first half forgotten",[("    let (a, mid) ← A.endCp st.1\n","    let (a, mid) ← (.ok (st.1, []) : M (A.σ × List Nat))\n")],["C44"])
m("I26","Icubaby","maxOut16to8","buffer of 4",[("def maxOut16to8 : Nat := 6","def maxOut16to8 : Nat := 4")],["C45"])
m("I27","Icubaby","maxOut16to32","buffer of 1",[("def maxOut16to32 : Nat := 2","def maxOut16to32 : Nat := 1")],["C45"])
m("I28","Icubaby","fill","end_cp never called",[("let (st, e) ← if rest.isEmpty then T.endCp st else .ok (st, [])","let (st, e) ← (.ok (st, []) : M (T.σ × List ο))")],["C45"])
m("I29","Icubaby","fill","current advanced to the end of what was read",[("{ current := it.next, next := rest,","{ current := rest, next := rest,")],["C45"])
m("I30","Icubaby","fill","well_formed of the view not updated",[("parentWf := it.parentWf && T.wellFormed st }","parentWf := it.parentWf }")],["C45"])
m("I31","Icubaby","ViewIt.incr","refilled before the buffer is empty",[("| _ :: b => if b.isEmpty then fill T cap { it with buf := b } else","| _ :: b => if b.isEmpty || b.length == 1 then fill T cap { it with buf := [] } else")],["C45"])
m("I32","Icubaby","length","counts continuation units",[("  | c :: s => (if start c then 1 else 0) + length start s","  | c :: s => (if start c then 0 else 1) + length start s")],["C49"])
m("I33","Icubaby","indexLoop","count incremented before it is compared",[("if start c then (if count = pos then off","if start c then (if count + 1 = pos then off")],["C49"])
m("I34","Icubaby","isCodePointStart8","mask 0x80",[("(c &&& 0xC0) != 0x80","(c &&& 0x80) != 0x80")],["C49"])
m("I35","Icubaby","isCodePointStart16","high surrogates instead of low",[("!isLowSurrogate c.toNat","!isHighSurrogate c.toNat")],["C49"])
m("I36","Icubaby","char16From","big and little endian exchanged",[("if big then UInt16.ofNat","if !big then UInt16.ofNat")],["C46"])
m("I37","Icubaby","run8Start","buffered bytes not replayed",[("(st.buffer.take (byteNo st.state + 1))","(st.buffer.take (byteNo st.state))")],["C46"])
m("I38","Icubaby","startState","FE taken for a UTF-8 mark",[("else if v == 0xFE then .ok ({ st with state := .utf16_be_bom_byte1 }, [])","else if v == 0xFE then .ok ({ st with state := .utf8_bom_byte1 }, [])")],["C46"])
m("I39","Icubaby","run16Start","endianness inverted",[("if isLittleEndian st.state then .run_16le_byte0 else .run_16be_byte0","if isLittleEndian st.state then .run_16be_byte0 else .run_16le_byte0")],["C46"])
m("I40","Icubaby","char32FromBig","second byte shifted by 8",[("(b0.toNat <<< 24) ||| (b1.toNat <<< 16) ||| (b2.toNat <<< 8)","(b0.toNat <<< 24) ||| (b1.toNat <<< 8) ||| (b2.toNat <<< 8)")],["C46"])
m("I41","Icubaby","stepX","the UTF-8 mark is passed on",[("run8Start st (v != (← bomByte st.state))","run8Start st (v == (← bomByte st.state))")],["C46"])
m("I42","Icubaby","wellFormedX","UTF-16 not considered",[("  | .v16 t => T16.wellFormed t\n  | .v32 t => T32.wellFormed t","  | .v16 _ => true\n  | .v32 t => T32.wellFormed t")],["C46"])
m("I43","Icubaby","selectedEncoding","endianness of UTF-16 inverted",[("(if isLittleEndian st.state then .utf16le else .utf16be)","(if isLittleEndian st.state then .utf16be else .utf16le)")],["C46"])
m("I44","Icubaby","ViewIt.eq","always equal",[(": Bool := a.current.length == b.current.length",": Bool := a.current.length == a.current.length || b.atEnd")],["C50"])
# --- PartsCodec
m("K01","PartsCodec","encSetOf","query uses the fragment set",[("  | .query => EncSet.query","  | .query => EncSet.fragment")],["C35"])
m("K02","PartsCodec","encSetOf","path uses the query set",[("  | .path => EncSet.path","  | .path => EncSet.query")],["C35"])
m("K03","PartsCodec","encSetOf","userinfo not encoded",[("  | .userinfo => EncSet.userinfo","  | .userinfo => EncSet.none")],["C35","C37"])
m("K04","PartsCodec","setBit","assignment instead of |=: the last string of the bit wins",[("bits k || decide (extra ≠ 0)","decide (extra ≠ 0)")],["C35"])
m("K05","PartsCodec","setBit","bit set without regard to the size",[("bits k || decide (extra ≠ 0)","true")],["C35"])
m("K06","PartsCodec","bitPos","index ignored: all segments share one bit",[("def bitPos (fld : Field) (index : Nat) : Nat := (fld.val + index) % u32Mod","def bitPos (fld : Field) (_index : Nat) : Nat := fld.val % u32Mod")],["C35"])
m("K07","PartsCodec","encodeWrite","bit test dropped for segments beyond the bit set: every such segment taken as unencoded",[("  if pos < fieldLast ∧ bits pos = false then .ok (str, store)\n  else\n    let originalSize := store.chars.length\n    if fld = .host then do\n      let n ← punyEncodedSize","  if pos ≥ fieldLast ∨ bits pos = false then .ok (str, store)\n  else\n    let originalSize := store.chars.length\n    if fld = .host then do\n      let n ← punyEncodedSize")],["C35"])
m("K08","PartsCodec","encodeWrite","the view starts at the beginning of the store",[("        check (originalSize + n == store.chars.length)\n        .ok (⟨store.addr + originalSize, store.chars.drop originalSize⟩, store)","        check (originalSize + n == store.chars.length)\n        .ok (⟨store.addr, store.chars⟩, store)")],["C35"])
m("K09","PartsCodec","encode","the store is not cleared",[("def encode (hp : Heap) (store : Store) (p : Parts SV) : M (Parts SV × Store) := do\n  let store := store.clear\n","def encode (hp : Heap) (store : Store) (p : Parts SV) : M (Parts SV × Store) := do\n")],["C35"])
m("K10","PartsCodec","encode","nothing reserved",[("  let store := store.reserve hp st.required\n  let (result, store) ← partsStrings (encodeWrite","  let (result, store) ← partsStrings (encodeWrite")],["C35"])
m("K11","PartsCodec","partsStrings","the query is not visited",[("  let (query, st) ← visitOpt f .query p.query st\n","  let query := p.query\n")],["C35","C36"])
m("K12","PartsCodec","partsStrings","the fragment visited as query",[("visitOpt f .fragment p.fragment st","visitOpt f .query p.fragment st")],["C35"])
m("K13","PartsCodec","visitAuthority","the port is lost",[(".ok (some ⟨userinfo, host, port⟩, st)",".ok (some ⟨userinfo, host, none⟩, st)")],["C35","C36"])
m("K14","PartsCodec","visitSegments","count not incremented",[("visitSegments vs ((count + 1) % u32Mod) st","visitSegments vs count st")],[])
m("K15","PartsCodec","punyEncodedLoop","separator missing",[(".ok (out ++ 0x2E :: rest, nonAscii || anyNeeded)",".ok (out ++ rest, nonAscii || anyNeeded)")],["C34"])
m("K16","PartsCodec","punyEncodedLoop","prefix for every label",[("(if nonAscii then idnaPrefix else []) ++ segment","idnaPrefix ++ segment")],["C34"])
m("K17","PartsCodec","punyEncodedLoop","only the last label decides whether the host changed",[(".ok (out ++ 0x2E :: rest, nonAscii || anyNeeded)",".ok (out ++ 0x2E :: rest, anyNeeded)")],["C34","C35"])
m("K18","PartsCodec","idnaPrefix","'xn-'",[("def idnaPrefix : Str := b! \"xn--\"","def idnaPrefix : Str := b! \"xn-\"")],["C34"])
m("K19","PartsCodec","punyEncodedSize","always the length",[(".ok (if anyNonAscii then out.length else 0)",".ok out.length")],["C35"])
m("K20","PartsCodec","punyDecodedLoop","separator missing",[(".ok (out ++ 0x2E :: rest, r.map (enc || ·))",".ok (out ++ rest, r.map (enc || ·))")],["C34","C36"])
m("K21","PartsCodec","punyDecodedLoop","only the last label decides whether anything was encoded",[("r.map (enc || ·))","r)")],["C36"])
m("K22","PartsCodec","punyDecodedLoop","the prefix is not removed",[("Puny.decode false (view.drop idnaPrefix.length)","Puny.decode false view")],["C34"])
m("K23","PartsCodec","punyDecodedLoop","errors ignored: the label is copied",[("        | .error err => .ok ([], .error err)\n        | .ok (str, rest)","        | .error _ => next view sentinel false\n        | .ok (str, rest)")],["C39"])
m("K24","PartsCodec","decodeSize","an error does not stop: overwritten by the next field",[("  match st.error with\n  | some _ => .ok (str, st)\n  | none => do\n      match ← decodedSize","  match (none : Option Puny.Err) with\n  | some _ => .ok (str, st)\n  | none => do\n      match ← decodedSize")],["C39"])
m("K25","PartsCodec","decodedSize","the host is percent-decoded",[("  if fld = .host then punyDecodedSize s\n  else do","  if fld = .scheme then punyDecodedSize s\n  else do")],["C36"])
m("K26","PartsCodec","decode","the error is not reported",[("  | some err => .ok (.error err, store)\n","  | some _ => .ok (.ok p, store)\n")],["C39"])
m("K27","PartsCodec","decodeWrite","the undecoded text is stored",[("let out ← pctViewCopy str.chars","let out ← (.ok str.chars : M Str)")],["C36"])
m("K28","PartsCodec","decodeWrite","segments beyond the bit set not decoded",[("  if pos < fieldLast ∧ bits pos = false then .ok (str, store)\n  else\n    let originalSize := store.chars.length\n    if fld = .host then do\n      let (out, _)","  if pos ≥ fieldLast ∨ bits pos = false then .ok (str, store)\n  else\n    let originalSize := store.chars.length\n    if fld = .host then do\n      let (out, _)")],["C36"])
m("K29","PartsCodec","Store.reserve","reserve loses the contents",[("cap := n + hp.slack st.allocs, chars := st.chars, allocs","cap := n + hp.slack st.allocs, chars := [], allocs")],["C35"])
m("K30","PartsCodec","labelLoop","the dot is included in the label",[("        if isNotDot c then do","        if isNotDot c || it.atEnd then do")],[])
m("K31","PartsCodec","visit","null views are visited (assertion)",[("  if v.ptr ≠ 0 then f v 0 fld st else .ok (v, st)","  f v 0 fld st")],["C35","C36"])
