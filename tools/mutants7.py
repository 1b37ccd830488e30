MUTANTS = []
def m(id, file, definition, what, edits, breaks):
    MUTANTS.append(dict(id=id, file=file, definition=definition, what=what, edits=edits, breaks=breaks))
# --- Icubaby, definitions not edited before
m("BB01","Icubaby","write4","third byte from the wrong bits",[("   UInt8.ofNat (((c >>> 6) &&& 0x3F) ||| 0x80), UInt8.ofNat ((c &&& 0x3F) ||| 0x80)]\n\n/-- icubaby.hpp:717","   UInt8.ofNat (((c >>> 5) &&& 0x3F) ||| 0x80), UInt8.ofNat ((c &&& 0x3F) ||| 0x80)]\n\n/-- icubaby.hpp:717")],["C40","C42","C75"])
m("BB02","Icubaby","maxCodePoint","one too many",[("def maxCodePoint : Nat := 0x10FFFF","def maxCodePoint : Nat := 0x110000")],["C40"])
m("BB03","Icubaby","isCodePointStart32","surrogates count",[("!isSurrogate c && decide (c ≤ maxCodePoint)","decide (c ≤ maxCodePoint)")],["C49"])
m("BB04","Icubaby","index","counts from one",[("indexLoop start pos s 0 0","indexLoop start pos s 1 0")],["C49"])
m("BB05","Icubaby","t8_32","starts in the rejecting state",[("init := ⟨0, true, accept⟩","init := ⟨0, true, reject⟩")],["C41"])
m("BB06","Icubaby","t8_32","partial () while accepting",[("isPartial st := decide (st.state ≠ accept)","isPartial st := decide (st.state = accept)")],["C57"])
m("BB07","Icubaby","t16_32","partial () never",[("isPartial st := st.hasHigh","isPartial st := false")],["C57"])
m("BB08","Icubaby","adjustedHigh","the lower bound excluded",[("if cu ≥ 0xD800 ∧ cu - 0xD800 < 0xFFFF","if cu > 0xD800 ∧ cu - 0xD800 < 0xFFFF")],["C44"])
m("BB09","Icubaby","t32_32","starts not well formed",[("  step := step32to32\n","  step := fun _ c => step32to32 true c\n")],["C57","C75"])
m("BB10","Icubaby","triCopy","the second transcoder is begun anew",[("let (b, o) ← B.feed st.2 mid","let (b, o) ← B.feed B.init mid")],["C75"])
m("BB11","Icubaby","t16_8","room for one intermediate code point only",[("triangulator 2 t16_32 t32_8","triangulator 1 t16_32 t32_8")],["C44","C75"])
m("BB12","Icubaby","fillLoop","goes on after output",[("      else if o.isEmpty then fillLoop st s\n      else .ok (st, s, o)","      else .ok (st, s, o)")],["C45"])
m("BB13","Icubaby","viewBegin","the first element is not fetched",[("if s.isEmpty then .ok it else fill T cap it","if s.isEmpty then fill T cap it else .ok it")],["C45"])
m("BB14","Icubaby","ViewIt.atEnd","at the end when there is no more input",[("it.current.isEmpty\n","it.next.isEmpty\n")],["C45","C50"])
m("BB15","Icubaby","mkState","run mode in the wrong bit",[("(run <<< 2)","(run <<< 3)")],["C46"])
m("BB16","Icubaby","isLittleEndian","inverted",[("(s.code &&& 8) == 8","(s.code &&& 8) == 0")],["C46"])
m("BB17","Icubaby","setByteCode","the old byte number is not cleared",[("((c &&& ~~~3) ||| UInt8.ofNat n)","(c ||| UInt8.ofNat n)")],["C46"])
m("BB18","Icubaby","bomByte","rows from the encoding alone",[("boms[(s.code >>> 3).toNat]?","boms[(s.code >>> 4).toNat]?")],["C46"])
m("BB19","Icubaby","bom32Last","big-endian mark ends FE",[("(if isLittleEndian st.state then 0x00 else 0xFF)","(if isLittleEndian st.state then 0x00 else 0xFE)")],["C46"])
m("BB20","Icubaby","runByte","the byte is not kept",[("""def runByte (st : StX T8 T16 T32) (v : UInt8) : M (StX T8 T16 T32 × List ο) := do
  let st := { st with buffer := ← bufSet st.buffer (byteNo st.state) v }
""","""def runByte (st : StX T8 T16 T32) (v : UInt8) : M (StX T8 T16 T32 × List ο) := do
  let st := { st with buffer := ← bufSet st.buffer 0 v }
""")],["C46","C69"])
m("BB21","Icubaby","run16","endianness swapped",[("char16From (st.state == .run_16be_byte1)","char16From (st.state == .run_16le_byte1)")],["C46","C69"])
m("BB22","Icubaby","bomStep","a byte that is no mark is dropped",[("  if v == (← bomByte st.state) then .ok ({ st with state := ← nextByte st.state }, [])\n  else run8Start st true\n\n/-- icubaby.hpp:1256","  if v == (← bomByte st.state) then .ok ({ st with state := ← nextByte st.state }, [])\n  else run8Start st false\n\n/-- icubaby.hpp:1256")],["C46"])
m("BB23","Icubaby","isRunMode","byte order mark states are run mode",[("def isRunMode (s : States) : Bool := (s.code &&& 4) == 4","def isRunMode (s : States) : Bool := (s.code &&& 8) == 8")],["C46"])
m("BB24","Icubaby","tx_16","UTF-8 to UTF-16 for UTF-32 input (wrong member)",[("  init := ⟨.start, [0, 0, 0, 0], .mono⟩","  init := ⟨.start, [0, 0, 0], .mono⟩")],["C46"])
# --- Pct
m("BB30","Pct","EncSet.query","same bit as the fragment set",[("def query : UInt8 := (1 : UInt8) <<< 1","def query : UInt8 := (1 : UInt8) <<< 0")],["C24"])
m("BB31","Pct","EncSet.specialQuery","same bit as the query set",[("def specialQuery : UInt8 := (1 : UInt8) <<< 2","def specialQuery : UInt8 := (1 : UInt8) <<< 1")],["C24"])
m("BB32","Pct","EncSet.userinfo","bit of the component set",[("def userinfo : UInt8 := (1 : UInt8) <<< 4","def userinfo : UInt8 := (1 : UInt8) <<< 5")],["C24"])
m("BB33","Pct","EncSet.formUrlencoded","bit of the component set",[("def formUrlencoded : UInt8 := (1 : UInt8) <<< 6","def formUrlencoded : UInt8 := (1 : UInt8) <<< 5")],["C24"])
m("BB34","Pct","EncSet.none","not empty",[("def none : UInt8 := 0\n","def none : UInt8 := 1\n")],["C24"])
m("BB35","Pct","hexBad","a value that is a digit",[("def hexBad : UInt8 := 0b10000","def hexBad : UInt8 := 0b01000")],["C26"])
m("BB36","Pct","pctdecodeBegin","begins at the second byte",[("def pctdecodeBegin (s : Str) : PctIter := ⟨0, s.length⟩","def pctdecodeBegin (s : Str) : PctIter := ⟨1, s.length⟩")],["C27"])
m("BB37","Pct","pctdecoder","ends one early",[("(⟨first, last⟩, ⟨last, last⟩)","(⟨first, last⟩, ⟨last - 1, last⟩)")],["C26"])
m("BB38","Pct","pctViewCopy","begins at the second byte",[("pctViewLoop s s.length (s.length + 1) 0","pctViewLoop s s.length (s.length + 1) 1")],["C27"])
# --- Punycode
m("BB40","Punycode","tmin","two",[("def tmin : Nat := 1","def tmin : Nat := 2")],["C29"])
m("BB41","Punycode","base","thirty-five",[("def base : Nat := 36","def base : Nat := 35")],["C29"])
m("BB42","Punycode","delimiter","an underscore",[("def delimiter : UInt8 := 0x2D","def delimiter : UInt8 := 0x5F")],["C29"])
m("BB43","Punycode","isBasic","DEL is not basic",[("decide (c < 0x80)\n\n/-- punycode.hpp:72","decide (c < 0x7F)\n\n/-- punycode.hpp:72")],["C29"])
m("BB44","Punycode","insertSorted","descending",[("if x ≤ y then x :: y :: ys","if y ≤ x then x :: y :: ys")],["C29"])
m("BB45","Punycode","sortAndRemoveDuplicates","duplicates stay",[("unique (sortL l)","sortL l")],["C29"])
m("BB46","Punycode","encodeVli","starts with k = 0",[("encodeVliLoop bias (q + 1) base q","encodeVliLoop bias (q + 1) 0 q")],["C29"])
m("BB47","Punycode","decodeVli","weight starts at the base",[("decodeVliLoop bias first 1 base vli","decodeVliLoop bias first base base vli")],["C29"])
m("BB48","Punycode","szMax","2^63 - 1",[("def szMax : Nat := 2 ^ 64 - 1","def szMax : Nat := 2 ^ 63 - 1")],["C32"])
m("BB49","Punycode","decode","n starts at 0",[("decodeLoop (rest.length + 1) rest lit initialN 0 initialBias","decodeLoop (rest.length + 1) rest lit 0 0 initialBias")],["C29"])
# --- PartsCodec
m("BB50","PartsCodec","Field.val","path shares the fragment's bit",[("  | .path => 6","  | .path => 5")],["C35","C36"])
m("BB51","PartsCodec","fieldLast","33 bits asked of a 32-bit set",[("def fieldLast : Nat := 32","def fieldLast : Nat := 4")],["C35","C36"])
m("BB52","PartsCodec","Store.clear","the store keeps its contents",[("{ st with chars := [] }","st")],["C35","C36"])
m("BB53","PartsCodec","visitOpt","null views are visited",[("  if v.ptr ≠ 0 then f v 0 fld st else .ok (v, st)","  if v.chars ≠ [] then f v 0 fld st else .ok (v, st)")],[])
m("BB54","PartsCodec","isNotDot","labels end at a hyphen",[("def isNotDot (c : Nat) : Bool := c != 0x2E","def isNotDot (c : Nat) : Bool := c != 0x2D")],["C34"])
m("BB55","PartsCodec","punyDecodedSize","size 0 when something was encoded",[("(if anyEncoded then out.length else 0)","(if anyEncoded then 0 else out.length)")],["C36"])
m("BB56","PartsCodec","entry","only paths have an index of 0",[("if index = 0 ∨ fld = .path then","if index = 0 then")],["C35","C36"])
m("BB57","PartsCodec","encodedSize","the host is percent-encoded",[("  if fld = .host then punyEncodedSize s else pctEncodedSize s (encSetOf fld)","  pctEncodedSize s (encSetOf fld)")],["C35"])
m("BB58","PartsCodec","encodeSize","the size is not added up",[("{ required := st.required + extra, bits := setBit st.bits (bitPos fld index) extra })\n\n/-- `assert","{ required := extra, bits := setBit st.bits (bitPos fld index) extra })\n\n/-- `assert")],["C35"])
m("BB59","PartsCodec","Store.pushBack","prepends",[("{ st with chars := st.chars ++ [c] }","{ st with chars := c :: st.chars }")],["C35","C36"])
# --- Rule, Base
m("BB60","Base","isDigitB","':' is a digit",[("decide (0x30 ≤ c.toNat) && decide (c.toNat ≤ 0x39)\n\n/-- Hex","decide (0x30 ≤ c.toNat) && decide (c.toNat ≤ 0x3A)\n\n/-- Hex")],["C01"])
m("BB61","Base","toLowerB","'Z' stays",[("if 0x41 ≤ c.toNat ∧ c.toNat ≤ 0x5A then UInt8.ofNat","if 0x41 ≤ c.toNat ∧ c.toNat < 0x5A then UInt8.ofNat")],["C11"])
m("BB62","Base","ctypeOk","EOF not allowed",[("  !pl.charSigned || decide (c.toNat < 0x80) || decide (c.toNat = 0xFF)","  !pl.charSigned || decide (c.toNat < 0x80)")],["C09"])
m("BB63","Base","SV.null","not the null address",[("def null : SV := ⟨0, []⟩","def null : SV := ⟨1, []⟩")],["C08"])
# --- Grammar
m("BB70","Grammar","commercialAt","'A'",[("def commercialAt (pl : Plat) : Mt := singleCodePoint pl 0x40","def commercialAt (pl : Plat) : Mt := singleCodePoint pl 0x41")],["C01"])
m("BB71","Grammar","plus","','",[("def plus (pl : Plat) : Mt := singleCodePoint pl 0x2B","def plus (pl : Plat) : Mt := singleCodePoint pl 0x2C")],["C01"])
m("BB72","Grammar","digitFive","'4'",[("def digitFive (pl : Plat) : Mt := singleCodePoint pl 0x35","def digitFive (pl : Plat) : Mt := singleCodePoint pl 0x34")],["C12"])
m("BB73","Grammar","notColon","asks for a colon",[("| c :: _ => if c ≠ 0x3A then","| c :: _ => if c = 0x3A then")],["C12"])
m("BB74","Grammar","pchar","no '@'",[("alternative [unreserved pl, pctEncoded pl, subDelims, colon pl, commercialAt pl] r >>= matched r","alternative [unreserved pl, pctEncoded pl, subDelims, colon pl] r >>= matched r")],["C02"])
m("BB75","Grammar","regNameElem","no sub-delims",[("alternative [unreserved pl, pctEncoded pl, subDelims] r1 >>= matched r1","alternative [unreserved pl, pctEncoded pl] r1 >>= matched r1")],["C02"])
m("BB76","Grammar","octet1","two digits only",[("concat (digitOne pl) r2 >>= concat (digit pl) >>= concat (digit pl) >>= matched r2","concat (digitOne pl) r2 >>= concat (digit pl) >>= matched r2")],["C12"])
m("BB77","Grammar","ipv6r2","four groups",[("concat (colonColon pl) r2 >>= star (h16Colon pl) 5 5","concat (colonColon pl) r2 >>= star (h16Colon pl) 4 4")],["C12"])
m("BB78","Grammar","ipv6r4","up to two groups in front",[("optional (h16Prefix pl 1) r4","optional (h16Prefix pl 2) r4")],["C12"])
m("BB79","Grammar","ipv6r6","no single group",[("optional (h16Prefix pl 3) r6 >>= concat (colonColon pl) >>= concat (h16Colon pl) >>=","optional (h16Prefix pl 3) r6 >>= concat (colonColon pl) >>=")],["C12"])
m("BB80","Grammar","ipv6r8","up to six groups in front",[("optional (h16Prefix pl 5) r8","optional (h16Prefix pl 6) r8")],["C12"])
m("BB81","Grammar","ipvfutureElem","no ':'",[("alternative [unreserved pl, subDelims, colon pl] r1 >>= matched r1","alternative [unreserved pl, subDelims] r1 >>= matched r1")],["C12"])
m("BB82","Grammar","colonPort","the port is not recorded",[("concat (colon pl) r >>= concatA (port pl) .setPort >>= matched r","concat (colon pl) r >>= concat (port pl) >>= matched r")],["C01"])
m("BB83","Grammar","pathRootless","the first segment is not recorded",[("concatA (segmentNz pl) .recordInitial r >>= star (slashSegment pl false) 0 uintMax >>= matched r\n\n","concat (segmentNz pl) r >>= star (slashSegment pl false) 0 uintMax >>= matched r\n\n")],["C01"])
m("BB84","Grammar","pathNoscheme","a colon allowed",[("concatA (segmentNzNc pl) .recordInitial r","concatA (segmentNz pl) .recordInitial r")],["C03"])
m("BB85","Grammar","questionQuery","recorded as the fragment",[("concatA (query pl) .setQuery","concatA (query pl) .setFragment")],["C01"])
m("BB86","Grammar","relativeRef","no fragment",[("concat (relativePart pl) r >>= optional (questionQuery pl) >>= optional (hashFragment pl) >>=\n    matched r","concat (relativePart pl) r >>= optional (questionQuery pl) >>=\n    matched r")],["C03"])
m("BB87","Grammar","pathAbsoluteTail","the segment may be empty",[("concatA (segmentNz pl) .appendSegment r1 >>= star (slashSegment pl false)","concatA (segment pl) .appendSegment r1 >>= star (slashSegment pl false)")],["C01"])
m("BB88","Grammar","authAbempty","one slash",[("concat (solidus pl) r >>= concat (solidus pl) >>= concat (authority pl) >>=","concat (solidus pl) r >>= concat (authority pl) >>=")],["C01"])
m("BB89","Grammar","userinfo","not empty",[("star (userinfoElem pl) 0 uintMax r","star (userinfoElem pl) 1 uintMax r")],["C02"])
m("BB90","Grammar","h16h16","one group",[("concat (h16 pl) r1 >>= concat (colon pl) >>= concat (h16 pl) >>= matched r1","concat (h16 pl) r1 >>= matched r1")],["C12"])
