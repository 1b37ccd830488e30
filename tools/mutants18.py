MUTANTS = []
def m(id, file, definition, what, edits, breaks):
    MUTANTS.append(dict(id=id, file=file, definition=definition, what=what, edits=edits, breaks=breaks))
# --- appended text, templates (C118-C120)
m("MM01","Grammar","queryElem","a query may not contain a question mark",[("alternative [pchar pl, solidus pl, questionMark pl] r2","alternative [pchar pl, solidus pl] r2")],["C118"])
m("MM02","Grammar","fragment","a fragment may contain #",[("def fragment (pl : Plat) : Mt := fun r => query pl r","def fragment (pl : Plat) : Mt := fun r => star (fun r2 => alternative [pchar pl, solidus pl, questionMark pl, hash pl] r2 >>= matched r2) 0 uintMax r >>= matched r")],["C118"])
m("MM03","Grammar","host","a name is tried before an IPv4 address",[("alternative [ipLiteral pl, ipv4address pl, regName pl] r","alternative [ipLiteral pl, regName pl, ipv4address pl] r")],["C120"])
m("MM04","Pct","needsPctencodeB","the characters up to @ are not encoded",[("if c ≤ 0x39 - 0x21 then false","if c ≤ 0x40 - 0x21 then false")],["C119","C120"])
m("MM05","Pct","pctencodeM","space is not encoded",[("if c ≤ 0x20 || c > 0x7E then true","if c < 0x20 || c > 0x7E then true")],["C119"])
m("MM06","Grammar","questionQuery","the query is reported as fragment",[("concatA (query pl) .setQuery","concatA (query pl) .setFragment")],["C118","C119"])
m("MM07","Grammar","URI","the fragment is looked for before the query",[("concatA (scheme pl) .setScheme r >>= concat (colon pl) >>= concat (hierPart pl) >>=\n    optional (questionQuery pl) >>= optional (hashFragment pl)","concatA (scheme pl) .setScheme r >>= concat (colon pl) >>= concat (hierPart pl) >>=\n    optional (hashFragment pl) >>= optional (questionQuery pl)")],["C118"])
# --- moved documents (C121)
m("MM20","Uri","merge","both segments of a path of two are kept",[("let last := if base.path.segments.length > 1 then","let last := if base.path.segments.length > 2 then")],["C121"])
m("MM21","Uri","rdsLoop",".. at the end names a file",[("(if outit ≠ 0 then outit - 1 else outit) true v","(if outit ≠ 0 then outit - 1 else outit) false v")],["C17"])
m("MM22","Uri","rdsLoop",".. takes back only from the second segment on",[("(if outit ≠ 0 then outit - 1 else outit) true v","(if outit > 1 then outit - 1 else outit) true v")],["C121"])
