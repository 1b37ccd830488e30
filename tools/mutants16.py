MUTANTS = []
def m(id, file, definition, what, edits, breaks):
    MUTANTS.append(dict(id=id, file=file, definition=definition, what=what, edits=edits, breaks=breaks))
# --- containment (C112)
m("KK01","Uri","rdsLoop",".. removes two segments",[("(if outit ≠ 0 then outit - 1 else outit) true v","(if outit ≠ 0 then outit - 2 else outit) true v")],["C112"])
m("KK02","Uri","rdsLoop",". removes a segment",[("if g.chars = b! \".\" then rdsLoop n (it + 1) outit true v","if g.chars = b! \".\" then rdsLoop n (it + 1) (outit - 1) true v")],["C112"])
m("KK03","Uri","rdsLoop","... is taken for ..",[("else if g.chars = b! \"..\" then","else if g.chars = b! \"..\" ∨ g.chars = b! \"...\" then")],["C112"])
m("KK04","Uri","rdsLoop",". is kept as an ordinary segment and .. removes it",[("if g.chars = b! \".\" then rdsLoop n (it + 1) outit true v","if g.chars = b! \",\" then rdsLoop n (it + 1) outit true v")],["C112"])
m("KK05","Uri","rdsLoop","segments are not moved down",[("(if outit ≠ it then v.set outit g else v)","v")],["C112"])
m("KK06","Uri","merge","the path of the base is not used",[("segments := base.path.segments.take last ++ ref.path.segments }","segments := ref.path.segments }")],["C112"])
m("KK07","Uri","merge","one segment of the base too few is kept",[("then base.path.segments.length - 1\n","then base.path.segments.length - 2\n")],["C112"])
m("KK08","Uri","merge","the last segment of the base is kept",[("then base.path.segments.length - 1\n","then base.path.segments.length\n")],["C112"])
m("KK09","Uri","join","the authority of the base is lost for a relative path",[("            { scheme := base.scheme, authority := base.authority,\n              path := (merge","            { scheme := base.scheme, authority := none,\n              path := (merge")],["C112"])
m("KK10","Uri","Path.removeDotSegments","one segment too many is removed at the end",[("let segs := v.take outit","let segs := v.take (outit - 1)")],["C112"])
# --- readers (C113)
m("KK30","Grammar","userinfoElem","a userinfo may contain @",[("[unreserved pl, pctEncoded pl, subDelims, colon pl] r2","[unreserved pl, pctEncoded pl, subDelims, colon pl, commercialAt pl] r2")],["C113"])
# --- lists (C114)
m("KK31","Grammar","regNameElem","a name may contain a colon",[("[unreserved pl, pctEncoded pl, subDelims] r1","[unreserved pl, pctEncoded pl, subDelims, colon pl] r1")],["C113"])
m("KK32","Grammar","authority","the port is looked for before the host",[("optional (userinfoAt pl) r >>= concat (hostRule pl) >>= optional (colonPort pl)","optional (userinfoAt pl) r >>= optional (colonPort pl) >>= concat (hostRule pl)")],["C113"])
m("KK33","Grammar","colonPort","the port is reported as userinfo",[("concatA (port pl) .setPort","concatA (port pl) .setUserinfo")],["C113"])
m("KK40","Pct","needsSmall","capital letters are looked up where small ones are skipped",[("if c ≤ 0x7A - (0x21 + 10 + 26) then false","if c ≤ 0x79 - (0x21 + 10 + 26) then false")],["C114"])
m("KK41","Pct","encodeTable","component does not encode the ampersand",[("0b01000000, 0b01111111, 0b01111110, 0b01100000, 0b11111111, 0b01100000,","0b01000000, 0b01111111, 0b01111110, 0b01100000, 0b11111111, 0b00000000,")],["C114"])
m("KK42","Pct","needsPctencodeB","the digit 9 is encoded where the table says so",[("if c ≤ 0x39 - 0x21 then false","if c < 0x39 - 0x21 then false")],["C114"])
m("KK43","Pct","encodeTable","component does not encode the percent sign",[("0b01100000, 0b11111111, 0b01100000","0b01100000, 0b00011111, 0b01100000")],["C114"])
m("KK44","Pct","dec2hex","hexadecimal digits above 9 are off by one",[("(if v < 10 then 0x30 else 0x41 - 10)","(if v < 10 then 0x30 else 0x41 - 9)")],["C114"])
