MUTANTS = []
def m(id, file, definition, what, edits, breaks):
    MUTANTS.append(dict(id=id, file=file, definition=definition, what=what, edits=edits, breaks=breaks))
# --- staying on the server (C117)
m("LL01","Uri","join","the authority of a reference is ignored",[("{ scheme := base.scheme, authority := some a,","{ scheme := base.scheme, authority := base.authority,")],["C117"])
m("LL02","Uri","join","an absolute path drops the authority of the base",[("          else if reference.path.absolute then\n            { scheme := base.scheme, authority := base.authority,","          else if reference.path.absolute then\n            { scheme := base.scheme, authority := none,")],["C117"])
m("LL03","Uri","join","an empty reference drops the authority of the base",[("{ scheme := base.scheme, authority := base.authority, path := base.path,","{ scheme := base.scheme, authority := none, path := base.path,")],["C117"])
m("LL04","Uri","join","the scheme of the base is not copied with the authority of the reference",[("{ scheme := base.scheme, authority := some a,","{ scheme := none, authority := some a,")],["C107","C117"])
m("LL05","Grammar","relativePart","an absolute path is tried before two slashes",[("[authAbempty pl, pathAbsolute pl, pathNoscheme pl, pathEmpty pl]","[pathAbsolute pl, authAbempty pl, pathNoscheme pl, pathEmpty pl]")],["C115","C117"])
m("LL06","Grammar","segmentNzNcElem","a colon is accepted in the first segment of a reference",[("[unreserved pl, pctEncoded pl, subDelims, commercialAt pl] r2 >>= matched r2\n\n/-- uri.cpp:465","[unreserved pl, pctEncoded pl, subDelims, commercialAt pl, colon pl] r2 >>= matched r2\n\n/-- uri.cpp:465")],["C117"])
# --- texts that begin alike, and cut short (C115, C116)
m("LL10","Grammar","pctEncoded","one hexadecimal digit is enough",[("concat (percentSign pl) r >>= concat (hexdig pl) >>= concat (hexdig pl) >>= matched r","concat (percentSign pl) r >>= concat (hexdig pl) >>= optional (hexdig pl) >>= matched r")],["C116"])
m("LL11","Grammar","pathAbempty","a path behind an authority has at least one slash",[("star (slashSegment pl true) 0 uintMax r >>= matched r\n\n/-- uri.cpp:536","star (slashSegment pl true) 1 uintMax r >>= matched r\n\n/-- uri.cpp:536")],["C116"])
m("LL12","Grammar","questionQuery","a query is not empty",[("concat (questionMark pl) r >>= concatA (query pl) .setQuery","concat (questionMark pl) r >>= concatA (fun r => star (queryElem pl) 1 uintMax r >>= matched r) .setQuery")],["C116"])
m("LL13","Grammar","slashSegment","segments behind a slash are not empty",[("concatA (solidus pl) (.appendDir isAbs) r2 >>= concatA (segment pl) .appendSegment","concatA (solidus pl) (.appendDir isAbs) r2 >>= concatA (segmentNz pl) .appendSegment")],["C115","C116"])
m("LL14","Grammar","authAbempty","the authority behind two slashes is optional",[("concat (solidus pl) r >>= concat (solidus pl) >>= concat (authority pl)","concat (solidus pl) r >>= concat (solidus pl) >>= optional (authority pl)")],[])
m("LL15","Grammar","pchar","a backslash is accepted in a path",[("[unreserved pl, pctEncoded pl, subDelims, colon pl, commercialAt pl] r >>= matched r","[unreserved pl, pctEncoded pl, subDelims, colon pl, commercialAt pl, singleCodePoint pl 0x5C] r >>= matched r")],["C117"])
