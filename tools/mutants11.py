MUTANTS = []
def m(id, file, definition, what, edits, breaks):
    MUTANTS.append(dict(id=id, file=file, definition=definition, what=what, edits=edits, breaks=breaks))
# --- InPlace (C92)
m("FF01","InPlace","copyLoop","the iterator is incremented before the assignment",[("        writeAt m out c >>= fun m =>\n        pctIncrement m pos last >>= fun pos => copyLoop last fuel m pos (out + 1)","        pctIncrement m pos last >>= fun pos =>\n        writeAt m out c >>= fun m => copyLoop last fuel m pos (out + 1)")],["C92"])
m("FF02","InPlace","copyLoop","the output moves by two",[("copyLoop last fuel m pos (out + 1)","copyLoop last fuel m pos (out + 2)")],["C92"])
m("FF03","InPlace","postLoop","the character is read after the assignment of the one before",[("        pctIncrement m pos last >>= fun next =>\n        pctDeref m pos last >>= fun c =>\n        writeAt m out c >>= fun m => postLoop last fuel m next (out + 1)","        pctDeref m pos last >>= fun c =>\n        writeAt m out c >>= fun m =>\n        pctIncrement m pos last >>= fun next => postLoop last fuel m next (out + 1)")],["C92"])
m("FF04","InPlace","writeEncoded","the low digit is written first",[("    dec2hex ((c.toNat >>> 4) &&& 0xF) >>= fun hi =>\n    writeAt m (out + 1) hi","    dec2hex ((c.toNat >>> 4) &&& 0xF) >>= fun hi =>\n    writeAt m (out + 2) hi"),("    writeAt m (out + 2) lo >>=","    writeAt m (out + 1) lo >>=")],["C92"])
m("FF05","InPlace","encodeLoop","the character is read one ahead",[("        readAt m first >>= fun c =>","        readAt m (first + 1) >>= fun c =>")],["C92"])
m("FF06","InPlace","writeAt","writing at the end of memory is let through",[("  if pos < m.length then .ok (m.set pos c) else .error .outOfRange","  if pos ≤ m.length then .ok (m.set pos c) else .error .outOfRange")],[])
m("FF07","InPlace","writeEncoded","the iterator is not moved past the digits",[(".ok (m, out + 3)",".ok (m, out + 1)")],["C92"])
# --- IcuInPlace (C94)
m("FF20","IcuInPlace","feedLoop","the output goes on where the text is read",[("feedLoop T last fuel p.1 q.1 (first + 1) q.2","feedLoop T last fuel p.1 q.1 (first + 1) (first + 1)")],["C94"])
m("FF21","IcuInPlace","putAll","written from the last to the first",[("put m out c >>= fun m => putAll m (out + 1) cs","putAll m (out + 1) cs >>= fun r => put r.1 out c >>= fun m => .ok (m, out + 1)")],["C94"])
m("FF22","IcuInPlace","runAt","end_cp is left out",[("    T.endCp r.1 >>= fun p => putAll r.2.1 r.2.2 p.2 >>= fun q => .ok (p.1, q.1, q.2)","    .ok (r.1, r.2.1, r.2.2)")],["C94"])
m("FF23","IcuInPlace","fill","end_cp when one code unit is left",[("if p.2.1 = last then T.endCp p.1","if p.2.1 + 1 = last then T.endCp p.1")],["C94"])
m("FF24","IcuInPlace","copyLoop","incremented before the assignment",[("put m out c >>= fun m => incr T cap last m it >>= fun it => copyLoop fuel m it (out + 1)","incr T cap last m it >>= fun it => put m out c >>= fun m => copyLoop fuel m it (out + 1)")],["C94"])
m("FF25","IcuInPlace","fillLoop","the next code unit is skipped",[("        else .ok (p.1, pos + 1, p.2)","        else .ok (p.1, pos + 2, p.2)")],["C94"])
m("FF26","IcuInPlace","incr","the rest of the character is dropped",[("if b.isEmpty then fill T cap last m { it with buf := b } else","if true then fill T cap last m { it with buf := [] } else")],["C94"])
m("FF27","IcuInPlace","fill","well_formed_ is overwritten",[("parentWf := it.parentWf && T.wellFormed q.1 }","parentWf := T.wellFormed q.1 }")],[])
m("FF28","IcuInPlace","viewBegin","nothing is read for the first character",[("if first = last then .ok it else fill T cap last m it","if true then .ok it else fill T cap last m it")],["C94"])
m("FF29","IcuInPlace","fillLoop","two code units are read at a time",[("        else if p.2.isEmpty then fillLoop m fuel p.1 (pos + 1)","        else if p.2.isEmpty then fillLoop m fuel p.1 (pos + 2)")],["C94"])
# --- Uri (C93)
m("FF40","Uri","merge","the reference is added twice",[("segments := base.path.segments.take last ++ ref.path.segments }","segments := base.path.segments.take last ++ ref.path.segments ++ ref.path.segments }")],["C93"])
m("FF41","Uri","merge","an empty segment is put in between",[("segments := base.path.segments.take last ++ ref.path.segments }","segments := base.path.segments.take last ++ SV.null :: ref.path.segments }")],["C93"])
m("FF42","Uri","merge","no segment of the base is dropped",[("    let last := if base.path.segments.length > 1 then base.path.segments.length - 1\n                else","    let last := if base.path.segments.length > 1 then base.path.segments.length\n                else")],["C93"])
m("FF43","Uri","Path.removeDotSegments","an empty segment is always added",[("    | some b => if !b.chars.isEmpty then { p with segments := segs ++ [SV.null] }\n                else { p with segments := segs }\n  else { p with segments := segs }","    | some b => if !b.chars.isEmpty then { p with segments := segs ++ [SV.null] }\n                else { p with segments := segs ++ [SV.null] }\n  else { p with segments := segs ++ [SV.null] }")],["C93"])
m("FF44","Uri","join","the query of the base is kept beside that of the reference's path",[("              path := (merge base reference).removeDotSegments,\n              query := reference.query","              path := (merge base reference).removeDotSegments,\n              query := if reference.query.isSome then reference.query else base.query")],["C85"])
m("FF45","Uri","compose","two slashes before a path that has none",[("(if !p.path.empty && !p.path.absolute then b! \"/\" else [])","(if !p.path.empty && !p.path.absolute then b! \"//\" else [])")],["C93"])
m("FF46","Uri","join","the fragment of the base is kept",[("              query := if reference.query.isSome then reference.query else base.query,\n              fragment := reference.fragment }","              query := if reference.query.isSome then reference.query else base.query,\n              fragment := if reference.fragment.isSome then reference.fragment else base.fragment }")],["C85"])
m("FF47","Uri","merge","one segment is enough to drop the last",[("base.path.segments.length > 1 then","base.path.segments.length > 0 then")],["C93"])
# --- Icubaby (C95, C90)
m("FF60","Icubaby","fillLoop","reads on after a character of one code unit",[("      else if o.isEmpty then fillLoop st s\n","      else if o.length ≤ 1 && !s.isEmpty then fillLoop st s\n")],["C95"])
m("FF61","Icubaby","ViewIt.incr","fills whenever it is incremented",[("if b.isEmpty then fill T cap { it with buf := b } else","if true then fill T cap { it with buf := [] } else")],["C95"])
m("FF62","Icubaby","endCp16to32","writes two replacement characters",[("{ high := 0, hasHigh := false, wf := false }, [replacementChar]) else .ok (st, [])","{ high := 0, hasHigh := false, wf := false }, [replacementChar, replacementChar]) else .ok (st, [])")],["C90"])
m("FF63","Icubaby","step16to32","a high surrogate after another is swallowed",[("    .ok ({ st with high := h % 2 ^ 10, wf := false }, [replacementChar])","    .ok ({ st with high := h % 2 ^ 10, wf := false }, [])")],["C95"])
