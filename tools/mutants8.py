MUTANTS = []
def m(id, file, definition, what, edits, breaks):
    MUTANTS.append(dict(id=id, file=file, definition=definition, what=what, edits=edits, breaks=breaks))
# --- SinglePass
m("CC01","SinglePass","fillShared","current_ is a position of its own",[("  .ok { it with current := it.next }","  .ok it")],["C76"])
m("CC02","SinglePass","sharedBegin","the first element is not fetched",[("if s.isEmpty then .ok it else fillShared T cap it","if s.isEmpty then fillShared T cap it else .ok it")],["C76"])
m("CC03","SinglePass","sharedIncr","fills too early",[("if b.isEmpty then fillShared T cap { it with buf := b } else .ok { it with buf := b }","if !b.isEmpty then fillShared T cap { it with buf := b } else .ok { it with buf := b }")],["C76"])
m("CC04","SinglePass","sharedLoop","ends when the buffer is empty",[("      if it.atEnd then .ok (it, [])","      if it.buf.isEmpty then .ok (it, [])")],["C76"])
m("CC05","SinglePass","sharedRun","well_formed () always true",[(".ok (cs, it.parentWf)",".ok (cs, true)")],["C76"])
# --- Threads, views
m("CC10","Threads","View.fill","the flag is written each time",[("if T.wellFormed r.tr then [] else [⟨t, .flag, true⟩]","[⟨t, .flag, true⟩]")],["C77"])
m("CC11","Threads","View.fill","the write of the flag is a read",[("if T.wellFormed r.tr then [] else [⟨t, .flag, true⟩]","if T.wellFormed r.tr then [] else [⟨t, .flag, false⟩]")],["C77"])
m("CC12","Threads","View.incr","the iterator is only read",[(".ok (r, ⟨t, .it i, true⟩ :: l)",".ok (r, ⟨t, .it i, false⟩ :: l)"),(".ok ({ it with buf := b }, [⟨t, .it i, true⟩])",".ok ({ it with buf := b }, [⟨t, .it i, false⟩])")],["C77"])
m("CC13","Threads","View.step","* writes the iterator",[("      .ok (w, [⟨t, .it i, false⟩], .element c)","      .ok (w, [⟨t, .it i, true⟩], .element c)")],["C77"])
m("CC14","Threads","View.step","well_formed () writes the flag",[("  | .wellFormed => .ok (w, [⟨t, .flag, false⟩], .truth w.wf)","  | .wellFormed => .ok (w, [⟨t, .flag, true⟩], .truth w.wf)")],["C77"])
m("CC15","Threads","View.step","begin () sets the flag again",[("      .ok ({ wf := it.parentWf, its := w.its ++ [it] }, ⟨t, .it w.its.length, true⟩ :: l, .nothing)","      .ok ({ wf := true, its := w.its ++ [it] }, ⟨t, .it w.its.length, true⟩ :: l, .nothing)")],["C77"])
m("CC16","Threads","View.step","++ moves another iterator",[("      .ok ({ wf := it.parentWf, its := w.its.set i it }, l, .nothing)","      .ok ({ wf := it.parentWf, its := w.its.set 0 it }, l, .nothing)")],["C77"])
m("CC17","Threads","View.step","a copy writes the original",[("[⟨t, .it i, false⟩, ⟨t, .it w.its.length, true⟩], .nothing)","[⟨t, .it i, true⟩, ⟨t, .it w.its.length, true⟩], .nothing)")],["C77"])
m("CC18","Threads","View.run","the accesses of later operations are dropped",[("      let (w, ls, vs) ← run w ops\n      .ok (w, l ++ ls, v :: vs)\n\n/-- The threads","      let (w, _, vs) ← run w ops\n      .ok (w, l, v :: vs)\n\n/-- The threads")],["C77"])
# --- Threads, percent decoding
m("CC20","Threads","Pct.step","* does not write hex_",[("⟨t, .it i, false⟩ :: (reads t o.pos n ++ [⟨t, .hex i, true⟩])","⟨t, .it i, false⟩ :: (reads t o.pos n ++ [⟨t, .hex i, false⟩])")],["C77"])
m("CC21","Threads","Pct.step","++ writes hex_ of another",[("reads t o.pos n ++ [⟨t, .it i, true⟩], none)","reads t o.pos n ++ [⟨t, .it i, true⟩, ⟨t, .hex 0, true⟩], none)")],["C77"])
m("CC22","Threads","Pct.step","* yields what was stored before",[("⟨t, .hex i, true⟩]), some v)","⟨t, .hex i, true⟩]), some o.hex)")],["C77"])
m("CC23","Threads","Pct.step","* writes hex_ always",[("          .ok (w, ⟨t, .it i, false⟩ :: reads t o.pos n, some c)","          .ok (w, ⟨t, .it i, false⟩ :: reads t o.pos n ++ [⟨t, .hex i, true⟩], some c)")],["C77"])
m("CC24","Threads","Pct.step","++ forgets the position",[(".ok (w.set i { o with pos := pos }, reads",".ok (w.set i { o with pos := o.pos + 1 }, reads")],["C77"])
# --- Views
m("CC30","Views","Many.step","a copy starts anew",[(".ok { w with wfs := w.wfs ++ [b] }",".ok { w with wfs := w.wfs ++ [true] }")],["C79"])
m("CC31","Views","Many.step","begin () updates the first view",[("{ wfs := w.wfs.set v it.parentWf, its","{ wfs := w.wfs.set 0 it.parentWf, its")],["C79"])
m("CC32","Views","Many.step","++ updates the first view",[("{ wfs := w.wfs.set it.1 it'.parentWf, its","{ wfs := w.wfs.set 0 it'.parentWf, its")],["C79"])
m("CC33","Views","Many.same","the view is not compared",[("a.2.eq b.2 && a.1 == b.1","a.2.eq b.2")],["C79"])
m("CC34","Views","Many.isEnd","the view is not compared",[("a.2.atEnd && a.1 == v","a.2.atEnd")],["C79"])
m("CC35","Views","Many.step","assigning keeps the view",[("      let _ ← w.get i\n      let it ← w.get j\n      .ok { w with its := w.its.set i it }","      let old ← w.get i\n      let it ← w.get j\n      .ok { w with its := w.its.set i (old.1, it.2) }")],["C79"])
m("CC36","Views","Many.step","++ does not look at the flag of its view",[("{ it.2 with parentWf := b }.incr","{ it.2 with parentWf := true }.incr")],["C79"])
m("CC37","Views","useViews","a new view is not well formed",[("wfs := [true]","wfs := [false]")],["C79"])
m("CC38","Views","Many.step","a copied iterator points to the first view",[("      let it ← w.get i\n      .ok { w with its := w.its ++ [it] }","      let it ← w.get i\n      .ok { w with its := w.its ++ [(0, it.2)] }")],["C79"])
# --- OutIter
m("CC40","OutIter","World.step","it++ moves the adaptor",[("  | .post i c => x.get i >>= fun p => x.call D p (T.step x.st c) >>= fun y => .ok ⟨y.1, y.2.1, x.its⟩","  | .post i c => x.get i >>= fun p => x.call D p (T.step x.st c) >>= fun y => .ok ⟨y.1, y.2.1, x.its.set i y.2.2⟩")],["C81"])
m("CC41","OutIter","World.step","out_ is not kept",[("  | .assign i c => x.get i >>= fun p => x.call D p (T.step x.st c) >>= fun y => .ok ⟨y.1, y.2.1, x.its.set i y.2.2⟩","  | .assign i c => x.get i >>= fun p => x.call D p (T.step x.st c) >>= fun y => .ok ⟨y.1, y.2.1, x.its⟩")],["C81"])
m("CC42","OutIter","World.step","end_cp returns its argument",[("(T.endCp x.st) >>= fun y => .ok ⟨y.1, y.2.1, x.its.set i y.2.2⟩","(T.endCp x.st) >>= fun y => .ok ⟨y.1, y.2.1, x.its⟩")],["C81"])
m("CC43","OutIter","pointer","writes at the end",[("if p < w.length then","if p ≤ w.length then")],["C81"])
m("CC44","OutIter","appender","puts it in front",[(".ok (w ++ [c], ())",".ok (c :: w, ())")],["C81"])
m("CC45","OutIter","putAll","one unit only",[("D.put w p c >>= fun x => putAll D x.1 x.2 cs","D.put w p c >>= fun x => .ok x")],["C81"])
m("CC46","OutIter","World.step","end_cp is not called",[("x.call D p (T.endCp x.st)","x.call D p (.ok (x.st, []))")],["C81"])
m("CC47","OutIter","World.step","the transcoder of a copy is new",[("  | .copy i => x.get i >>= fun p => .ok { x with its := x.its ++ [p] }","  | .copy i => x.get i >>= fun p => .ok { x with st := T.init, its := x.its ++ [p] }")],["C81"])
m("CC48","OutIter","World.step","assignment the other way round",[("fun p => .ok { x with its := x.its.set i p }","fun p => .ok { x with its := x.its.set j p }")],["C81"])
m("CC49","OutIter","World.step","the state is not kept",[("  | .post i c => x.get i >>= fun p => x.call D p (T.step x.st c) >>= fun y => .ok ⟨y.1,","  | .post i c => x.get i >>= fun p => x.call D p (T.step x.st c) >>= fun y => .ok ⟨x.st,")],["C81"])
# --- Rule
m("CC50","Rule","singleChar","case matters",[("singleCharP (fun d => do return c2 == (← tolower pl d)) r","singleCharP (fun d => do let _ ← tolower pl d; return c2 == d) r")],["C80"])
m("CC51","Rule","charRange","the upper bound excluded",[("decide (cl.toNat ≤ l.toNat)) r","decide (cl.toNat < l.toNat)) r")],["C80"])
m("CC52","Rule","charRange","bounds are not lower-cased",[("  let f ← tolower pl first\n","  let f ← (do let _ ← tolower pl first; return first : M UInt8)\n")],["C80"])
m("CC53","Rule","alpha","digits too",[("singleCharP (isalpha pl) r","singleCharP (isalnum pl) r")],["C80"])
m("CC54","Rule","hexdig","digits only",[("singleCharP (isxdigit pl) r","singleCharP (isdigit pl) r")],["C80"])
m("CC55","Base","toLowerB","'Z' stays (as BB61)",[("if 0x41 ≤ c.toNat ∧ c.toNat ≤ 0x5A then UInt8.ofNat","if 0x41 ≤ c.toNat ∧ c.toNat < 0x5A then UInt8.ofNat")],["C80"])
m("CC56","Base","SV.null","not the null address (as BB63)",[("def null : SV := ⟨0, []⟩","def null : SV := ⟨1, []⟩")],["C08","C18","C56"])
m("CC57","Pct","EncSet.none","as BB34",[("def none : UInt8 := 0\n","def none : UInt8 := 1\n")],["C22","C23","C24"])
