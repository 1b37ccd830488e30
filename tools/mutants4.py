MUTANTS = []
def m(id, file, definition, what, edits, breaks):
    MUTANTS.append(dict(id=id, file=file, definition=definition, what=what, edits=edits, breaks=breaks))
# --- Tool, once more (C60_messages)
m("T12b","Tool","message","messages exchanged",[("if error = 1 then b! \"bad input\"","if error = 2 then b! \"bad input\""),("else if error = 2 then b! \"overflow\"","else if error = 1 then b! \"overflow\"")],["C60"])
# --- Alias
m("A01","Alias","Store.touches","a view that begins before the store's memory is taken to be outside",[("decide (v.ptr < st.addr + st.cap) && decide (st.addr < v.ptr + v.chars.length)","decide (v.ptr < st.addr + st.cap) && decide (st.addr ≤ v.ptr)")],["C67"])
m("A02","Alias","Store.touches","compared with the size (0 after clear), not the capacity",[("decide (v.chars.length ≠ 0 ∧ st.cap ≠ 0) && decide (v.ptr < st.addr + st.cap)","decide (v.chars.length ≠ 0 ∧ st.cap ≠ 0) && decide (v.ptr < st.addr + st.chars.length)")],["C67"])
m("A03","Alias","guarded","the guard tests the wrong way round",[("if dead st str then .error .dangling else f str index fld st","if dead st str then f str index fld st else .error .dangling")],["C67"])
m("A04","Alias","encodeAny","the store is not cleared before the first pass",[("  let store := store.clear\n  let (result, st) ← partsStrings (guarded (fun _ => store.touches) encodeSize)","  let (result, st) ← partsStrings (guarded (fun _ => store.touches) encodeSize)")],["C67"])
m("A05","Alias","encodeAny","first pass reads without a guard",[("partsStrings (guarded (fun _ => store.touches) encodeSize)","partsStrings (guarded (fun _ _ => false) encodeSize)"),("guarded (fun _ v => store.touches v || store'.touches v) (encodeWrite hp st.bits)","guarded (fun _ v => false) (encodeWrite hp st.bits)")],["C67"])
m("A06","Alias","decodeAny","goes on reading after an error",[("(fun s v => s.error.isNone && store.touches v)","(fun _ v => store.touches v)")],["C67"])
m("A07","Alias","decodeAny","first pass reads without a guard",[("(fun s v => s.error.isNone && store.touches v)","(fun _ _ => false)"),("guarded (fun _ v => store.touches v || store'.touches v) (decodeWrite hp st.bits)","guarded (fun _ v => false) (decodeWrite hp st.bits)")],["C67"])
m("A08","Alias","encodeAny","reserve for one character less",[("  let store' := store.reserve hp st.required\n  let (result, store') ← partsStrings (guarded (fun _ v => store.touches v || store'.touches v) (encodeWrite","  let store' := store.reserve hp (st.required - 1)\n  let (result, store') ← partsStrings (guarded (fun _ v => store.touches v || store'.touches v) (encodeWrite")],["C67"])
m("A09","Alias","encodeAny","second pass over p, not over the result of the first",[("(encodeWrite hp st.bits)) result store'","(encodeWrite hp st.bits)) p store'")],[])
# --- Throw
m("W01","Throw","throwing","an exception is swallowed",[("⟨cut k s.val val, s.calls + 1, true⟩","⟨cut k s.val val, s.calls + 1, false⟩")],["C68"])
m("W02","Throw","throwing","calls go on after an exception",[("if s.thrown then .ok (str, s)","if false then .ok (str, s)")],["C68"])
m("W03","Throw","throwing","the number of calls is not counted",[("| none => .ok (v, ⟨val, s.calls + 1, false⟩)","| none => .ok (v, ⟨val, s.calls, false⟩)")],[])
m("W04","Throw","cutStore","what had been written before the call is lost too",[("st'.chars.take (st.chars.length + k)","st'.chars.drop (st.chars.length + k)")],["C68"])
m("W05","Throw","encodeT","the store is cleared only after the first pass, and left so if that throws",[("    let store := store.clear\n    let (result, s) ← partsStrings (throwing (fun n => if t.size n then some 0 else none) (fun _ st _ => st) encodeSize) p ⟨⟨0, fun _ => false⟩, 0, false⟩\n    if s.thrown || (t.reserve && decide (store.cap < s.val.required)) then .ok (none, store)","    let (result, s) ← partsStrings (throwing (fun n => if t.size n then some 0 else none) (fun _ st _ => st) encodeSize) p ⟨⟨0, fun _ => false⟩, 0, false⟩\n    if s.thrown || (t.reserve && decide (store.cap < s.val.required)) then .ok (none, { store with chars := 0x21 :: store.chars })")],["C68"])
m("W06","Throw","encodeT","result returned although the second pass threw",[("      if w.thrown then .ok (none, w.val)\n      else do\n        check (s.val.required == w.val.chars.length)\n        .ok (some result, w.val)","      if w.thrown then .ok (some result, w.val)\n      else do\n        check (s.val.required == w.val.chars.length)\n        .ok (some result, w.val)")],["C68"])
m("W07","Throw","encodeT","sizes of the first pass ignored: reserve 0",[("      let store := store.reserve hp s.val.required\n      let (result, w) ← partsStrings (throwing t.write cutStore (encodeWrite","      let store := store.reserve hp 0\n      let (result, w) ← partsStrings (throwing t.write cutStore (encodeWrite")],["C68"])
m("W08","Throw","decodeT","an error leaves the old contents in the store",[("      | some err => .ok (some (.error err), store)\n      | none => do\n          let (result, w)","      | some err => .ok (some (.error err), { store with chars := [0x21] })\n      | none => do\n          let (result, w)")],["C68"])
m("W09","Throw","decodeT","an exception in the first pass is taken for success",[("    if s.thrown || (t.reserve && decide (store.cap < s.val.required)) then .ok (none, store)\n    else do\n      let store := store.reserve hp s.val.required\n      match","    if (t.reserve && decide (store.cap < s.val.required)) then .ok (none, store)\n    else do\n      let store := store.reserve hp s.val.required\n      match")],["C68"])
m("W10","Throw","encodeT","copy failure after the store was cleared",[("def encodeT (hp : Heap) (t : Throws) (store : Store) (p : Parts SV) : M (Option (Parts SV) × Store) := do\n  if t.copy then .ok (none, store)","def encodeT (hp : Heap) (t : Throws) (store : Store) (p : Parts SV) : M (Option (Parts SV) × Store) := do\n  if t.copy then .ok (none, { store with chars := [0x21] })")],["C68"])
m("W11","Throw","encodeT","reserve throws although the capacity suffices, result lost",[("    if s.thrown || (t.reserve && decide (store.cap < s.val.required)) then .ok (none, store)\n    else do\n      let store := store.reserve hp s.val.required\n      let (result, w) ← partsStrings (throwing t.write cutStore (encodeWrite","    if s.thrown || t.reserve then .ok (none, store)\n    else do\n      let store := store.reserve hp s.val.required\n      let (result, w) ← partsStrings (throwing t.write cutStore (encodeWrite")],[])
# --- PunyCost
m("K01","PunyCost","vliLoop","a turn rescans the digits written (quadratic in digits)",[("tick 1 (if q < clamp k bias then andThen (ret (encodeDigit (q % u32Mod)))","tick (1 + q) (if q < clamp k bias then andThen (ret (encodeDigit (q % u32Mod)))")],["C66"])
m("K02","PunyCost","insertAt","inserting copies the whole string thrice",[("tick (1 + (l.length - index))","tick (1 + 3 * l.length)")],["C66"])
m("K03","PunyCost","insertAt","inserting at the end moves everything (list order reversed)",[("tick (1 + (l.length - index))","tick (1 + index)")],[])
m("K04","PunyCost","encLoop","duplicates are not removed: one pass per non-ASCII code point",[("    let distinct := sortAndRemoveDuplicates nonBasic\n","    let distinct := nonBasic\n")],["C66"])
m("K05","PunyCost","encStep","output copied at each step",[("  tick 1 (if c < n then ret (.ok { st with delta","  tick (1 + st.out.length) (if c < n then ret (.ok { st with delta")],["C66"])
m("K06","PunyCost","encPass","only the code points up to the first match are looked at",[("def encPass (numBasics n : Nat) : List Nat → EncSt → CM EncSt\n  | [], st => ret (.ok st)\n  | c :: cs, st => andThen (encStep numBasics n st c) fun st => encPass numBasics n cs st","def encPass (numBasics n : Nat) : List Nat → EncSt → CM EncSt\n  | [], st => ret (.ok st)\n  | c :: cs, st => if c = n then encStep numBasics n st c else andThen (encStep numBasics n st c) fun st => encPass numBasics n cs st")],["C66"])
m("K07","PunyCost","adaptLoop","divides by 2, not by 35",[("adaptLoop fuel (delta / (base - tmin))","adaptLoop fuel (delta / 2)")],["C66"])
m("K08","PunyCost","sortSteps","a quadratic sort",[("n * (n.log2 + 1)","n * n")],["C66"])
m("K09","PunyCost","copyPlain","the search for the delimiter starts over at each character",[("tick (1 + 2 * input.length)","tick (1 + input.length * input.length)")],["C66"])
m("K10","PunyCost","decodeVliLoop","no overflow check on w",[("      else if w > szMax / (base - clampk k bias) then ret (.ok (.error .overflow))\n","")],["C66"])
# --- C65
m("D01","Pct","hex2dec","only upper case digits",[("digit ≥ 0x61 &&","digit ≥ 0x67 &&")],["C65"])
m("D02","Uri","rdsLoop","a '..' at the front is kept",[("else if g.chars = b! \"..\" then","else if g.chars = b! \"..\" ∧ outit ≠ 0 then")],["C65"])
# --- C69
m("I01","Icubaby","endCpX","end_cp before any byte leaves the encoding open",[("  | .mono => run8Start st (st.state != .start)","  | .mono => if st.state == .start then .ok (st, []) else run8Start st (st.state != .start)")],["C69"])
m("I02","Icubaby","endCpX","end_cp inside a UTF-16 code unit drops the byte",[("      let (t, o) ← T16.endCp t\n      .ok ({ st with var := .v16 t }, o)","      let (t, o) ← T16.endCp t\n      .ok ({ st with state := ← setByte st.state 0, var := .v16 t }, o)")],["C69"])
m("I03","Icubaby","endCpX","end_cp not passed on to the UTF-32 transcoder's flag: UTF-16 output lost",[("      let (t, o) ← T16.endCp t\n      .ok ({ st with var := .v16 t }, o)","      let (t, _) ← T16.endCp t\n      .ok ({ st with var := .v16 t }, [])")],["C69"])
m("I04","Icubaby","partialX","pending bytes of a code unit count",[("  | .v16 t => T16.isPartial t\n  | .v32 t => T32.isPartial t","  | .v16 t => T16.isPartial t || byteNo st.state != 0\n  | .v32 t => T32.isPartial t")],["C69"])
m("I05","Icubaby","partialX","no mark pending counts as partial",[("  | .mono => st.state != .start\n  | .v8 t => T8.isPartial t","  | .mono => true\n  | .v8 t => T8.isPartial t")],["C69"])
m("I06","Icubaby","wellFormedX","unfinished mark is not well formed",[("  | .mono => true\n  | .v8 t => T8.wellFormed t","  | .mono => st.state == .start\n  | .v8 t => T8.wellFormed t")],["C69"])
m("I07","Icubaby","selectedEncoding","UTF-16 endianness exchanged",[("if isLittleEndian st.state then .utf16le else .utf16be","if isLittleEndian st.state then .utf16be else .utf16le")],["C69","C46"])
m("I08","Icubaby","run8Start","the bytes of the false mark are forgotten",[("if copy then T8.feed T8.init (st.buffer.take (byteNo st.state + 1)) else","if copy then T8.feed T8.init (st.buffer.take (byteNo st.state)) else")],["C69","C46"])
m("I09","Icubaby","endCpX","end_cp of UTF-8 resets to the beginning (new mark accepted)",[("      let (t, o) ← T8.endCp t\n      .ok ({ st with var := .v8 t }, o)","      let (_, o) ← T8.endCp t\n      .ok ({ st with state := .start, var := .mono }, o)")],["C69"])
