MUTANTS = []
def m(id, file, definition, what, edits, breaks):
    MUTANTS.append(dict(id=id, file=file, definition=definition, what=what, edits=edits, breaks=breaks))
# --- Vec
m("DD01","Vec","copyOf","copying an empty vector asks for memory",[("  if src.isEmpty then ret empty\n  else request","  if false then ret empty\n  else request")],["C83"])
m("DD02","Vec","push","a vector with room asks for memory",[("if v.elems.length < v.cap then tick 1 (ret { v","if v.elems.length + 1 < v.cap then tick 1 (ret { v")],["C83"])
m("DD03","Vec","push","a full vector is written past its end",[("if v.elems.length < v.cap then tick 1 (ret { v","if v.elems.length ≤ v.cap then tick 1 (ret { v")],["C83"])
m("DD04","Vec","append","only the first element",[("andThen (push pol v x) fun v => append pol xs v","andThen (push pol v x) fun v => ret v")],["C83"])
m("DD05","Vec","rdsLoop","a copy of the vector in each step",[("else if outit ≠ it then tick 1 (","else if outit ≠ it then tick v.length (")],["C83"])
m("DD06","Vec","rdsLoop",".. does not remove",[("(if outit ≠ 0 then outit - 1 else outit) true v","outit true v")],["C83"])
m("DD07","Vec","rdsLoop","last_dir not set by .",[("rdsLoop n (it + 1) outit true v\n","rdsLoop n (it + 1) outit lastDir v\n")],["C83"])
m("DD08","Vec","removeDotSegments","always adds an empty segment",[("      if x.2.1 then\n        match","      if true then\n        match")],["C83"])
m("DD09","Vec","removeDotSegments","the vector is rebuilt",[("      let w : Vector := { v with elems := x.2.2.take x.1 }\n","      let w : Vector := { v with elems := x.2.2.take x.1, cap := x.1 }\n")],["C83"])
m("DD10","Vec","removeDotSegments","elements are erased one by one",[("    tick (v.elems.length - x.1) (","    tick ((v.elems.length - x.1) * v.elems.length) (")],["C83"])
m("DD11","Vec","merge","the reference's path is not copied",[("      andThen (append pol ref.path.segments v) fun v => ret (base.path.absolute, v)","      ret (base.path.absolute, v)")],["C83"])
m("DD12","Vec","merge","a new buffer for each segment",[("    andThen (append pol (base.path.segments.take last) empty) fun v =>\n","    andThen (append ⟨pol.copy, fun n => n + 1, pol.copy_le, fun n => Nat.lt_succ_self n⟩ (base.path.segments.take last) empty) fun v =>\n")],["C83"])
m("DD13","Vec","merge","all segments of the base are kept",[("if base.path.segments.length > 1 then base.path.segments.length - 1 else base.path.segments.length","base.path.segments.length")],["C83"])
m("DD14","Vec","copyAndRemove","the path is copied twice",[("  andThen (copyOf pol p.segments) fun v => andThen (removeDotSegments pol v)","  andThen (copyOf pol p.segments) fun _ => andThen (copyOf pol p.segments) fun v => andThen (removeDotSegments pol v)")],[])
m("DD15","Vec","join","dot segments of the merged path stay",[("              andThen (removeDotSegments pol m.2) fun v =>\n                ret","              andThen (ret m.2) fun v =>\n                ret")],["C83"])
m("DD16","Vec","joinStr","the reference is parsed first",[("  Mem.andThen (Mem.split pl base) fun","  Mem.andThen (Mem.split pl reference) fun")],["C83"])
m("DD17","Vec","request","refused requests are not counted",[("else (none, { u with requests := u.requests + 1 })","else (none, u)")],["C83"])
m("DD18","Vec","removeDotSegments","the last segment is looked at wrongly",[("if !b.chars.isEmpty then push pol w SV.null else ret w","if b.chars.isEmpty then push pol w SV.null else ret w")],["C83"])
# --- OutThrow
m("DD30","OutThrow","c32_8","not noexcept",[("⟨fun c => sealed fun st => t32_8.step st c, done⟩","⟨fun c => read fun st => lift (t32_8.step st c) fun r => andThen (puts r.2) (assign fun _ => r.1), done⟩")],["C84"])
m("DD31","OutThrow","step8to32","the state is assigned after the write",[("  andThen (assign fun st => { st with state := s % 2 ^ 8 })\n  (read fun st =>\n    if st.state = accept then put st.codePoint\n","  (read fun st =>\n    if s % 2 ^ 8 = accept then andThen (put st.codePoint) (assign fun st => { st with state := accept })\n    else andThen (assign fun st => { st with state := s % 2 ^ 8 }) <| read fun st => if st.state = accept then done\n")],["C84"])
m("DD32","OutThrow","step8to32","well_formed_ is assigned after the write",[("      andThen (assign fun st => { st with wf := false }) (andThen (assign fun st => { st with state := accept }) (put replacementChar))","      andThen (assign fun st => { st with state := accept }) (andThen (put replacementChar) (assign fun st => { st with wf := false }))")],["C84"])
m("DD33","OutThrow","endCp8to32","state_ is not assigned",[("    andThen (assign fun st => { st with state := reject }) (andThen (put","    (andThen (put")],["C84"])
m("DD34","OutThrow","endCp8to32","well_formed_ is assigned before the write",[("(andThen (put replacementChar) (assign fun st => { st with wf := false }))\n  else done\n\n/-- icubaby.hpp:816","(andThen (assign fun st => { st with wf := false }) (put replacementChar))\n  else done\n\n/-- icubaby.hpp:816")],["C84"])
m("DD35","OutThrow","endCp16to32","the members are assigned before the write",[("    andThen (put replacementChar) (andThen (assign fun st => { st with high := 0 })\n      (andThen (assign fun st => { st with hasHigh := false }) (assign fun st => { st with wf := false })))","    andThen (assign fun st => { st with high := 0 })\n      (andThen (assign fun st => { st with hasHigh := false }) (andThen (assign fun st => { st with wf := false }) (put replacementChar)))")],["C84"])
m("DD36","OutThrow","c16_32","end_cp is noexcept",[("fun st => t16_32.step st c, endCp16to32⟩","fun st => t16_32.step st c, noexcept endCp16to32⟩")],["C84"])
m("DD37","OutThrow","c32_32","well_formed_ is assigned after the write",[("andThen (assign fun _ => false) (put replacementChar) else put c","andThen (put replacementChar) (assign fun _ => false) else put c")],["C84"])
m("DD38","OutThrow","tri","the intermediate state is lost",[("  step c := read fun st => lift (step st.1 c) fun r =>\n    andThen (assign fun st => (r.1, st.2)) (if","  step c := read fun st => lift (step st.1 c) fun r =>\n    andThen done (if")],["C84"])
m("DD39","OutThrow","tri","only the first intermediate code point",[("(fun _ => done) else forEach (fun u => second (B.step u)) r.2)\n  endCp","(fun _ => done) else forEach (fun u => second (B.step u)) (r.2.take 1))\n  endCp")],["C84"])
m("DD40","OutThrow","cX","not noexcept",[("⟨fun c => sealed fun st => T.step st c, sealed T.endCp⟩","⟨fun c => sealed fun st => T.step st c, read fun st => lift (T.endCp st) fun r => andThen (puts r.2) (assign fun _ => r.1)⟩")],["C84"])
m("DD41","OutThrow","puts","the last is written first",[("  | c :: cs => andThen (put c) (puts cs)","  | c :: cs => andThen (puts cs) (put c)")],["C84"])
m("DD42","OutThrow","put","a write that throws has been made",[("if o s.tries then .ok (.thrown, { s with tries := s.tries + 1 })","if o s.tries then .ok (.thrown, { s with out := s.out ++ [c], tries := s.tries + 1 })")],["C84"])
m("DD43","OutThrow","tri","end_cp drops the pending character",[("      else andThen (forEach (fun u => second (B.step u)) r.2) (second B.endCp))","      else second B.endCp)")],["C84"])
