MUTANTS = []
def m(id, file, definition, what, edits, breaks):
    MUTANTS.append(dict(id=id, file=file, definition=definition, what=what, edits=edits, breaks=breaks))
# --- WriteThrow (C98)
m("GG01","WriteThrow","pctencode","the low digit is written before the high one",[("        andThen (put hi) fun _ =>\n        andThen (lift (dec2hex (c.toNat &&& 0xF))) fun lo =>\n        andThen (put lo) fun _ => pctencode es s","        andThen (lift (dec2hex (c.toNat &&& 0xF))) fun lo =>\n        andThen (put lo) fun _ =>\n        andThen (put hi) fun _ => pctencode es s")],["C98"])
m("GG02","WriteThrow","andThen","an exception of the first statement is swallowed",[("  | .ok (none, s') => .ok (none, s')\n  | .ok (some b, s') => f b o s'","  | .ok (none, s') => .ok (none, { s' with out := [] })\n  | .ok (some b, s') => f b o s'")],["C98"])
m("GG03","WriteThrow","put","the character is there although the write threw",[("if o.write s.tries then .ok (none, { s with tries := s.tries + 1 })","if o.write s.tries then .ok (none, { s with out := s.out ++ [c], tries := s.tries + 1 })")],["C98"])
m("GG04","WriteThrow","pctdecodeLoop","the end is written too",[("      if e then ret ()\n      else\n        andThen (lift (pctDeref","      if e then put 0\n      else\n        andThen (lift (pctDeref")],["C98"])
m("GG05","WriteThrow","encodeVliLoop","the last digit is written twice",[("andThen (lift (Puny.encodeDigit (q % u32Mod))) put\n","andThen (lift (Puny.encodeDigit (q % u32Mod))) fun d => andThen (put d) fun _ => put d\n")],["C98"])
m("GG06","WriteThrow","encStep","adapt is told it is always the first time",[("(v.i == numBasics))) fun b","true)) fun b")],["C98"])
m("GG07","WriteThrow","basicPass","collected code points are written too",[("      else andThen alloc fun _ => basicPass cs","      else andThen alloc fun _ => andThen (put 0) fun _ => basicPass cs")],["C98"])
m("GG08","WriteThrow","punyEncode","the delimiter is always written",[("andThen (if (range.filter Puny.isBasic).length > 0 then put Puny.delimiter else ret ())","andThen (put Puny.delimiter)")],["C98"])
m("GG09","WriteThrow","punyEncodedLoop","the prefix after the label",[("      andThen (if y.2 then puts idnaPrefix else ret ()) fun _ =>\n      andThen (puts y.1) fun _ =>\n","      andThen (puts y.1) fun _ =>\n      andThen (if y.2 then puts idnaPrefix else ret ()) fun _ =>\n")],["C98"])
m("GG10","WriteThrow","punyEncodedLoop","the full stop is forgotten",[("        andThen (put 0x2E) fun _ =>\n        andThen (lift (x.2.incr","        andThen (lift (x.2.incr")],["C98"])
m("GG11","WriteThrow","copyView","incremented before the character is written",[("        andThen (put c) fun _ =>\n        andThen (lift (it.incr Icu.t32_8 Icu.maxOut8)) fun it => copyView fuel it","        andThen (lift (it.incr Icu.t32_8 Icu.maxOut8)) fun it =>\n        andThen (put c) fun _ => copyView fuel it")],[])
m("GG12","WriteThrow","punyDecodedLoop","the full stop before the error is not written",[("            andThen (put 0x2E) fun _ =>\n            andThen (punyDecodedLoop fuel first) fun r => ret (r.map (enc || ·))","            andThen (punyDecodedLoop fuel first) fun r =>\n            andThen (put 0x2E) fun _ => ret (r.map (enc || ·))")],["C98"])
m("GG13","WriteThrow","punyDecodedLoop","the flag of the first label is forgotten",[("ret (r.map (enc || ·))","ret r")],["C98"])
m("GG14","WriteThrow","encPass","the code points of the range from the last to the first",[("  | c :: cs, v => andThen (encStep numBasics n v c) fun v => encPass numBasics n cs v","  | c :: cs, v => andThen (encPass numBasics n cs v) fun v => encStep numBasics n v c")],["C98"])
# --- sizes (C96)
m("GG30","PartsCodec","punyEncodedLoop","the prefix is written twice",[("let out := (if nonAscii then idnaPrefix else []) ++ segment","let out := (if nonAscii then idnaPrefix ++ idnaPrefix else []) ++ segment")],["C96","C98"])
m("GG31","PartsCodec","punyDecodedLoop","two full stops between labels",[("            .ok (out ++ 0x2E :: rest, r.map (enc || ·))","            .ok (out ++ 0x2E :: 0x2E :: rest, r.map (enc || ·))")],["C96","C98"])
m("GG32","Punycode","encLoop","duplicates are encoded again",[("def sortAndRemoveDuplicates (l : List Nat) : List Nat := unique (sortL l)","def sortAndRemoveDuplicates (l : List Nat) : List Nat := sortL l")],["C96"])
m("GG33","PartsCodec","decodeWrite","strings that need no decoding are copied to the store",[("      let n ← pctDecodedSize str.chars\n      if pos ≥ fieldLast ∧ n = 0 then .ok (str, store)\n      else do\n        check (n > 0)","      let n ← pctDecodedSize str.chars\n      if false ∧ n = 0 then .ok (str, store)\n      else do")],["C96"])
m("GG34","PartsCodec","encodeWrite","the host is written twice",[("      let store := store.pushAll hp out\n      check (originalSize + n == store.chars.length)\n      .ok (⟨store.addr + originalSize, store.chars.drop originalSize⟩, store)\n    else do\n      let es","      let store := store.pushAll hp (out ++ out)\n      .ok (⟨store.addr + originalSize, store.chars.drop originalSize⟩, store)\n    else do\n      let es")],["C96"])
# --- join (C97)
m("GG50","Uri","join","an empty path of the reference with a query takes the directory of the base",[("path := base.path,\n              query := if","path := base.path.removeDotSegments,\n              query := if")],["C97"])
m("GG51","Uri","merge","the path is absolute only if the reference's is",[("    { absolute := base.path.absolute,","    { absolute := ref.path.absolute,")],["C97"])
m("GG52","Uri","rdsLoop","a dot segment at the beginning stays",[("          if g.chars = b! \".\" then rdsLoop n (it + 1) outit true v","          if g.chars = b! \".\" ∧ it ≠ 0 then rdsLoop n (it + 1) outit true v")],["C97"])
m("GG53","Uri","join","the authority of the base is kept for a reference with a scheme",[("      { scheme := some s, authority := reference.authority,\n        path := reference.path.removeDotSegments,","      { scheme := some s, authority := if reference.authority.isSome then reference.authority else base.authority,\n        path := reference.path.removeDotSegments,")],["C97"])
m("GG54","Uri","join","an absolute path of the reference is merged",[("          else if reference.path.absolute then\n            { scheme := base.scheme, authority := base.authority,\n              path := reference.path.removeDotSegments,","          else if reference.path.absolute then\n            { scheme := base.scheme, authority := base.authority,\n              path := (merge base reference).removeDotSegments,")],["C97"])
