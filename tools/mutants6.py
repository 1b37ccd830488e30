MUTANTS = []
def m(id, file, definition, what, edits, breaks):
    MUTANTS.append(dict(id=id, file=file, definition=definition, what=what, edits=edits, breaks=breaks))
# --- Locale
m("AA01","Locale","Env.isalnum","the character is converted to unsigned char first",[("ctype e.pl (fun c => !e.eof c && e.loc.alnum c) c",".ok (e.loc.alnum c)")],["C74"])
m("AA02","Locale","Env.isalpha","EOF is asked for as a character",[("ctype e.pl (fun c => !e.eof c && e.loc.alpha c) c","ctype e.pl e.loc.alpha c")],["C74"])
m("AA03","Locale","ch","only one side is converted to lower case",[("  return c2 == (← e.tolower d)","  return c2 == Int.ofNat d.toNat")],["C74"])
m("AA04","Locale","range","upper end excluded",[("decide (cl ≤ l)","decide (cl < l)")],["C74"])
m("AA05","Locale","unreserved","isalpha for isalnum",[("(← e.isalnum c) ||","(← e.isalpha c) ||")],["C74"])
m("AA06","Locale","Env.isxdigit","a hexadecimal digit is any alphanumeric character of the locale",[("ctype e.pl isXDigitB c","ctype e.pl e.loc.alnum c")],["C74"])
m("AA07","Locale","latinSmallLetterV","IPvFuture starts with 'i'",[("def latinSmallLetterV (e : Env) : Gr Act := ch e 0x76","def latinSmallLetterV (e : Env) : Gr Act := ch e 0x69")],["C74"])
m("AA08","Locale","scheme","the first character of a scheme may be any alphanumeric character",[("(Chain.nil.concat (alpha e) none).star (schemeElem e)","(Chain.nil.concat (unreserved e) none).star (schemeElem e)")],["C74"])
m("AA09","Locale","joinStr","the reference is parsed with split",[("match ← splitReference e reference with","match ← split e reference with")],["C74"])
m("AA10","Locale","valid","the query is not checked",[("    if !(← optOk (query e).run p.query) then return false\n","")],["C74"])
m("AA12","Locale","authorityValid","port checked by the host rule",[("optOk (port e).run a.port","optOk (host e).run a.port")],["C74"])
m("AA13","Locale","splitReference","only relative references",[("runGrammar (URIReference e).run inp","runGrammar (relativeRef e).run inp")],["C74"])
m("AA14","Locale","pathValid","segments checked with segment_nz",[("allOk (fieldOk (segment e).run)","allOk (fieldOk (segmentNz e).run)")],["C74"])
