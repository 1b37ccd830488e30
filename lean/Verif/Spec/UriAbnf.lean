import Verif.Model.Base

/-!
# The text of `/repo/systemtests/uri.abnf`

Generated by `tools/gen_abnf.py`; one byte string for each line of the file.
-/

namespace Verif.AbnfFile

/-- systemtests/uri.abnf:1-80. -/
def uriAbnf : List Str := [
  b! "URI           = scheme \":\" hier-part [ \"?\" query ] [ \"#\" fragment ]",
  b! "",
  b! "hier-part     = \"//\" authority path-abempty",
  b! "              / path-absolute",
  b! "              / path-rootless",
  b! "              / path-empty",
  b! "",
  b! "URI-reference = URI / relative-ref",
  b! "",
  b! "absolute-URI  = scheme \":\" hier-part [ \"?\" query ]",
  b! "",
  b! "relative-ref  = relative-part [ \"?\" query ] [ \"#\" fragment ]",
  b! "",
  b! "relative-part = \"//\" authority path-abempty",
  b! "              / path-absolute",
  b! "              / path-noscheme",
  b! "              / path-empty",
  b! "",
  b! "scheme        = ALPHA *( ALPHA / DIGIT / \"+\" / \"-\" / \".\" )",
  b! "",
  b! "authority     = [ userinfo \"@\" ] host [ \":\" port ]",
  b! "userinfo      = *( unreserved / pct-encoded / sub-delims / \":\" )",
  b! "host          = IP-literal / IPv4address / reg-name",
  b! "port          = *DIGIT",
  b! "",
  b! "IP-literal    = \"[\" ( IPv6address / IPvFuture  ) \"]\"",
  b! "",
  b! "IPvFuture     = \"v\" 1*HEXDIG \".\" 1*( unreserved / sub-delims / \":\" )",
  b! "",
  b! "IPv6address   =                            6( h16 \":\" ) ls32",
  b! "              /                       \"::\" 5( h16 \":\" ) ls32",
  b! "              / [               h16 ] \"::\" 4( h16 \":\" ) ls32",
  b! "              / [ *1( h16 \":\" ) h16 ] \"::\" 3( h16 \":\" ) ls32",
  b! "              / [ *2( h16 \":\" ) h16 ] \"::\" 2( h16 \":\" ) ls32",
  b! "              / [ *3( h16 \":\" ) h16 ] \"::\"    h16 \":\"   ls32",
  b! "              / [ *4( h16 \":\" ) h16 ] \"::\"              ls32",
  b! "              / [ *5( h16 \":\" ) h16 ] \"::\"              h16",
  b! "              / [ *6( h16 \":\" ) h16 ] \"::\"",
  b! "",
  b! "h16           = 1*4HEXDIG",
  b! "ls32          = ( h16 \":\" h16 ) / IPv4address",
  b! "IPv4address   = dec-octet \".\" dec-octet \".\" dec-octet \".\" dec-octet",
  b! "dec-octet     = DIGIT                 ; 0-9",
  b! "              / %x31-39 DIGIT         ; 10-99",
  b! "              / \"1\" 2DIGIT            ; 100-199",
  b! "              / \"2\" %x30-34 DIGIT     ; 200-249",
  b! "              / \"25\" %x30-35          ; 250-255",
  b! "",
  b! "reg-name      = *( unreserved / pct-encoded / sub-delims )",
  b! "",
  b! "path          = path-abempty    ; begins with \"/\" or is empty",
  b! "              / path-absolute   ; begins with \"/\" but not \"//\"",
  b! "              / path-noscheme   ; begins with a non-colon segment",
  b! "              / path-rootless   ; begins with a segment",
  b! "              / path-empty      ; zero characters",
  b! "",
  b! "path-abempty  = *( \"/\" segment )",
  b! "path-absolute = \"/\" [ segment-nz *( \"/\" segment ) ]",
  b! "path-noscheme = segment-nz-nc *( \"/\" segment )",
  b! "path-rootless = segment-nz *( \"/\" segment )",
  b! "path-empty    = 0<pchar>",
  b! "",
  b! "segment       = *pchar",
  b! "segment-nz    = 1*pchar",
  b! "segment-nz-nc = 1*( unreserved / pct-encoded / sub-delims / \"@\" )",
  b! "                 ; non-zero-length segment without any colon \":\"",
  b! "",
  b! "pchar         = unreserved / pct-encoded / sub-delims / \":\" / \"@\"",
  b! "",
  b! "query         = *( pchar / \"/\" / \"?\" )",
  b! "",
  b! "fragment      = *( pchar / \"/\" / \"?\" )",
  b! "",
  b! "pct-encoded   = \"%\" HEXDIG HEXDIG",
  b! "",
  b! "unreserved    = ALPHA / DIGIT / \"-\" / \".\" / \"_\" / \"~\"",
  b! "reserved      = gen-delims / sub-delims",
  b! "gen-delims    = \":\" / \"/\" / \"?\" / \"#\" / \"[\" / \"]\" / \"@\"",
  b! "sub-delims    = \"!\" / \"$\" / \"&\" / \"'\" / \"(\" / \")\"",
  b! "              / \"*\" / \"+\" / \",\" / \";\" / \"=\""]

end Verif.AbnfFile
