#!/usr/bin/env python3
"""Regenerates /verif/properties.jsonl (kept as a script so the list is easy to extend)."""
import json, os
P = []
def p(id, title, statement, quantifier, why, anchors):
    P.append(dict(id=id, title=title, statement=statement, quantifier=quantifier,
                  why_tests_cant=why, anchors=anchors))
U="lib/uri/uri.cpp"; UH="include/uri/uri.hpp"; R="include/uri/rule.hpp"; RC="lib/uri/rule.cpp"
PE="include/uri/pctencode.hpp"; PEC="lib/uri/pctencode.cpp"; PD="include/uri/pctdecode.hpp"
PU="include/uri/punycode.hpp"; PA="include/uri/parts.hpp"; PAC="lib/uri/parts.cpp"; IC="include/uri/icubaby.hpp"
p("C01","split is sound for RFC 3986",
  "Whenever uri::split(s) yields a value, s is a sentence of the RFC 3986 'URI' rule and the returned scheme, userinfo, host, port, path (absolute flag and segments), query and fragment are the pieces of s at the corresponding places of a derivation.",
  "every byte string s, of any length",
  "The set of inputs is infinite; a parser combinator with backtracking can be wrong on an interaction of rules no test exercises.",
  [f"{U}:split", f"{U}:URI", f"{U}:hier_part", f"{U}:authority", f"{R}:rule"])
p("C02","split is complete for RFC 3986",
  "Every sentence of the RFC 3986 'URI' rule is accepted by uri::split, and the components of any derivation are the ones returned, with exactly two exceptions, whose members are all rejected: a host that is a reg-name with a proper prefix that is an IPv4 address ('1.2.3.4.com'), and a repetition of a positive multiple of 2^32 elements, which the 32-bit repetition counter cannot tell from none.",
  "every byte string s derivable from 'URI', every derivation",
  "Ordered choice and greedy repetition lose sentences only for particular overlaps; sampling an infinite language cannot establish absence of a loss.",
  [f"{U}:split", f"{U}:host", f"{U}:ipv4address", f"{R}:rule::star", f"{R}:rule::alternative"])
p("C03","split_reference recognises exactly URI-reference",
  "uri::split_reference(s) yields a value only if s is a sentence of 'URI-reference' (URI / relative-ref) with the matching components, and yields one for every such sentence with the same two exceptions as C02.",
  "every byte string s", "Infinite input set; the URI alternative is tried first and must never shadow a relative reference.",
  [f"{U}:split_reference", f"{U}:URI_reference", f"{U}:relative_ref"])
p("C04","Component boundaries follow RFC 3986 appendix B",
  "For an accepted s, the components are those that the appendix-B delimiting rules assign: fragment is everything after the first '#', query everything between the first '?' before it and it, scheme everything before the first ':', authority the text between '//' and the next '/' (or '?', '#', end). In particular components are uniquely determined by s.",
  "every accepted byte string s", "Requires that no other reading exists for any string.",
  [f"{U}:split", f"{U}:split_reference"])
p("C05","compose inverts split",
  "If split(s) or split_reference(s) yields p then compose(p) == s, byte for byte.",
  "every byte string s", "The unit tests sample a hundred strings and the fuzz target cannot cover an infinite domain.",
  [f"{U}:compose", f"{U}:split", f"{U}:split_reference"])
p("C06","split inverts compose",
  "For a valid() parts value p, split(compose(p)) yields a value equal (operator==) to p if and only if the path has the shape RFC 3986 section 3.3 demands of it next to the authority (and no first segment of a multiple of 2^32 characters). Without the condition this is false, valid() checking components only: scheme 's' with absolute path segments ['', 'a:b:c'] composes to 's://a:b:c', which is rejected.",
  "every parts value p", "Quantifies over all structured values, including ones no parser produced.",
  [f"{U}:compose", f"{U}:split", f"{U}:parts::valid", f"{U}:parts::operator=="])
p("C07","A parsed URI is valid()",
  "If split(s) yields p then p.valid() is true; if split_reference(s) yields p, then p.valid() is true exactly when p has a scheme.",
  "every byte string s", "valid() re-parses every component in isolation, with different following text: agreement must hold for every context.",
  [f"{U}:parts::valid", f"{U}:parts::authority::valid", f"{U}:parts::path::valid"])
p("C08","Returned views alias the input",
  "Every string_view in the result of split/split_reference is a sub-range of the caller's buffer (pointer range inside [in.data(), in.data()+in.size()]) holding exactly those bytes, but for the one segment of the path '/' of a URI without authority, which is a default (null, empty) view; nothing refers to a temporary.",
  "every byte string s placed at any non-null address", "Lifetime and aliasing are invisible to value comparisons.",
  [f"{U}:split", f"{U}:split_reference", f"{R}:rule::matched"])
p("C09","Parsing has defined behaviour and terminates",
  "split, split_reference and valid never loop forever, never index out of range, never assign through back() of an empty vector and never call a <cctype> function outside its domain when char is unsigned or the text is 7-bit. (Where char is signed and the text has a byte from 0x80 up, a <cctype> call outside its domain happens, and it is the only thing that can go wrong.)",
  "every byte string s; both signednesses of char", "Undefined behaviour is often invisible at run time; termination over all inputs cannot be tested.",
  [f"{U}:split", f"{R}:rule::star", f"{R}:alpha", f"{U}:append_segment"])
p("C10","Failed and abandoned matches have no effect",
  "With the rule class, accept functions run only if the whole input was matched (done() is true), exactly those on the successful path run, each once, in left-to-right order, with the text they matched; a failed alternative, optional or repetition contributes nothing.",
  "every grammar built from concat/optional/star/alternative, as match functions or as a chain of calls on one rule, every input of any length", "Quantifies over user grammars.",
  [f"{R}:rule::concat", f"{R}:rule::optional", f"{R}:rule::star", f"{R}:rule::alternative", f"{RC}:rule::done"])
p("C11","Rule combinators implement ABNF operators",
  "concat(A).concat(B) matches only AB, alternative(A,B) only A/B, optional(A) only [A], star(A,m,n) only <m>*<n>A, each consuming the greedy/first-choice prefix and leaving the rest as tail; star never exceeds max repetitions nor, for min <= max, succeeds with fewer than min (found false for min > max: star('a',2,1) succeeds on 'aa' with one repetition); matching ends on every text unless something that can match nothing is repeated without bound (found: star of an optional does not return); a repetition without upper bound is counted modulo 2^32, so a lower bound can be missed by 2^32 repetitions (found: 1*'a' does not match 2^32 times 'a') but never wrongly met; a rule that has failed stays failed.",
  "every grammar expression with bounds of type unsigned, every input of any length", "Quantifies over all matchers.",
  [f"{R}:rule::star", f"{R}:rule::alternative", f"{R}:rule::optional", f"{R}:rule::concat_impl"])
p("C12","IP literals and IPv4 addresses are recognised exactly",
  "authority::valid()/split accept a bracketed host iff it is an RFC 3986 IP-literal (all nine IPv6address forms, embedded IPv4, IPvFuture), and the IPv4 matcher accepts a full host iff it is a dotted quad of dec-octets without leading zeros or values above 255.",
  "every byte string", "Millions of IPv6 shapes; greedy h16/':' repetition is prone to shadowing.",
  [f"{U}:ipv6address", f"{U}:ip_literal", f"{U}:ipv4address", f"{U}:dec_octet", f"{U}:h16_colon"])
p("C13","valid() means component-wise RFC 3986 conformance",
  "p.valid() is true iff p has a scheme and scheme, userinfo, host, port, each path segment, query and fragment are sentences of their RFC 3986 rules (with the exceptions of C02: hosts with an IPv4 address as a proper prefix, and repetition counts that are multiples of 2^32).",
  "every parts value", "Infinite domain.",
  [f"{U}:parts::valid", f"{U}:parts::authority::valid", f"{U}:parts::path::valid"])
p("C14","operator== is an equivalence compatible with compose",
  "parts::operator== is reflexive, symmetric and transitive although it ignores path.absolute when authorities are present; equal parts compose to equal strings.",
  "all parts values", "Needs all triples of values.",
  [f"{U}:parts::operator==", f"{U}:parts::path::operator==", f"{U}:parts::authority::operator==", f"{U}:compose"])
p("C15","join selects components as RFC 3986 5.2.2 prescribes",
  "For all base and reference, scheme, authority, query and fragment of join(base, ref, strict) are those of the section 5.2.2 pseudo-code, including strict=false ignoring a reference scheme equal to the base's.",
  "all parts values base and ref, both modes", "Infinite domain; 5.4 examples cover a fixed base.",
  [f"{U}:join"])
p("C16","join merges paths as RFC 3986 5.2.3 prescribes",
  "A relative-path reference is resolved against all but the last segment of the base path, except that a base path of exactly one segment is kept whole (join('http://a/b','c') is 'http://a/b/c' where RFC 3986 has 'http://a/c'); the text of join's result is that of the section 5.2.2 algorithm with this merge and the dot-segment removal of C17, for all strings that parse, and that of RFC 3986 itself when the base path has not exactly one segment and the deviations of C17 do not apply.",
  "all base and reference values", "The RFC test vectors use one base with three segments.",
  [f"{U}:merge", f"{U}:join"])
p("C17","remove_dot_segments implements RFC 3986 5.2.4",
  "For every path of segments without '/', the string form after remove_dot_segments is the result of the section 5.2.4 string-rewriting algorithm but for two exactly described cases: a trailing '.' or '..' adds no further slash when what remains ends in an empty segment ('/a//.' becomes '/a/', not '/a//'), and a relative path that climbs back to its beginning loses the slash that the RFC leaves there.",
  "every path", "Infinite domain; RFC algorithm works on strings with a five-way loop.",
  [f"{U}:parts::path::remove_dot_segments"])
p("C18","remove_dot_segments leaves no dot segments, is idempotent and never climbs above the root",
  "After remove_dot_segments no segment is '.' or '..'; a second call changes nothing; the absolute flag is unchanged; every remaining segment is one of the originals or an added trailing empty one; a path without dot segments is unchanged.",
  "every path", "Infinite domain.",
  [f"{U}:parts::path::remove_dot_segments"])
p("C19","String join fails exactly when an argument does not parse",
  "join(string base, string ref, strict) has a value iff split(base) and split_reference(ref) do, and then it is the parts-level join of those.",
  "all pairs of byte strings", "Infinite domain.", [f"{U}:join"])
p("C20","Resolution identities",
  "In strict mode a reference with a scheme ignores the base entirely; the empty reference yields the base without its fragment; a fragment-only reference yields the base with that fragment; a query-only reference keeps scheme, authority and path; the result of resolving a relative reference always has the base's scheme.",
  "all base and reference values", "Infinite domain.", [f"{U}:join"])
p("C21","A joined URI has no dot segments and can be composed and parsed again",
  "For strings base and ref that parse, the path of join(base, ref) contains no '.'/'..' segment unless it is the base's own path (empty reference path), and compose of the result is accepted by split and yields the same value if and only if its path has the shape of RFC 3986 section 3.3, as is always the case when the result has an authority. (Otherwise it need not: join('s:/a','/.//b') composes to 's://b'.)",
  "all pairs of strings", "Infinite domain.", [f"{U}:join", f"{U}:compose", f"{U}:split"])
p("C22","pctdecode inverts pctencode",
  "pctdecode(pctencode(s, es)) == s for every byte string and every encode set other than none. For the set none it holds for exactly the texts that contain no well-formed triplet ('%41' is left alone by the encoder and decoded to 'A').",
  "every byte string, every encode-set value", "Infinite domain.",
  [f"{PE}:pctencode", f"{PD}:pctdecode", f"{PEC}:needs_pctencode"])
p("C23","Shape and size of percent-encoded text",
  "Output of pctencode is printable ASCII without space; it consists of unencoded bytes that need no encoding and '%' followed by two upper-case hex digits; its length is the input length plus twice the number of bytes that need encoding; pctencode distributes over concatenation.",
  "every byte string, every encode set", "Infinite domain.", [f"{PE}:pctencode", f"{PE}:dec2hex"])
p("C24","Encode sets are the WHATWG percent-encode sets",
  "needs_pctencode(c, es) is true exactly for the bytes the WHATWG URL standard lists for the set, plus '%', except that '`' is missing from the fragment set and '^' from the path set (of the current standard); each set includes its predecessors, and a union of sets encodes what any of them does.",
  "all 256 bytes and all eight sets; unions of sets", "The unit test stops at 0xFE and copies the table's omission.",
  [f"{PEC}:needs_pctencode"])
p("C25","needs_pctencode predicts pctencode",
  "needs_pctencode(s, es) is false iff pctencode(s, es) == s, and pct_encoded_size(s, es) is 0 in that case and the exact output length otherwise.",
  "every byte string, every encode set", "Infinite domain.",
  [f"{PEC}:needs_pctencode", f"{PAC}:pct_encoded_size"])
p("C26","pctdecode replaces exactly the well-formed triplets",
  "pctdecode rewrites each '%' HEXDIG HEXDIG (scanning left to right) into the byte it denotes, upper and lower case alike, and copies everything else, including malformed or truncated triplets; it never lengthens text, is the identity on text without '%', and returns its argument exactly when that contains no well-formed triplet.",
  "every byte string", "Infinite domain.", [f"{PD}:pctdecode", f"{PD}:details::deref", f"{PD}:details::increment"])
p("C27","All decoding interfaces agree and stay in bounds",
  "pctdecode(), pctdecoder, pctdecode_begin/end and views::pctdecode produce the same sequence; neither dereference nor increment reads past the end; the iterator reaches the end exactly. std::ranges::iter_move on the view iterator, however, yields the undecoded byte: it agrees with the others exactly away from triplets and on '%25'.",
  "every byte string", "Out-of-bounds reads and all interface pairs over all inputs.",
  [f"{PD}:pctdecode_view", f"{PD}:pctdecode_iterator", f"{PD}:pctdecoder"])
p("C28","Percent-encoded components are RFC-valid",
  "Encoding arbitrary bytes with the set that uri::encode uses for a field yields a sentence of that field's RFC 3986 rule: always for userinfo, and for a path segment, query or fragment if and only if the bytes contain none of '/[\\\\]^|', '[\\\\]^`{|}' or '#[\\\\]^`{|}' respectively, which the sets leave alone.",
  "every byte string", "Infinite domain.", [f"{PA}:pctencode_set_from_parts_field", f"{PE}:pctencode", f"{U}:parts::valid"])
p("C29","Punycode decode inverts encode",
  "For every sequence of char32_t values (length below 2^26), decode(encode(s, allow_plain=false)) succeeds, yields s, and consumes the whole input; likewise with allow_plain when the returned flag says it was encoded.",
  "every u32 string (any values below 2^32)", "Infinite domain; variable-length integers with adaptive bias.",
  [f"{PU}:encode", f"{PU}:decode"])
p("C30","Punycode encode inverts decode up to digit case",
  "If decode(t) succeeds, re-encoding the result yields t with the digits of the extended part in lower case (and without a lone leading delimiter).",
  "every byte string t", "Infinite domain; needs uniqueness of generalized variable-length integers.",
  [f"{PU}:encode", f"{PU}:decode", f"{PU}:details::decode_vli", f"{PU}:details::encode_vli"])
p("C31","Shape of punycode output",
  "encode output is pure ASCII: the basic code points of s in order, then '-' iff there are any, then lower-case letters and digits only; the flag is true iff s has a non-ASCII code point; with allow_plain an all-ASCII s is copied verbatim.",
  "every u32 string", "Infinite domain.", [f"{PU}:encode", f"{PU}:details::encode_digit"])
p("C32","Punycode decoding is total, in bounds and overflow-checked",
  "decode terminates on every input with success, bad_input or overflow; no arithmetic in it wraps; the insert position never exceeds the output length; the inserted code points are at least 0x80 and never decrease; what it yields is what RFC 3492's decoder yields in unbounded arithmetic (of the text, or of what follows a lone leading delimiter, which RFC 3492 rejects), and it yields every such result of reasonable length.",
  "every byte string", "Silent wrap-around and out-of-range insertion only show for adversarial inputs.",
  [f"{PU}:decode", f"{PU}:details::decode_vli", f"{PU}:details::decode_loop"])
p("C33","Punycode digits are case-insensitive; malformed digits are rejected",
  "Changing the case of letters after the last '-' does not change decode's result; any non-alphanumeric byte there, or a truncated integer, yields bad_input (or an earlier overflow), never success. An accepted extended part is a row of pieces, one for each code point it adds: cut between two pieces it is accepted, with the missing pieces' code points left out; cut elsewhere it is bad_input.",
  "every byte string", "Infinite domain.", [f"{PU}:details::decode_digit", f"{PU}:decode"])
p("C34","IDNA-style host conversion round-trips label by label",
  "puny_encoded then puny_decoded gives a host name (of at most 2^37 bytes) back if and only if it is well-formed UTF-8 and none of its pure-ASCII labels starts with 'xn--'; ASCII labels are copied; the label structure (dots) is preserved; the rules of encoding determine the result.",
  "every host string", "Infinite domain, combination of three codecs.",
  [f"{PA}:details::puny_encoded", f"{PA}:details::puny_decoded"])
p("C35","encode rewrites each field independently and sizes its store exactly",
  "encode(store, p) changes each field to its own percent- or puny-encoding (and nothing else, for any number of path segments below 2^32 - 6, where the 32-bit index of a field wraps); the reserved size equals the bytes finally stored, so no reallocation happens and every returned view refers either to p's text or to the final store.",
  "every parts value, any number of segments, any previous store content", "Dangling views after reallocation and bitset-index collisions depend on sizes and counts.",
  [f"{PA}:encode", f"{PA}:details::parts_strings", f"{PAC}:pct_encoded_size"])
p("C36","decode rewrites each field independently and sizes its store exactly",
  "decode(store, p), when it succeeds, percent-decodes every field but the host and puny-decodes the host; reserved size equals final size; returned views refer to p's text or the final store. Exactly the hosts 'xn--' and 'xn---', which decode to nothing, are returned unchanged instead.",
  "every parts value", "As C35.", [f"{PA}:decode", f"{PA}:details::parts_strings", f"{PAC}:pct_decoded_size"])
p("C37","decode inverts encode on parts",
  "decode(encode(p)) succeeds and returns p's text in every field, for every p whose scheme and port contain no '%' and whose host is well-formed UTF-8 without a pure-ASCII 'xn--' label; in particular for every valid p without 'xn--' labels. The exact condition: scheme and port contain no well-formed triplet, and the host is such a name or 'xn--' or 'xn---' (which decode leaves alone).",
  "every parts value", "The fuzz target samples an infinite domain.", [f"{PA}:encode", f"{PA}:decode"])
p("C38","encode preserves validity",
  "If p.valid() then encode(store, p).valid().",
  "every parts value", "Infinite domain.", [f"{PA}:encode", f"{U}:parts::valid"])
p("C39","decode reports an error exactly for undecodable punycode labels",
  "decode(store, p) yields an error iff some dot-separated label of the host starts with 'xn--' and its remainder is not decodable; the error is that label's error.",
  "every parts value", "Infinite domain.", [f"{PA}:decode", f"{PA}:details::puny_decoded"])
p("C40","UTF-32 to UTF-8 produces standard, well-formed UTF-8",
  "The UTF-32 to UTF-8 transcoder emits for each scalar value its unique UTF-8 form and U+FFFD's for surrogates and out-of-range values; output is always well-formed; well_formed() is false iff some input was not a scalar value.",
  "every sequence of char32_t", "1.1 million code points times all sequences.", [f"{IC}:transcoder<char32_t, char8>"])
p("C41","UTF-8 to UTF-32 accepts exactly well-formed UTF-8",
  "After feeding all bytes and end_cp, well_formed() is true iff the bytes are well-formed UTF-8 (Unicode table 3-7); then the output is the sequence of code points they encode; every emitted value is a Unicode scalar value for any input.",
  "every byte string", "Infinite domain; DFA table errors hide in single entries.", [f"{IC}:transcoder<char8, char32_t>"])
p("C42","UTF-8 / UTF-32 round trips",
  "Transcoding scalar values to UTF-8 and back is the identity; transcoding well-formed UTF-8 to UTF-32 and back is the identity.",
  "every scalar sequence / well-formed byte string", "Infinite domain.", [f"{IC}:transcoder<char8, char32_t>", f"{IC}:transcoder<char32_t, char8>"])
p("C43","The UTF-8 DFA stays inside its table",
  "For every byte sequence the index into utf8d_ is in range, the state is one of the nine states, the 21-bit code point field never loses bits of an emitted code point, and each byte emits at most one code point.",
  "every byte string", "Memory safety on all inputs.", [f"{IC}:transcoder<char8, char32_t>::operator()"])
p("C44","UTF-16 transcoding round-trips and replaces unpaired surrogates",
  "UTF-32 to UTF-16 and back is the identity on scalar values; UTF-16 to UTF-32 emits only scalar values and reports well_formed() iff surrogates are properly paired.",
  "every char16_t / char32_t sequence", "Infinite domain.", [f"{IC}:transcoder<char32_t, char16_t>", f"{IC}:transcoder<char16_t, char32_t>"])
p("C45","The lazy transcode view equals the eager transcoder and its buffer never overflows",
  "Iterating icubaby's transcode view yields exactly what feeding the transcoder and calling end_cp yields, for the nine conversions between UTF-8, UTF-16 and UTF-32 (the library uses UTF-8 to UTF-32 and UTF-32 to UTF-8), without overrunning the fixed output buffer. (For input of std::byte, which the library does not use, it is false: FE 41 writes two code points into a one-element buffer.)",
  "every input sequence", "Buffer overruns on malformed input.", [f"{IC}:ranges::transcode_view", f"{IC}:ranges::max_output_bytes"])
p("C46","What the byte transcoder makes of bytes of unknown encoding",
  "For every byte string the byte transcoder, to any of the three encodings, writes exactly what the typed transcoder writes for the text found in the bytes, agrees with it on well_formed(), and names that encoding; its state machine never addresses its 4-byte buffer or BOM table out of range. The text found is the one the Unicode Standard prescribes (a BOM selects encoding and endianness and is dropped; no BOM means UTF-8), except exactly in these cases, which are deviations of the code: input that is the beginning of a BOM gains a zero byte; FF FE 00 followed by a non-zero byte is taken for UTF-8; the top byte of each UTF-32LE unit is lost. Bytes left over at the end of UTF-16 or UTF-32 are dropped without a trace.",
  "every byte string", "Infinite domain; 20-state machine.", [f"{IC}:transcoder<std::byte, ToEncoding>"])
p("C47","find_last and starts_with meet their specification",
  "find_last returns the position of the last element equal to the value and the end if there is none, identically for forward and bidirectional iterators; starts_with(a,b) iff b is a prefix of a.",
  "all sequences and values", "Infinite domain.", ["include/uri/find_last.hpp:find_last", "include/uri/starts_with.hpp:starts_with"])
p("C48","Path string conversions",
  "static_cast<std::string>(path) is the segments joined by '/' with a leading '/' iff absolute and non-empty; conversion to a POSIX std::filesystem::path of a parsed path never yields a path outside what the segments spell (segments contain no '/'), and agrees with the string form when no inner segment is empty.",
  "every path", "Infinite domain.", [f"{U}:parts::path::operator std::string", f"{U}:parts::path::operator std::filesystem::path"])
p("C49","length and index count code points",
  "icubaby::length of well-formed UTF-8/16 text is the number of its code points (of UTF-32: the number of scalar values); icubaby::index(text,n) is the offset of the n-th code point's first unit, and the end when there are n or fewer.",
  "every well-formed text and every n", "Infinite domain.", [f"{IC}:length", f"{IC}:index", f"{IC}:is_code_point_start"])
p("C50","When transcode view iterators compare equal",
  "After n increments an iterator of a transcode view is at element n of the output, equals the end iff every element has been read, and two iterators compare equal iff no point of the input separates them (no prefix of the input after which one of the two elements has been written and the other has not); for UTF-8 to UTF-32, the one the library compares, and UTF-32 to UTF-32 this means iff they are at the same element. (So where a code point yields several units, begin() == ++begin(): operator== ignores the position in the buffer.)",
  "every input and every pair of positions", "All pairs of positions in all inputs.", [f"{IC}:ranges::transcode_view::iterator::operator=="])
p("C51","When a transcoder can be reused after end_cp",
  "After end_cp nothing is pending and a further text is transcoded as by a new transcoder, for all conversions from UTF-16 and UTF-32, and for those from UTF-8 iff the text did not end inside a sequence. If it did, a code point is still pending, another end_cp writes another U+FFFD, and the first byte of the further text, whatever it is, is lost and replaced by U+FFFD, the rest being transcoded as by a new transcoder (a defect: end_cp leaves the DFA in the reject state).",
  "every pair of texts", "Histories: depends on everything fed before.", [f"{IC}:transcoder<char8, char32_t>::end_cp", f"{IC}:transcoder<char16_t, char32_t>::end_cp"])
p("C52","What malformed UTF-8 hides of the characters that follow it",
  "Where no sequence is broken off, decoding replaces as the Unicode Standard recommends (one U+FFFD per maximal subpart, 3.9). Where one is broken off, the byte that reveals it is swallowed with it and nothing else: the output is U+FFFD followed by the output for the text after that byte. (So C3 41 yields U+FFFD only: a deviation.) Whatever precedes it, of a well-formed text at most the first character is lost.",
  "every byte string", "Infinite domain.", [f"{IC}:transcoder<char8, char32_t>::operator()"])
p("C53","Accepted texts are character-safe",
  "Everything split or split_reference accepts consists of RFC 3986 reserved and unreserved characters and '%', and each '%' is followed by two hexadecimal digits; no control, space, quote, backslash or non-ASCII byte ever gets through. Every component of a valid() value is safe in the same sense and contains none of the delimiters that would end it in a composed URI (no '@' in userinfo or host, no '/', '?' or '#' in host or segments, no '#' in query or fragment; the port is digits).",
  "every byte string; every parts value", "Injection safety: one bad byte in any position of any input suffices to break it.", [f"{U}:split", f"{U}:split_reference", f"{U}:parts::valid"])
p("C54","Resolving a resolved reference changes nothing",
  "join(base, join(base, ref)) == join(base, ref) whenever the base has a scheme, in strict mode or when the result has an authority, except exactly when the reference took its path from the base and that path has dot segments.",
  "all parts values", "Infinite domain, all reference forms.", [f"{U}:join", f"{U}:parts::path::remove_dot_segments"])
p("C55","operator== is a congruence",
  "Values that compare equal join to values that compare equal and are valid() together; two parsed values compare equal iff the texts they were parsed from are identical.",
  "all pairs of parts values", "Ranges over pairs of values.", [f"{U}:parts::operator==", f"{U}:join", f"{U}:parts::valid"])
p("C56","The result of join is valid and views only its inputs",
  "Every string_view of join's result is one of the base's or the reference's (or the null view, an empty segment); for the string overload it lies inside one of the two arguments, and the result is valid().",
  "all parts values; all pairs of texts", "Lifetime safety on all inputs.", [f"{U}:join", f"{U}:parts::valid"])
p("C57","well_formed() of a transcoder is a latch and never lies",
  "Any sequence of operator() and end_cp calls on any of the nine typed transcoders succeeds. well_formed() never returns from false to true; it is true exactly when the code units given so far are a well-formed text plus perhaps the beginning of another sequence, end_cp having been called only after whole text; and while it is true the output is exactly the scalar values of that text in the target form, and partial() is true iff a sequence is pending.",
  "every sequence of calls, of any length and interleaving, on every typed transcoder", "Call histories are unbounded; tests feed whole strings and call end_cp once, last.",
  [f"{IC}:transcoder::well_formed", f"{IC}:transcoder::partial", f"{IC}:transcoder::end_cp", f"{IC}:triangulator"])
p("C58","Host conversion brings in no ASCII of its own",
  "When decode succeeds, the decoded host has as many dot-separated labels as the original, and every ASCII byte of a decoded label already occurs in the original label: no Punycode can make a '.', '/', '@', ':', space or control character appear. For a valid value the decoded host therefore has none of '/?#@' and no ASCII byte outside the URI characters. Encoding a host yields ASCII only: bytes of the original, small letters, digits, '-' and '.'.",
  "every parts value and every host (encode: host of at most 2^37 bytes), every allocator", "A host that decodes to text with a delimiter is a classic spoofing attack; the attacker chooses the input, not the tests.",
  [f"{PA}:decode", f"{PA}:details::puny_decoded", f"{PU}:decode", f"{PA}:encode"])
p("C59","uri-split reports exactly what split finds",
  "The tool's exit status is zero iff every file can be opened and every line of every input is an accepted URI; its output is the report of each line in order up to the first rejected one, which is echoed, or up to the first file that cannot be opened, which the error output names in quotes; the report determines all components.",
  "every set of files and every byte stream", "Infinite domain, line structure included.", ["tools/uri-split/uri-split.cpp:read_stream", "tools/uri-split/uri-split.cpp:main"])
p("C60","Punycode error codes",
  "Each error made by make_error_code tests as an error, has the punycode category, and is told apart from the other by value and by message; message() says 'bad input' for bad input and 'overflow' for overflow, and answers 'unknown error' for every other int.",
  "every error and every int", "message() takes any int.", ["lib/uri/punycode.cpp:error_category::message", "lib/uri/punycode.cpp:make_error_code"])
p("C61","Encode, compose, split and decode undo each other",
  "Encode the components of any valid URI value whose host has no ACE label, compose the result to text, split the text and decode: every step succeeds, the split yields the encoded components, and the decoded value composes to exactly the text the original value composes to.",
  "every valid value and every accepted URI, every allocator", "The four operations are only tested separately, and on a few literals.", [f"{PA}:encode", f"{PA}:decode", f"{U}:compose", f"{U}:split"])
p("C62","Parsing takes linear time",
  "split, split_reference and valid take a number of steps (calls of rule's members and of match functions, loop turns, accept functions copied or called) bounded by a constant times the length of the text plus a constant: no text, accepted or not, makes the backtracking parser slow. For grammars of users the same holds if whatever is repeated matches no empty text and takes time in proportion to what it matches; without that it is false (*( ( *A B ) / A ) is quadratic).",
  "every byte string, every parts value, both signednesses of char; every grammar expression that meets the condition", "The worst case of a backtracking parser over all texts is not found by timing some.",
  [f"{U}:split", f"{U}:split_reference", f"{U}:parts::valid", f"{R}:rule::star", f"{R}:rule::alternative", f"{R}:rule::join", f"{RC}:rule::matched"])
p("C63","Iterators over one transcode view do not disturb each other",
  "However begin(), copies, assignments and increments of iterators of one transcode view are interleaved (no iterator being incremented at the end): every iterator refers to the element it should, whatever was done to the others, and compares equal to the end exactly when it is there. The view's well_formed(), which all of them update, stays true if the input is well-formed; once any iterator has reached the end it is true exactly if the input is well-formed, and stays so whatever is done afterwards.",
  "every program over begin/copy/assign/increment, every input of each of the nine conversions", "The interleavings of several iterators that share state through the view are unbounded; a test plays one of them.",
  [f"{IC}:transcode_view", f"{IC}:transcode_view::iterator", f"{IC}:transcode_view::well_formed"])
p("C64","How long references from percent-decoding iterators are good",
  "Dereferencing an iterator of pctdecode's iterator or view that is not at the end gives a reference that reads as the decoded character. While the text is not written to, a reference to a character that is not a triplet is good for ever; a reference to a decoded triplet is good as long as the iterator lives and is neither assigned to nor dereferenced again, dangles once the iterator is destroyed (as after *it++), and is the same object as every other such reference from the same iterator, so the last dereference shows through all of them. Equal iterators read equal characters, but refer to the same object only away from triplets. Writing through the view changes the text at that position only, except at a triplet, where the write is lost; iter_swap exchanges raw bytes.",
  "every text, every program over begin, copy, assignment, destruction, increment, dereference, write and iter_swap", "Lifetimes and aliasing depend on the whole history of a program; a test with one iterator reads the value at once and sees no difference.",
  [f"{PD}:details::deref", f"{PD}:pctdecode_iterator::operator*", f"{PD}:pctdecode_view::iterator::operator*", f"{PD}:pctdecode_view::iterator::iter_swap"])
p("C65", "Decoding after resolution can bring dot segments and slashes back",
  "pctdecode(s) is '.' for exactly '.', '%2E', '%2e' and '..' for exactly the nine texts made of two of these; it contains '/' exactly if s does or has '%2F' or '%2f' in it (likewise for every byte that is not '%' or a hexadecimal digit). Hence join leaves no '.' or '..' segment in a path that comes from the reference, whatever its arguments, but decode of its result has one exactly if the path has one written with %2E or %2e. Joining and decoding do not commute: '%2e%2e/c' against 's:/a/b/x' gives 's:/a/b/../c' when decoded last and 's:/a/c' when decoded first.",
  "every byte string; every base and reference value, every allocator",
  "A path-traversal check in the caller has to know every spelling of '..' that survives resolution; tests try a few.",
  [U + ":join, decode", PD + ":pctdecode_iterator", PA + ":parts_codec decode"])

p("C66", "Punycode takes quadratic time, and when",
  "punycode::encode of n code points, d different ones of them not ASCII, takes d*n steps up to a term of order n log n (at most (d + log2 n + 36)(n+1)), so n distinct non-ASCII code points take n*n; punycode::decode of n bytes takes at most n*n + 17n + 3 steps, and the well-formed text of L times 'a', 'b', L times 'a' takes at least L*L.",
  "every sequence of code points, every byte string, every L",
  "A bound on running time over all inputs, and a family of inputs of unbounded size that reaches it.",
  [PU + ":encode, decode, encode_vli, decode_vli, adapt, decode_loop"])

p("C67", "The store given to encode and decode must not be the one their argument refers to",
  "encode and decode return views into the store they are given, whenever they change anything. Given a value none of whose strings lies in the store's memory they do what the other properties say; given a value one of whose (non-empty) strings does, they read characters whose life has ended: encode always, decode unless it reports an error for a host that comes before. So the result of encode can be decoded with a second store, but not with the same one.",
  "every value, every store, whatever the allocator does",
  "Depends on where strings and store are in memory, for every value and every allocator; tests that reuse a store read stale bytes that happen to be right or not.",
  [PA + ":encode, decode", PA + ":parts_strings"])

p("C68", "Running out of memory leaves encode and decode harmless",
  "If std::bad_alloc is thrown anywhere in encode or decode - copying the value, converting a host in either pass, growing the store - the exception reaches the caller, the argument is untouched, and the store is as it was before, or empty, or holds a beginning of what it would have held, in the memory it would have had (basic guarantee, not the strong one: the old contents are lost). If nothing is thrown the result is that of the other properties, and the call can be made again with the store so left, or with any other, with the same result. An error code from decode leaves the store empty.",
  "every value, every store, every allocator, every point (or points) of failure",
  "Every allocation is a crash point; the number of them is not bounded.",
  [PA + ":encode, decode, parts_strings", PA + ":puny_encoded, puny_decoded"])

p("C69", "Bytes of unknown encoding, given in any order of calls",
  "Any sequence of operator() and end_cp calls to a new transcoder of bytes (to UTF-8, UTF-16 or UTF-32) succeeds, and has exactly the effect - output, well_formed(), partial() - of a certain sequence of calls to a transcoder from one encoding, which selected_encoding() names. The bytes before the first end_cp decide it: after a byte order mark, each two or four bytes are one call and each end_cp is one, even in the middle of a code unit; without one every call is passed on; while they are only the beginning of a mark (or none) nothing is written and the encoding is unknown, and an end_cp then settles on UTF-8, adds a zero byte (if there were any) and is not itself passed on. The choice of encoding is final, and a well_formed() of false too.",
  "every sequence of calls, of any length, to each of the three transcoders",
  "Quantifies over all histories of calls of a 20-state machine wrapping three others; tests only call end_cp last.",
  [IC + ":transcoder<std::byte>::operator(), end_cp, well_formed, partial, selected_encoding"])

p("C70", "The project's fuzz targets hold for every input, and where one does not",
  "No input makes split (char unsigned), pctdecode through iterators or view, pctencode, punycode::encode or punycode::decode do anything undefined, fail an assertion or run forever; compose(split(s)) == s; percent-encoding with a set other than none is undone by the decoding iterators; punycode::decode(encode(s)) == s for all code points; punycode::encode(decode(t)) has t's length and differs from it in the case of the digits only, unless t's only '-' is its first character; a valid() parts value with no 'xn--' at the start of a label of the host encodes to a valid() one and decodes to the original. The remaining target is false as written: a valid() value (such as encode returns) composes to text that split accepts if and only if it has an authority, or its path's text does not begin with '//', or what follows the '//' up to the next '/' is an authority.",
  "every input of each fuzz target: byte strings, char32_t strings, encode sets, parts values",
  "The project itself fuzzes these; a fuzzer samples, and has not found the counterexample to EncodeAndComposeValidAlwaysAgree.",
  ["unittests/uri/test_uri.cpp:UriSplitNeverCrashes, SplitComposeEqual", "unittests/uri/test_parts.cpp:EncodeAndComposeValidAlwaysAgree, EncodeDecodeRoundTrip",
   "unittests/uri/test_punycode.cpp:EncodeNeverCrashes, DecodeNeverCrashes, EncodeDecodeRoundTrip, DecodeEncodeRoundTrip", "unittests/uri/test_pctencode.cpp:EncodeNeverCrashes, RoundTrip",
   "unittests/uri/test_pctdecode.cpp:PctDecodeNeverCrashes, PctDecodeViewNeverCrashes", U + ":split, compose", PA + ":encode, decode"])

p("C71", "Percent coding of text in wider character types",
  "The percent-coding templates work on any integral character type. Decoding (iterators and view) succeeds for every text and replaces exactly the '%' followed by two hexadecimal digits, copying every other unit, however large. Encoding looks at and writes the low eight bits of a unit alone: it and needs_pctencode agree, on byte-sized units it does what it does on bytes, and with a set other than none decoding gives the text back exactly if no unit above 0xFF has low bits in the set; such a unit comes back as those bits (U+0120 as a space), and a unit above 0x7F with low bits outside the set is left in the text, unescaped (U+0141).",
  "every text of units of any size and every encode set",
  "The tests use char only; the values of a 16- or 32-bit type times all positions cannot be enumerated.",
  [PE + ":pctencode, needs_pctencode", PD + ":hex2dec, increment, deref, pctdecode_iterator, pctdecode_view"])

p("C72", "Running out of memory while parsing",
  "parts::valid, path::valid and authority::valid, which are noexcept, ask for no memory, whatever the value, so that no std::bad_alloc can end the program there: they return their result even if every request would be refused. split and split_reference make a number of requests at most proportional to the text; if all are granted they give the result they always give, and at the first that is refused std::bad_alloc leaves them: no refusal makes them accept, reject or split differently. The same holds of every grammar a user builds from concat, optional, star and alternative; one without accept functions asks for no memory.",
  "every text, every parts value, every grammar, and every pattern of granted and refused requests",
  "A failing allocator at each of the requests of each text cannot be enumerated, and the tests inject none.",
  [U + ":split, split_reference, parts::valid, path::valid, authority::valid", R + ":rule, join, join_rule, concat_impl, star, alternative, optional", RC + ":done, matched"])

p("C73", "Writing to any stream, and composing when memory runs out",
  "os << p and compose (os, p) on a good stream without a width give its device the text that compose (p) returns, as much of it as the device takes; the stream stays good exactly if that is all, and an exception leaves only if the stream was told to throw and the device did not take all (always, if told to throw for badbit). Nothing is written to a stream that is not good. A field width pads the first text inserted only (the scheme, else the '//', else the path) and is then reset. compose (p) returns the whole text if memory suffices; if the string stream's buffer can grow to k characters only it returns the first k characters with no sign of it (the stream swallows the exception), which can be another URI; if any other request fails std::bad_alloc leaves it.",
  "every parts value, every stream state, every device that stops taking characters at some point, every memory limit",
  "A device or allocator failing at each character of each text cannot be enumerated; the tests write to string streams only.",
  [U + ":compose, operator<<", UH + ":compose, operator<<"])

p("C74", "What the locale of the program can change",
  "In any locale that extends ASCII, split, split_reference, join and valid () give the result they give in the C locale for every text without a single-byte letter of the locale outside ASCII: so for every ASCII text on every platform, for every text where char is signed, and for every text in a UTF-8 locale (Turkish case rules make no difference either). Where char is unsigned, a letter outside ASCII is taken for an unreserved character (and for a letter of a scheme): a text is accepted, with the same component boundaries, exactly if it is accepted in the C locale with each such letter replaced by a 'g'; so split accepts texts that RFC 3986 does not allow.",
  "every platform, every locale allowed by ISO C that extends ASCII, every text and parts value",
  "The tests run in the C locale only; locales and texts cannot be enumerated.",
  [R + ":single_char, char_range, alpha, digit, hexdig", U + ":unreserved, split, split_reference, join", U + ":parts::valid"])

p("C75", "Chains of transcoders",
  "For every text, well-formed or not, in any of UTF-8, UTF-16 and UTF-32: transcoding it to a second encoding and the result to a third (and so on, through any number of encodings) gives the same as transcoding it straight to the last one. The texts in between are well-formed, the first transcoder's well_formed () is that of the direct one, transcoding there and back leaves a well-formed text as it is, and transcoder<X, X> is idempotent. The same holds for views of views.",
  "every text in every encoding, every chain of encodings of any length",
  "The tests convert a few texts by one transcoder each; chains, encodings and ill-formed texts cannot be enumerated.",
  [IC + ":transcoder, transcode_view"])

p("C76", "Transcode views of single-pass ranges",
  "transcode_view accepts single-pass input ranges. Over a stream whose iterators share their position (std::istreambuf_iterator), for all nine pairs of encodings and every non-empty text: a loop over the view terminates without fault and yields exactly what the transcoder writes for all code units but the last one, with well_formed () right about the whole text. So the end of the text is always lost: of a well-formed text, exactly the last character.",
  "every text and pair of encodings",
  "Tests use in-memory ranges; which input is lost depends on every way a text can end.",
  [IC + ":transcode_view, transcode_view::iterator, state::fill"])

p("C77", "Threads sharing a const view",
  "Threads share one const transcode_view, each with its own iterators (made before or after the threads start) and possibly iterators that nobody changes. In every interleaving, for every text and all nine pairs of encodings: every operation is defined and * yields what it would without the other threads; if the text is well-formed there is no data race and well_formed () answers true; the only possible race is on the view's mutable flag, between a thread that makes or moves an iterator and one that does so too, calls well_formed () or copies the view; and for a malformed text there is such a race whenever a thread moves an iterator to the end and another does so too, asks, or copies the view. Iterators over percent-encoded text: threads with their own iterators never race; threads sharing const iterators race exactly if one dereferences one that is at a triplet and another dereferences or copies it; they only read the text, nothing beyond it, and depend on no character they do not read.",
  "every text, number of threads, program and interleaving",
  "Races depend on the schedule and on the text; a test that runs threads sees one schedule and cannot see a race that happens to do no harm.",
  [IC + ":transcode_view::well_formed_, transcode_view::iterator, state::fill", PD + ":details::deref, pctdecode_view::iterator, pctdecode_iterator"])

p("C78", "The grammar file of the system tests",
  "Read systemtests/uri.abnf, byte for byte, as RFC 5234 ABNF. What split and split_reference accept are sentences of its rules URI and URI-reference, and the components they return are sentences of the rules scheme, userinfo, host, port, segment, query and fragment. What is not a sentence is rejected; a sentence of less than 2^32 characters in which there is no IPv4address is accepted. A bracketed host is valid () iff it is an IP-literal of the file.",
  "every text",
  "The grammar generates infinitely many sentences; a generator of test inputs samples them, and says nothing about texts that are not sentences.",
  ["systemtests/uri.abnf", U + ":split, split_reference", UH + ":parts::valid"])

p("C79", "Copies of a transcode view",
  "Whatever a program does with a transcode_view, copies of it (such as a pipeline makes) and their iterators: every iterator yields the elements of the text in order; iterators of different copies are never equal, and only end () of its own view stops one; well_formed () of a view is true as long as it has no iterators, tells what its own iterators (and those of the view it was copied from, before the copy) have come across and nothing else, and whether the whole text is well-formed once one of them has been at the end. So after a pipeline has consumed a malformed text, well_formed () of the view it was built from is still true.",
  "every text, every sequence of copies, begin (), iterator copies, assignments and increments, every pair of encodings",
  "The histories of any number of views and iterators are unbounded.",
  [IC + ":transcode_view, transcode_view::iterator"])

p("C80", "Matchers of single characters",
  "single_char (c), alpha, digit, hexdig and char_range (a, b) match at most one character and nothing at the end of the text or after a failure: single_char the character itself and, of a letter, the other case; alpha, digit and hexdig the ABNF rules of those names; char_range of two digits or of two letters of one case that range, of letters in both cases (found: char_range ('A', '_') matches nothing, not even 'A', and char_range ('0', 'Z') matches '_', because it compares lower-case forms). Characters 80 to FE are undefined behaviour where char is signed.",
  "every character, every text and every state of the rule, signed and unsigned char",
  "The matchers are predicates on rules of any state; the combination with the sign of char is platform dependent.",
  [R + ":single_char, char_range, alpha, digit, hexdig"])

p("C81", "The output iterator adaptor of icubaby",
  "icubaby::iterator passes what is assigned through it to its transcoder. Over std::back_inserter, whatever copies of the adaptor a program makes, assigns and writes through, and in whatever form it increments them, the container gets exactly what the transcoder makes of all the units in program order. Over a pointer into an array the same text is written from the pointer on (past the end of the array exactly if it does not fit), as std::copy does, as long as each write goes through the adaptor last written through or a copy of it. Found: it++ returns a copy, so with *it++ = c over a pointer every unit's output is written to the same place: of 'AB' only 'B' is left, although output iterators must support that form.",
  "every transcoder, every sequence of assignments, end_cp, copies and assignments of adaptors, every array size",
  "The programs are unbounded; tests use one adaptor over a back inserter.",
  [IC + ":iterator, transcoder::end_cp"])

p("C82", "Encoding commutes with resolution, decoding only without hidden dots",
  "Encoding a base and a reference and then resolving them gives, component by component, the text that resolving first and encoding the result gives, in strict and in non-strict mode, with whatever stores and allocators; for parsed texts without any condition but their size. Decoding commutes with resolution too, and the decoding of the resolved reference then succeeds, if no segment writes a dot segment with triplets; with %2e%2e the order of the two calls decides which resource is named. In non-strict mode schemes must have no percent sign (no valid scheme has).",
  "every base, reference, mode, store and allocator",
  "Tests encode or resolve a few literals; the claim compares two programs on all values.",
  [PA + ":encode, decode", U + ":join, merge, path::remove_dot_segments"])

p("C83", "What resolution asks of memory and time",
  "remove_dot_segments works in place: it asks for no memory, so throws nothing, keeps the vector's buffer and capacity, and takes a number of steps linear in the number of segments. join on parts gives the result of C15-C21 or lets std::bad_alloc through at the first request that is refused; with vectors that grow by half or more, n segments cost at most about 2*log2(n) requests and 8*n+1 steps. join on strings makes a number of requests linear in the texts and throws exactly if one of them is refused.",
  "every base, reference and mode, every vector with its capacity, every policy of choosing capacities and every pattern of refused requests",
  "A test runs with memory to spare and with one implementation of std::vector; the claim covers every point at which memory can run out.",
  [U + ":path::remove_dot_segments, merge, join"])

p("C84", "Transcoders writing to an output iterator that throws",
  "Whenever a write to the output iterator throws, exactly the code units before it have been written. From UTF-32 to UTF-8 and UTF-16, from UTF-16 to anything, through UTF-32, and from bytes, the exception meets a noexcept function and ends the program. From UTF-8 and UTF-32 to UTF-32 operator() passes it on and leaves the transcoder as if the write had succeeded: a program that catches it and goes on gets the rest of the text as usual, without exactly the code points whose writes threw. end_cp from UTF-8 and UTF-16 to UTF-32 passes it on too, changes neither partial () nor well_formed (), and can be called again with full effect.",
  "every transcoder, state, text and pattern of throwing writes",
  "A test would have to make each write of each text throw, and a terminated program reports nothing.",
  [IC + ":transcoder::operator(), end_cp, triangulator"])

p("C85", "What resolution takes from its base",
  "The result of join depends on its base only so far: never on the fragment; on the query exactly if the reference has nothing but perhaps a fragment; on the authority exactly if the reference is taken as relative and has no authority; on the path not if the reference has a scheme (that counts), an authority or a path beginning with '/'; on the last of several path segments only if the reference has no path. So for texts the base may be cut at its '#'. The base may be replaced by its directory (what '.' resolves to) for all references with a relative path exactly if the directory has one segment or does not end in an empty one; found: not if it is the root, as join keeps an only segment ('http://h/' and 'c' give 'http://h//c').",
  "every base, reference and mode",
  "Independence of a component means comparing the results for all pairs of bases that differ in it.",
  [U + ":join, merge, path::remove_dot_segments"])

p("C86", "When a rule calls the functions given to it",
  "For match functions, predicates and actions that change state and throw. concat and optional call their function once, on the text left; alternative calls its functions in order, all on the same text, until one matches or throws; single_char calls its predicate once, for the first character, if there is one; star calls on the text, on what the match left, and so on, until a call does not match, throws, or is one more than max: that match is not used, but the call was made. done answers false and runs nothing unless all text was matched; else it runs the actions in order up to the first that throws. An exception leaves the member that made the call; no rule changes. On a failed rule nothing is called. A rule that was moved from keeps its text and loses its actions. Functions without effects give the results of C11.",
  "every function, state, text and bounds",
  "The functions are the user's; what a test calls says nothing about others, nor about counts that wrap.",
  [R + ":concat, optional, star, alternative, single_char", RC + ":done"])

p("C87", "How long encode and decode of parts take",
  "encode and decode of parts take a number of steps (bytes and code points read, written and compared, strings visited) linear in the total size of the strings but for the host name, in which they are at most quadratic: encode at most 15 s + 96 (h + 8)^2 steps, decode at most 12 s + 2 (h + 18)^2, for s the sum of the strings' lengths plus one each and h the length of the host name. With a host name in ASCII encode is linear; with a host name in which xn-- does not occur decode is linear. The quadratic time is taken: by n different characters that are not ASCII, and by a label of xn-- with L letters that are inserted.",
  "every parts value, store and heap",
  "A test times some inputs; the worst case is over all host names, and the attacker chooses it.",
  [PA + ":encode, decode", PAC + ":puny_encoded, puny_decoded", PU + ":encode, decode"])

p("C88", "Which values survive compose and split",
  "For every parts value, valid or not: split of compose of the value gives an equal value exactly if the value is valid() and its path has the shape its place requires; split_reference of compose gives an equal value exactly if every component present is a sentence of its rule, the path has that shape, and without scheme and authority the first segment of a relative path has no colon (and, beyond 4 GiB, the first segment is not miscounted). So compose never gives two such values that differ the same text, and two accepted texts give equal values only if they are the same text. Decoding a value that survives, all of whose triplets outside the host denote unreserved characters and whose host has no xn-- label, gives a value that survives; for other triplets that can fail.",
  "every parts value, text and address",
  "Which of infinitely many values survive the round trip is a statement about all of them, invalid ones included.",
  [U + ":compose, split, split_reference", UH + ":parts::operator==", PA + ":decode"])

p("C89", "When a loop over a view of bytes reaches its end",
  "For every sequence of bytes and each of the targets UTF-8, UTF-16 and UTF-32: if a loop over the icubaby transcode_view of the bytes reaches its end (no assertion fails, and the fixed array in the iterator is not overrun), it yields exactly what the byte transcoder makes of the bytes, and the view's well_formed() is the transcoder's. Whether it reaches its end is decided by the text: after a UTF-8 mark, if anything follows; after a UTF-32 mark, if whole code units and at least one follow; after a UTF-16 mark, by conditions on unpaired high surrogates and a trailing odd byte that depend on the target; without a mark, if what the bytes up to the one that rules out every mark become fits in the array. Every text that does not begin with 00, FE or FF and is not just a UTF-8 mark reaches its end, and every non-empty well-formed text after its mark is yielded unchanged (in little-endian UTF-16, provided that the low byte of its first code unit is not 0).",
  "every byte sequence, every one of the three targets",
  "The set of byte sequences for which the array suffices is infinite, and so is its complement; a test shows single members.",
  [IC + ":max_output_bytes, transcode_view, transcode_view::iterator, transcode_view::iterator::state::fill, transcoder<std::byte, ToEncoding>"])

p("C90", "How much room the output of a transcoder needs",
  "For every text: what an icubaby transcoder makes of it, end_cp included, has at most k code units for each code unit of the text, where k is 3 from UTF-8 or UTF-16 to UTF-8, 4 from UTF-32 to UTF-8, 2 from UTF-32 to UTF-16 and 1 otherwise; and for every sequence of calls of operator() and end_cp it has at most k for each call. No smaller k will do: texts of every length reach the bound. One call, after any others, writes at most max_output_bytes code units, and some call writes as many. For bytes of unknown encoding k is 3, 1 and 1 (to UTF-8, UTF-16 and UTF-32), with one code unit more for seven texts that are beginnings of byte order marks; one call writes up to 10, 4 and 4 code units, where max_output_bytes says 4, 2 and 1.",
  "every text and every sequence of calls, all twelve transcoders",
  "A bound on the output for all inputs, and that it is the least one, cannot be seen from finitely many runs.",
  [IC + ":transcoder, max_output_bytes, triangulator, transcoder<std::byte, ToEncoding>"])

p("C91", "Components can be cut off, added and exchanged",
  "For every text: with a # in it, it is a URI (or a reference) exactly if what follows the first # is a fragment and what comes before is a URI (or a reference), and then it is read as that with this fragment; the same for the first ? and the query in a text without fragment. In a URI any scheme may be replaced by any other. A URI is its scheme, a colon and a relative reference, if there is no colon before the first slash, question mark or number sign of the rest; otherwise it need not be (s:a:b). And the components are independent: a value is what split_reference reads in some text exactly if each of its components is read in some text (userinfo, host and port in different ones, if need be), the path in one that has an authority if and only if the value has one and, if it has neither authority nor scheme, has no scheme either.",
  "every text, every fragment, query and scheme, and every value",
  "That acceptance of one component does not depend on the others is a statement about all combinations of components of all texts.",
  [U + ":split, split_reference, URI, URI_reference, relative_ref"])

p("C92", "Percent coding when text and output are in the same memory",
  "For every memory, text in it and place to write to: copying the decoded text (std::copy, std::ranges::copy) to a place that begins before the text, however they overlap, or beyond it, writes the decoded text and changes nothing else. Copying it onto itself does not: as the iterator is incremented after the byte was assigned, it no longer sees the percent sign, and the two digits stay (%41%42 becomes A41B42); the result is right exactly if there is no triplet or the first one is %25. The loop *out++ = *it++ does decode a text onto itself. pctencode to a place before the text is right if what is written does not overtake what is read, so if there are two places for each character that is encoded; onto the text itself it writes, after the first character that is encoded, nothing but the two digits of that one in turns, and two bytes beyond the text.",
  "every memory content, every position of text and output, every encode set",
  "Whether writing disturbs what is still to be read depends on the text and the overlap; tests use separate buffers.",
  [PE + ":pctencode", PD + ":details::deref, details::increment, pctdecode_iterator, pctdecode_view::iterator"])

p("C93", "How long a resolved reference can be",
  "For all component values (hand-made or from split), join gives a result whose composed text is at most as long as those of base and reference together and one more; the one more, a slash, is needed only where a reference path that does not begin with a slash is merged with a base path of at most one segment. The same for texts given to join. remove_dot_segments never makes the composed text longer. Resolving any number of references in a row adds at most the length of each and one, so a buffer can be sized beforehand and a chain of hostile references cannot grow faster than what is sent.",
  "every base, every reference, strict and not, every chain of references",
  "A bound on the output needs an argument over all paths; tests look at single results.",
  [U + ":merge, join, compose, parts::path::remove_dot_segments"])

p("C94", "Transcoding when text and output are in the same memory",
  "For every memory, text in it and place to write to, both by calling a transcoder for each code unit and then end_cp, and by copying a transcode_view: if what is written never overtakes what was read, or the output begins beyond the text, the memory afterwards has exactly what the text is transcoded to and is otherwise unchanged, and the transcoder (or view) says the same about the text. What is written never overtakes: for UTF-16 to UTF-16 and UTF-32 to UTF-32 with output to the text itself or before it, whatever the text; for UTF-8 to UTF-8 if the text is well-formed; for any bytes as UTF-8, or of unknown encoding, to UTF-8, if the output begins two places before the text for each byte. So well-formed UTF-8 and any UTF-16 or UTF-32 can be repaired where they are. Bytes that are not UTF-8 cannot: FF 41 42 43 becomes four U+FFFD.",
  "every memory content, every position of text and output, every text, both ways of transcoding",
  "Whether writing disturbs what is still to be read depends on every prefix of the text; tests use separate buffers.",
  [IC + ":transcoder::operator(), transcoder::end_cp, iterator, ranges::transcode_view::iterator"])

p("C95", "How far a transcode view reads",
  "For the nine conversions and every text: begin () and each increment of an iterator of the view read at most four code units of UTF-8, two of UTF-16 or one of UTF-32, so one increment never takes long. An increment reads nothing while code units of the character are still to be yielded, and otherwise at least one code unit if there is one left. As long as the text is not at its end, the code unit that was read last is the one that gave what is yielded: a character is yielded as soon as its last code unit was read. What the iterator has read, what it yields and what the view says about the text so far do not depend on what follows, whatever it is, as long as something follows.",
  "every text, every iterator that a loop reaches, every continuation of the text",
  "Reading ahead is invisible in the results that tests compare, and the worst case depends on the text.",
  [IC + ":ranges::transcode_view::begin, transcode_view::iterator::operator++, state::fill"])

p("C96", "How much longer encoding and decoding can make a URI",
  "encode makes no component but the host more than three times as long as it was, and decode makes none of them longer. decode makes the host at most four times as long. encode makes a host of n bytes at most j + 6 times as long where 10 ^ j is at least 0x110000 n (14 times for a host of up to 89 bytes, 24 times for any host of up to 2^37 bytes): the Punycode of a label has one character for each code point, one delimiter and at most j more characters for each code point that is not ASCII. No more than the sum of these is written to, and reserved in, the string given as the store. The factors three and four are the least ones: there are path segments of every length that become three times as long, and hosts of every length n + 8 that are decoded to 4 (n + 1) bytes.",
  "every parts value, every store, every behaviour of the allocator",
  "How long a text can get is a statement about the worst input of each length.",
  [PA + ":encode, decode, puny_encoded, puny_decoded", PAC + ":pct_encoded_size, pct_decoded_size", PU + ":encode, decode"])

p("C97", "Resolving references step by step",
  "In strict mode, resolving r1 against a base and then r2 against the result gives the same components as resolving r2 against r1 and the result against the base: for every base and r1 if r2 has a scheme, an authority, an absolute path or no path; for every base and r2 if r1 has a scheme, an authority or an absolute path, and no dot segments; and for every base if r1 is a relative path that has no dot segments and is empty or has two segments or more, and r2 neither climbs out of the directory of r1 nor ends with a dot segment. None of these conditions can be left out, and non-strict mode has no such law.",
  "every base and every pair of references",
  "A law about three arbitrary values; whether the order matters depends on how merging and the removal of dot segments interact.",
  [U + ":join, merge, path::remove_dot_segments"])

p("C98", "Coders that write to an output iterator that throws",
  "pctencode, std::copy of a pctdecoder, punycode::encode, puny_encoded and puny_decoded may be given an output iterator whose writes throw, and may run out of memory. Whatever throws: either nothing does, and the whole result has been written, with not one write more than it has characters; or the exception leaves the function, and what has been written is a beginning of the result, exactly the characters before the write that threw. Nothing is written twice, out of order or after the exception. If puny_decoded returns an error, the decodings of the labels before the bad one, each followed by a full stop, have been written.",
  "every input, every set of characters to encode, and every pattern of writes and requests for memory that throw",
  "A test has one iterator that throws at one place; this is about all places at once.",
  [PE + ":pctencode", PD + ":pctdecode_iterator, pctdecoder", PU + ":encode, details::encode_vli", PA + ":puny_encoded, puny_decoded"])

p("C99", "Percent-decoding and host conversion, piece by piece",
  "Percent-decoding a text in two pieces and putting the results together gives what decoding the whole gives exactly when no well-formed triplet begins in the first piece and ends in the second; if one does, its three characters stay as they are. Holding back at most two characters is enough, whatever comes next. A host name may be encoded in two pieces at every full stop that does not follow an unfinished UTF-8 sequence (at those the result differs), and decoded in two pieces at every full stop: the error reported is that of the first piece that has one.",
  "every text, every place to cut it, and every continuation",
  "Readers of a stream decode what they have; where they may cut depends on every possible neighbourhood of the cut.",
  [PD + ":pctdecode, pctdecode_iterator", PA + ":puny_encoded, puny_decoded"])

p("C100", "Rewriting a grammar built with rule",
  "The combinators obey these laws, result and accept functions included: a chain of concat calls can be grouped into a match function of its own anywhere, so concat is associative; alternative of one is concat, alternatives can be grouped, and a later copy of an alternative does nothing; a common first part can be taken out of two alternatives; optional (a) is alternative (a, nothing); an accept function can be attached inside or outside a group; star (a) is optional (a followed by star (a)); star (a, 1) is concat (a).star (a); star (a, 0, 1) is optional (a). Exchanging alternatives, taking out a common last part, and expecting optional to give back what it took do change what is matched.",
  "every match function that matches a beginning of its input (and, for star, ends and matches something), every rule, every text (of less than 2^32 characters for star (a, 1))",
  "Each law is an equation between two programs for every match function and text.",
  [R + ":concat, alternative, optional, star, matched", RC + ":matched"])

p("C101", "Encoding and decoding more than once",
  "Percent-encoding text that is encoded already makes it as much longer as the first encoding did, so it changes nothing only if the first did not (with the set none: it never changes anything). What was encoded n times is the original after decoding n times; decoding once more decodes the original text itself. pctdecode leaves a text alone exactly when there is no triplet in it; decoding a text of at most 2n + 2 characters n times always gets there, and for every n a text of 2n + 3 characters does not. Encoding a host name twice is the same as once; decoding one twice can fail after the first has succeeded. encode of the parts that encode returned leaves scheme, host and port alone, and changes nothing at all exactly when the first encode changed no userinfo, path segment, query or fragment.",
  "every text, encode set, number of rounds, and parts value (hosts up to 2^32 bytes)",
  "The number of rounds and the text are unbounded; double decoding is a classic way round a filter.",
  [PE + ":pctencode", PD + ":pctdecode", PA + ":encode, puny_encoded, puny_decoded"])

p("C102", "Shorter references to the same place",
  "Given a base and a target, join of the base and a shortened target gives the target back, component by component, exactly in these cases. Without the scheme (target with an authority): the schemes are the same and the target's path has no dot segments. Without scheme and authority (path beginning with a slash): both are the same, and no dot segments. Query and fragment alone: everything before is the same, and the base has no query if the target has none. The fragment alone: everything else is the same. A relative path: '..' as often as needed and then the rest, where the base path without its last segment is a common beginning and the segments gone up from - except that a base path of a single segment needs one '..' more than RFC 3986 prescribes (found: from http://h/a the sibling http://h/b is reached by ../b, not by b).",
  "every base, target and reference value, strict or not; for texts, every target text without its scheme",
  "A program that writes relative links relies on it for every pair of URIs.",
  [U + ":join, merge, parts::path::remove_dot_segments"])

p("C103", "Comparing and searching transcoded texts",
  "The UTF-8 that icubaby makes of texts of Unicode scalar values can be compared and searched byte by byte: `<` and `==` of the bytes are those of the code points, and the bytes of a non-empty text occur in the bytes of another exactly where the text occurs in the other, so that what comes before and after is UTF-8 again. The same is true the other way of well-formed UTF-8 that is decoded. UTF-16 can be searched code unit by code unit, but it is in the order of the code points only if no code point is between U+E000 and U+FFFF or none is above U+FFFF. Bytes that are not UTF-8 are not in the order of what is read of them.",
  "every two texts of scalar values, and every way of cutting the one in three",
  "The texts and the places of the occurrences are unbounded; a test can only compare and search samples.",
  [IC + ":transcoder<char32_t, char8_t>, transcoder<char32_t, char16_t>, transcoder<char8_t, char32_t>"])

p("C104", "Iterators of percent-decoded text are forward iterators",
  "An iterator at the beginning of a range of text, made by pctdecode_begin, pctdecoder or the view, that is incremented n times is inside the range and shows the n-th character of what pctdecode makes of the range; decoding what is before it gives the first n characters and decoding from it on gives the others. It is equal to the end after exactly as many increments as the decoded text has characters, so that std::distance is the decoded size, and one more increment is a failed assertion. Two iterators from the same beginning are equal exactly when they were incremented the same number of times; equal iterators show the same and are equal after ++. Comparing iterators of ranges with different ends is a failed assertion.",
  "every text, every range of it (also one that ends inside a triplet), every number of increments",
  "Positions and decoded characters drift apart by two with every triplet; each of the unboundedly many positions has to be right.",
  [PD + ":pctdecode_iterator, pctdecoder, pctdecode_view, increment, deref"])

p("C105", "Decoding and encoding again is a normal form, and when it is safe",
  "Decoding a text and encoding it again gives a text that decodes to the same and that a second round does not change; the text comes back unchanged exactly if each of its percent signs begins a triplet of upper-case digits for a character of the set and no other character is in the set; two texts become the same exactly if they decode to the same. decode and then encode of a valid URI value without xn-- labels both succeed, keep scheme, host and port, bring every other string to that form, and give a value that decodes to the same. The result is valid, and is what split finds in its text, exactly if no string of the value stood for a character that encode leaves alone although it means something there or may not be there: '/[\\]^|' in a segment, '[\\]^`{|}' in the query, '#[\\]^`{|}' in the fragment. For others 'a%2Fb' becomes 'a/b' and 'c%23d' no URI at all.",
  "every text and encode set other than none; every valid parts value whose host has no xn-- label (at most 2^37 bytes), stores and allocators",
  "Whether two spellings fall together, and whether a URI changes its meaning, depends on every character of unboundedly many texts.",
  [PA + ":encode, decode", PE + ":pctencode", PD + ":pctdecode", PEC + ":needs_pctencode"])

p("C106", "Decoding a host name and encoding it again",
  "An ASCII host name that puny_decoded accepts is brought to a normal form by encoding the result again: it comes back unchanged exactly if every label that starts with xn-- is the encoding of a label of Unicode scalar values that is not pure ASCII (so no digits in upper case, no lone delimiter, no surrogates, no needlessly encoded label); the number of labels and being a reg-name are kept. What comes out decodes to the same text as before exactly if that text has no ASCII label that starts with xn-- itself; two such names fall together exactly if they decode to the same. decode and then encode of a valid value whose host can be decoded both succeed; its host stays under the same condition, and the result is valid exactly if, besides C105's condition, the parser accepts the new host. Not all hosts are safe: xn--127-.0.0.1, a reg-name, becomes the address 127.0.0.1, xn--1-.2.3.4.com a host that split rejects, and xn--xn--tda- becomes xn--tda, which decodes to something else.",
  "every ASCII host name of at most 2^35 bytes; every valid parts value with such a host, stores and allocators",
  "Whether a label is the only spelling of its name depends on every digit of an unbounded variable-length encoding.",
  [PA + ":puny_decoded, puny_encoded, encode, decode", PU + ":encode, decode"])

p("C107", "What the strict argument of join changes",
  "strict makes no difference unless the reference has a scheme that is, byte for byte, the scheme of the base. If it is, then without strict the reference is resolved as if it had no scheme, and with strict as if there were no base; the two results have the same text exactly if the reference has an authority, or neither has one and the reference's path begins with a slash, or is empty like the base's and the base's query is not taken, or gives the same after being merged with the base's (not absolute) path as alone. For text: without strict, the base's scheme and a colon in front of a reference change nothing, provided that the reference has no colon before its first slash, question mark or hash; in particular the scheme and a colon alone stand for the base without its fragment, with strict for a URI with an empty path. The comparison distinguishes upper and lower case: against http://a/b, HTTP:g stays HTTP:g in both modes.",
  "every base, reference and mode, as values and as text",
  "Which components the two modes share depends on all components of both arguments and on arbitrarily long paths.",
  [U + ":join, merge, path::remove_dot_segments", UH + ":join"])

p("C108", "Upper and lower case",
  "Whether split and split_reference accept a text, and where they cut it, does not depend on the case of its ASCII letters; neither does valid(). join with strict, pctdecode and pctencode (any set) of texts that differ only in case give results that differ only in case. Two places do depend on case: join without strict compares the schemes byte for byte, and puny_decoded takes only labels that start with xn-- in lower case as encoded (XN--TDA is left as it is, xn--TDA is decoded).",
  "every pair of texts or values that differ in nothing but the case of ASCII letters",
  "There are as many spellings as subsets of the letters of an arbitrarily long text.",
  [U + ":split, split_reference, join, parts::valid", PD + ":pctdecode", PE + ":pctencode", PA + ":puny_decoded"])

p("C109", "How deep calls nest while parsing",
  "The stack that split, split_reference and valid() need does not grow with the text: split never has more than 53 calls of the library open at a time, split_reference 56, valid() 40, and there are texts that reach these numbers. For any matcher put together from concat, optional, star and alternative the depth is bounded by how deeply the program nests them: star loops, and only alternative calls itself, once per alternative.",
  "every text, every parts value, and for the general bound every matcher and every start",
  "A parser that recursed once per character or per segment would pass all tests and overflow the stack on a long hostile text.",
  [R + ":concat, optional, star, alternative, single_char", RC + ":done, matched", U + ":split, split_reference, parts::valid"])

p("C110", "Counting and finding code points in any text",
  "Also for text that is not well-formed, icubaby::index(text, n) is exactly the place where an element begins a code point and n begin before it, or the end if there is none; length is additive over pieces cut anywhere; index gives the end exactly from length on; the text before index(text, n) has n code points or all; greater numbers give later places; m + n code points on is m on and then n on. Cutting well-formed text at places found by index gives the well-formed text of the code points between, and no character is ever cut, whatever stands around it. With a projection the results are those for the projected elements; length projects each element once, in order, and index none behind the one found. Of malformed text length can be less and can be more than the number of code points the transcoder makes.",
  "every sequence of code units, well-formed or not, all numbers m and n, every projection",
  "Tests use a few short texts; the laws concern every text, every number and every way of cutting it.",
  [IC + ":length, index, is_code_point_start"])

p("C111", "How much memory parsing holds",
  "At any time while a text of n characters is parsed the library holds at most 1350 n + 27000 accept functions and segments together (split; 2800 n + 53000 for split_reference), in all the vectors of all rules and results that exist at that time, temporaries included, whether the text is accepted or not. When it is accepted at least twice the number of segments is held, so the memory is proportional to the text at worst and that cannot be improved. For any matcher put together from the combinators what is held at a time is at most the number of steps.",
  "every text, and for the general bound every matcher and every start",
  "Each rule of a chain is a copy of the accept functions collected so far; that these copies do not multiply is a statement about every text.",
  [R + ":rule, concat_impl, optional, star, alternative, join", RC + ":done, matched", U + ":split, split_reference"])

p("C112", "References that cannot leave the directory of the base",
  "Joining a base with a reference that has no scheme, no authority and a path not starting with a slash, no beginning of which has more segments `..` than segments other than `.` and `..`, gives a URI with the scheme and authority of the base whose path begins with the segments of the directory of the base (those before `c` in what the reference `c` resolves to); as text, it begins with what `c` resolves to without the `c`, unless the directory ends in an empty segment. Whether a reference of this form does so with every valid base is decided by that count alone: for any other there is a valid base out of whose directory it leads. A segment `%2e%2e` or `...` is an ordinary one.",
  "every base, every reference with a relative path, strict or not",
  "A server that checks links relies on no reference of that form leading out, whatever the base and however long.",
  [U + ":join, merge, parts::path::remove_dot_segments, compose"])

p("C113", "What other readers of a text take for its host",
  "Any other reader that looks for userinfo, host and port behind the first colon and two slashes finds in an accepted text exactly those that split reports, and none exactly when split reports none, whichever of its habits: whether it takes the first or the last `@`, the first or the last colon of a host without brackets, and which characters besides `/`, `?` and `#` end the authority for it, as long as those (such as a backslash or a space) are in no URI. The same holds for split_reference. A reader that searches for `://` agrees when there is an authority. Where they err: in `a:/b?u=c://h/` there is none; a browser takes `h` as the host of `http:/h/x` and `http:///h/x`.",
  "every accepted text and every choice of habits",
  "Programs that check a URI with one reader and open it with another are attacked where the two differ; that there is no such text is a statement about all accepted ones.",
  [U + ":split, split_reference, authority, userinfo, host, port"])

p("C114", "Lists of encoded texts between delimiters",
  "If an encode set other than none encodes a delimiter (and the delimiter is not `%`), then the encodings of any texts, joined by the delimiter, are exactly the texts between the delimiters of the result, and each decodes to the text it was made from; a set and a delimiter for which this does not hold have a text whose encoding contains the delimiter. So behind a URI without query and fragment, pairs of names and values encoded with component or form_urlencoded and joined by `=` and `&` are what split returns as the query, cut back into the pairs; and texts joined by `/` behind an authority are what split returns as the segments. It fails for `/` with the set path and for `&` with the set query, when decoding comes before cutting, and the segments `.` and `..` do not survive resolution.",
  "every list of texts (any bytes), every set and every delimiter; every accepted URI before the `?`",
  "That no text of any length smuggles a delimiter into a list is a statement about all texts.",
  [PEC + ":needs_pctencode", PE + ":pctencode", PD + ":pctdecode", U + ":split"])

p("C115", "What it means that a URI begins with another",
  "Let an accepted text have an authority, no query and no fragment. If it ends in a slash, an accepted text begins with it exactly if scheme and authority (userinfo, host and port) reported by split are the same and the path has the same segments and at least one more. If it ends with its authority, an accepted text that begins with it has this scheme and authority exactly if nothing, `/`, `?` or `#` follows: `http://h` begins `http://h.x/`, `http://h@x/` and `http://h:1@x/`. Dot segments are not looked at: `http://h/a/../b` begins with `http://h/a/`, so that resolution has to come first.",
  "every two accepted texts",
  "A program that compares the beginning of a URI with an allowed one relies on it for all texts that may follow.",
  [U + ":split, authority, path_abempty"])

p("C116", "Accepted texts cut short",
  "What is left of an accepted text that is cut anywhere behind its authority (behind the colon of the scheme if it has none) is accepted exactly if it does not end inside of a percent-encoded triplet, and then has the same scheme, userinfo, host and port. Cut inside of the authority it may be accepted with another host: `http://user:12@h/` cut behind `12` has the host `user` and the port `12`.",
  "every accepted text, every place to cut (rests shorter than 2^32 characters)",
  "Texts are cut by buffers and logs at any place.",
  [U + ":split, hier_part, query, fragment"])

p("C117", "Which references stay on the server of the base",
  "An accepted reference that does not begin with `//` and has no `:` before its first `/`, `?` or `#` resolves to the scheme and authority of the base, whatever the base and whether or not resolution is strict; for any other accepted reference there is a base with which it does not. The test of the first character alone errs: `//x` begins with a slash and leads to the server `x`.",
  "every accepted base and reference, both values of strict",
  "Redirects are checked by such tests of their text; a test has to hold for every base and reference.",
  [U + ":join, split_reference, relative_part"])

p("C118", "Text appended to an accepted text",
  "Text appended to an accepted URI never changes the scheme; it changes the authority exactly if it begins behind an authority that ends the text with something other than `/`, `?` or `#`, or adds the slash (or both) that makes `//` behind the scheme. Behind a query only more query characters and a fragment can be appended, and behind a fragment only more fragment characters; all other components stay as they were. Otherwise it goes on with the path.",
  "every accepted URI and every appended text, accepted together",
  "Parameters are appended to texts by string concatenation, wherever they end.",
  [U + ":split, hier_part, query, fragment"])

p("C119", "Filling the holes of a template",
  "If an accepted text has a hole - a place behind its authority (behind the colon of the scheme if it has none) and one character more, and not inside of a percent-encoded triplet - and any text whatever is encoded with the component or form-urlencoded set and put into it, the result is accepted; its scheme, authority, number of segments and all components but the one that the hole is in are those of the template; and that one decodes to what the parts beside the hole decode to, with the text itself between. The same holds of any segment text (unencoded) as far as acceptance and components go. If the template has no dot segments and the component with the hole does not become one, resolving the result leaves it as it is.",
  "every accepted text, every hole, every text filled in (results shorter than 2^32 characters)",
  "Texts are made from templates, with input of users in the holes.",
  [U + ":split, hier_part, query, fragment", PE + ":pctencode", PD + ":pctdecode"])

p("C120", "Holes in the authority of a template",
  "If an accepted text has a hole in a host that is a name (not inside of a triplet), any text of name characters and triplets - in particular any text at all, encoded with the component set - can be put into it: the result is accepted exactly if the new host is one that is accepted (it is, unless an IPv4 address is a proper beginning of it; a host that does not begin with a digit always is), and then only the host has changed, by that text. A hole in the userinfo can be filled with any userinfo text and only the userinfo changes. What is encoded so cannot end the host or begin a userinfo, a port or a path. An IPv4 address filled in before a dot makes the text be rejected, and unencoded text can replace the host.",
  "every accepted text with an authority, every hole in its host or userinfo, every text filled in",
  "Host names are made from templates with names of tenants in them.",
  [U + ":split, authority, host, reg_name, userinfo", PE + ":pctencode"])

p("C121", "Moving documents together",
  "If two documents have the same place below two roots (which do not end in an empty segment), every reference with a relative path that does not lead out of the root - no beginning of the place and the path together has more `..` than ordinary segments - leads from both to the same place below their roots, with the same query and fragment; the resolved texts are the texts of the roots with the same text behind. A reference that leads out of the root need not.",
  "every two bases and roots, every such reference, strict or not",
  "Sites are moved, and mirrored, as a whole; their links have to go on working wherever they are.",
  [U + ":join, merge, path::remove_dot_segments"])

p("C122", "References that lead to the same place from every base",
  "With strict resolution two references give the same components from every base that split accepts exactly if they mean the same: with a scheme, all components after remove_dot_segments; with an authority, the rest likewise; with a path from the root, its segments without dot segments, query and fragment; with a relative path, how far it leads up, the segments down from there (and an empty one, if it ends with a dot segment), query and fragment; without a path, query and fragment. Then they do so from every value at all. Without strict resolution, exactly if they also mean the same without their schemes. A relative path leads from the directory of the base up, as far as that is possible, and then down. It is interchangeable with the path that goes straight up and then down.",
  "every two references, all bases at once; strict or not",
  "Whoever shortens, compares or caches links has to know when two of them are interchangeable everywhere; that quantifies over all bases, of any depth.",
  [U + ":join, merge, path::remove_dot_segments"])

p("C123", "Searching percent-encoded texts",
  "With any set other than none, the encoding of one text begins with that of another exactly if the texts do, and two encodings are equal exactly if the texts are. An occurrence of one encoding in another that does not begin inside of a triplet is an occurrence of the text, and what is before and behind it are the encodings of what is before and behind there. So a text that does not begin with 0-9 or A-F is found in another, and at its end, exactly if its encoding is found in, or at the end of, the encoding; for every text that begins with one of these characters there is one in whose encoding it is found although it does not occur in it. Encoded texts do not sort as the texts do.",
  "every two texts (any bytes), every encode set; every place of an occurrence",
  "Stored URIs are searched and compared without decoding them; whether that can mislead is a question about all texts and positions.",
  [PE + ":pctencode", PEC + ":needs_pctencode"])

p("C124", "Templates of references",
  "If split_reference reads a text without a scheme, and the text has a hole behind its authority and at least one more character, and not inside of a percent triplet, then any text of segment characters (with a colon only if a slash, ? or # comes before the hole) can be filled in: the result is read as before but for one segment, or the query, or the fragment, which has the text inserted. Any bytes encoded with component or form_urlencoded can, and what they are in decodes to what is beside them with the bytes between. If there are no dot segments before or after, resolving the filled template against any base gives what resolving the template does, with the text inserted in the same component.",
  "every template and hole, every filling, every base",
  "Links in pages are made from templates, mostly relative ones; what is filled in comes from users.",
  [U + ":split_reference, join", PE + ":pctencode"])

p("C125", "Bases that do for each other",
  "Two base URIs resolve every reference alike, strict or not, exactly if the empty reference leads to the same place from both, that is, if they differ in nothing but the fragment. They resolve every reference that has a path or an authority alike exactly if the one reference c does. They resolve every reference that has an authority or a path with a leading slash alike exactly if the one reference / does, that is, if scheme and authority are the same.",
  "all pairs of bases, all references, both modes",
  "A crawler that keeps results per base, or moves a page, must know when two bases are interchangeable: the references that pages will contain cannot be listed.",
  [U + ":join, merge", UH + ":remove_dot_segments"])

if __name__ == "__main__":
    out = os.path.join(os.path.dirname(os.path.dirname(os.path.abspath(__file__))), "properties.jsonl")
    with open(out, "w") as f:
        for x in P: f.write(json.dumps(x) + "\n")
    print(len(P))
