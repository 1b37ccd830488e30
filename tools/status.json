{
 "C02": [
  "proved",
  "C02_split_exact is the full equivalence; C02_split_complete the readable form below 4 GiB; the excepted sentences are proved to be rejected (C02_split_rejects_bad_host) and to exist (C02_counterexample, C02_count_counterexample)."
 ],
 "C03": [
  "proved",
  "As C02."
 ],
 "C06": [
  "proved",
  "C06_split_compose_exact is the equivalence; C06_counterexample shows the condition to be needed."
 ],
 "C07": [
  "proved",
  ""
 ],
 "C08": [
  "proved",
  "The segment of the path '/' is a default (null, empty) view; proved to be the only exception."
 ],
 "C09": [
  "proved",
  "The exception is witnessed by C09_counterexample and proved to be the only fault."
 ],
 "C12": [
  "proved",
  "Exact, for bracketed hosts of any length; an IPvFuture whose two counted runs are a multiple of 2^32 long is rejected (counter wrap) and excepted by FutureCounted."
 ],
 "C13": [
  "proved",
  "Component-wise, any length; HostAccepted excepts the hosts of C02."
 ],
 "C10": [
  "proved",
  "C10_exact and C10_chain hold for every grammar expression and every text; G.built is the parser with the 32-bit counter, C11_built_is_parse says when it is the parser of the specification."
 ],
 "C11": [
  "proved",
  "C11_exact, C11_chain and C11_alternative hold for every expression and every text (G.built: counter of 32 bits, divergence). C11_built_in_language: never outside the ABNF language if min <= max. C11_built_is_parse: equal to the ideal parser if nothing nullable is repeated without bound and unlimited repetitions have no lower bound or the text is below 4 GiB. The counterexamples show that each condition is needed."
 ],
 "C16": [
  "proved",
  "C16_join_strings for all strings that parse; C16_merge_built, C16_merge_exact and C16_counterexample give the deviation from RFC 3986."
 ],
 "C17": [
  "proved",
  "C17_exact for every path; C17_conforms_iff says when the result is that of RFC 3986; C17_counterexample."
 ],
 "C21": [
  "proved",
  "C21_compose_split_exact is the equivalence; C21_counterexample."
 ],
 "C32": [
  "proved",
  "C32_exact for results of at most 2^26 32-bit values or 2^37 code points; C32_total and C32_sound for all texts below the address space."
 ],
 "C29": [
  "proved",
  "For sequences of at most 2^26 32-bit values, or 2^37 Unicode code points (beyond, the encoder's 64-bit delta can wrap)."
 ],
 "C30": [
  "proved",
  "Up to digit case and a lone leading delimiter, as stated; both exceptions are witnessed."
 ],
 "C24": [
  "proved",
  "The two deviations are witnessed by counterexample theorems."
 ],
 "C27": [
  "proved",
  "C27_iterMove is exact; C27_iterMove_counterexample."
 ],
 "C28": [
  "proved",
  "Exact conditions; C28_fragment_counterexample."
 ],
 "C45": [
  "proved",
  "All nine typed conversions; C45_bytes_false and C45_bom_only_false for bytes of unknown encoding."
 ],
 "C46": [
  "proved",
  "Exact, for every byte string (C46_exact), with the list of deviations from the Standard (C46_conforms_iff, C46_false)."
 ],
 "C50": [
  "proved",
  "All nine conversions; C50_false and C50_false_utf16 exhibit iterators that are equal at different elements."
 ],
 "C51": [
  "proved",
  "All nine conversions; C51_utf8_cases: every text is in one of the two cases; C51_false is a concrete instance of the defect."
 ],
 "C52": [
  "proved",
  "C52_standard: the recommended reading exists and is unique; C52_false exhibits the deviation."
 ],
 "C34": [
  "proved",
  "Hosts of at most 2^37 bytes. C34_exact is an equivalence, so well-formedness and the xn-- condition are both needed; C34_unique shows that the specification determines the output."
 ],
 "C35": [
  "proved",
  "For up to 2^32-6 path segments (an unsigned index wraps) and hosts of at most 2^37 bytes; every store and allocator."
 ],
 "C36": [
  "proved",
  "Up to 2^32-6 path segments; the exception is witnessed by C36_counterexample."
 ],
 "C37": [
  "proved",
  "For up to 2^32-6 path segments, hosts of at most 2^37 bytes; allocators return non-null addresses. C37_exact is an equivalence."
 ],
 "C38": [
  "proved",
  "Hosts of at most 2^37 bytes, up to 2^32-6 segments."
 ],
 "C39": [
  "proved",
  "For up to 2^32-6 path segments."
 ],
 "C53": [
  "proved",
  "The rejecting direction assumes CtypeSafe (C09)."
 ],
 "C54": [
  "proved",
  "An exact condition (iff), with the exception witnessed by C54_counterexample."
 ],
 "C55": [
  "proved",
  ""
 ],
 "C56": [
  "proved",
  ""
 ],
 "C59": [
  "proved",
  "CtypeSafe (C09) lines; UriLine is RFC 3986 with the exceptions of C02. Stream failures are not modelled."
 ],
 "C60": [
  "proved",
  ""
 ],
 "C61": [
  "proved",
  "Path segments below 2^32/3 bytes, hosts of at most 2^37 bytes and without ACE (xn--) labels, see C34 for those."
 ],
 "C57": [
  "proved",
  "All nine typed transcoders, exact (iff). The byte transcoder of unknown encoding is covered by C46 and C69 instead."
 ],
 "C58": [
  "proved",
  "Bounds: at most 2^32-6 path segments (the visitor's unsigned index), host shorter than 2^64-2 bytes (decode) or at most 2^37 (encode)."
 ],
 "C33": [
  "proved",
  "C33_truncated: a text that ends inside an integer whose last digit is '0'-'9' is always rejected; every other truncation is covered by C32_sound (whatever is accepted is an encoding)."
 ],
 "C62": [
  "proved",
  "The steps are counted by Verif/Model/Cost.lean; forgetting the count gives the functions of the other theorems (first half of each statement). C62_grammar: the criterion for any grammar; C62_counterexample: it is needed."
 ],
 "C63": [
  "proved",
  "Model/Shared.lean: the view's flag, shared by the iterators; Positions is the specification (numbers of elements passed)."
 ],
 "C64": [
  "proved",
  "Model/Refs.lean: iterators as objects with lifetimes, references as names of objects, text as memory. Shows is the specification of the decoded character at a position."
 ],
 "C65": [
  "proved",
  "Fewer than 2^32-6 path segments for the decode half, as in C36; null views are empty."
 ],
 "C66": [
  "proved",
  "Steps: turns of loops and elements copied, compared or moved; std::sort counts n(log2 n + 1). The lower bound for encode is for texts the library encodes without wrapping (2^26 code points, or 2^37 Unicode ones)."
 ],
 "C67": [
  "proved",
  "Model/Alias.lean: encode and decode reading through views only while the characters live. Path of fewer than 2^32-6 segments, hosts up to 2^37 bytes, as in C35. std::vector::clear ends the life of the characters (C++20 [basic.life]), whether or not their memory is still there."
 ],
 "C68": [
  "proved",
  "Model/Throw.lean: an oracle says which calls throw, and after how many characters written. push_back is taken not to throw while the capacity suffices (it always does, C35, C36). The argument is passed by const reference; that it is not changed is the type's doing."
 ],
 "C69": [
  "proved",
  "All histories of calls, all three targets. callContent (Spec/Calls.lean) states the sequence of inner calls as built; C69_false lists what is wrong with it."
 ],
 "C70": [
  "proved",
  "Each FUZZ_TEST of unittests/uri as a theorem; C70_compose_accepted is the exact condition for the one that fails (C70_compose_valid_counterexample). Hosts of at most 2^37 bytes, up to 2^32-6 segments of less than 2^32 bytes."
 ],
 "C71": [
  "proved",
  "C71_left and C71_roundtrip are exact: which units survive, and what is left of the others; C71_counterexample shows the loss. A unit is its value as an unsigned number."
 ],
 "C72": [
  "proved",
  "Exact: the number of requests, and where an exception leaves. Assumes that an empty vector asks for no memory (as those of the three main implementations do)."
 ],
 "C73": [
  "proved",
  "C73_truncated is exact; C73_truncated_counterexample shows http://good.example.evil.test/ composed to http://good.example. Streams as [ostream.formatted.reqmts] has them; locale and internal adjustment (as right) aside."
 ],
 "C74": [
  "proved",
  "Model/Locale is the grammar again over an arbitrary locale; Proofs/Locale a simulation under a renaming of characters."
 ],
 "C75": [
  "proved",
  "All nine transcoders of character types."
 ],
 "C76": [
  "proved",
  "The property a user would rely on (the view yields all of the text, C45) is false for such ranges; the theorems say exactly what is yielded."
 ],
 "C77": [
  "proved",
  "Sequentially consistent interleavings; a race is two unordered conflicting accesses, so in the racy cases nothing is claimed beyond the race itself. Sharing a const view of a malformed text is not safe."
 ],
 "C78": [
  "proved",
  "The exception for texts that contain an IPv4 address is needed because of hosts such as 1.2.3.4.com (C02), and is exact there. The reader of the notation (Spec/AbnfNotation) is part of the specification."
 ],
 "C79": [
  "proved",
  "The flag after k increments is that of a single iterator (C43, C57). Assignment to a view is not modelled."
 ],
 "C80": [
  "proved",
  "\"C\" locale; for others see C74. char_range is stated for ASCII bounds (its model compares bytes, and the EOF value only arises outside ASCII)."
 ],
 "C81": [
  "proved",
  "Generic in the transcoder; that the calls succeed for the twelve transcoders is C57 and C69. Two kinds of wrapped output iterator are modelled: array pointer and back inserter."
 ],
 "C82": [
  "proved",
  "Bound: fewer than 2^32 - 6 segments in base and reference together, hosts up to 2^37 bytes to encode."
 ],
 "C83": [
  "proved",
  ""
 ],
 "C84": [
  "proved",
  ""
 ],
 "C85": [
  "proved",
  "Exact (iff) for query, authority and directory."
 ],
 "C86": [
  "proved",
  "Each member is characterised by an equivalence; star with any number of rounds."
 ],
 "C87": [
  "proved",
  "The counting model returns what the model returns (C87_results). Steps inside the allocator are not counted."
 ],
 "C88": [
  "proved",
  "Four exact or two-way statements and counterexamples for reserved characters."
 ],
 "C89": [
  "proved",
  "Exact conditions for each of the ways in which a text can begin, a theorem that these are all the ways, and counterexamples."
 ],
 "C90": [
  "proved",
  "Upper bounds for all texts and histories, each attained."
 ],
 "C91": [
  "proved",
  "Equivalences in both directions; with counterexamples for the conditions on scheme and path."
 ],
 "C92": [
  "proved",
  "Exact conditions for output onto the text itself."
 ],
 "C93": [
  "proved",
  "Bound attained by concrete cases."
 ],
 "C94": [
  "proved",
  "Generic in the transcoder; the view is proved equal to the list model as long as nothing unread is overwritten."
 ],
 "C95": [
  "proved",
  "Bounds attained by concrete texts."
 ],
 "C96": [
  "proved",
  "From the RFC 3492 relation: each digit of a variable-length integer but the last two multiplies it by ten or more."
 ],
 "C97": [
  "proved",
  "Counterexamples are proved for every condition."
 ],
 "C98": [
  "proved",
  "`std::string` members that grow are taken to ask for memory once for each non-basic code point and once for each label; memory running out inside `encode` and `decode` of whole URIs is C68."
 ],
 "C99": [
  "proved",
  ""
 ],
 "C100": [
  "proved",
  "Match functions are pure functions of the text in the model."
 ],
 "C101": [
  "proved",
  ""
 ],
 "C102": [
  "proved",
  ""
 ],
 "C103": [
  "proved",
  ""
 ],
 "C104": [
  "proved",
  ""
 ],
 "C105": [
  "proved",
  ""
 ],
 "C106": [
  "proved",
  "Hosts of at most 2^35 bytes, so that what they decode to has at most 2^37."
 ],
 "C107": [
  "proved",
  ""
 ],
 "C108": [
  "proved",
  ""
 ],
 "C109": [
  "proved",
  ""
 ],
 "C110": [
  "proved",
  ""
 ],
 "C111": [
  "proved",
  ""
 ],
 "C112": [
  "proved",
  ""
 ],
 "C113": [
  "proved",
  ""
 ],
 "C114": [
  "proved",
  ""
 ],
 "C115": [
  "proved",
  ""
 ],
 "C116": [
  "proved",
  ""
 ],
 "C117": [
  "proved",
  ""
 ],
 "C118": [
  "proved",
  ""
 ],
 "C119": [
  "proved",
  ""
 ],
 "C120": [
  "proved",
  ""
 ],
 "C121": [
  "proved",
  ""
 ],
 "C122": [
  "proved",
  "Exact (iff), for all kinds of references."
 ],
 "C123": [
  "proved",
  "The condition on the first character is exact."
 ],
 "C124": [
  "proved",
  ""
 ],
 "C125": [
  "proved",
  "The references range over parts; C125_counterexamples shows through the strings that the weaker tests do not imply the stronger, and that http://h and http://h/ are not interchangeable."
 ]
}