# A Lean 4 model of paulhuggett/uri

This file says what is modelled, what is trusted, how each property of
`properties.jsonl` is stated and proved, and where the code was found to
violate a property.  `MANIFEST.json` maps properties to theorem names.

## 1. Trusted base

* Lean 4.33.0's kernel.  Axioms: at most `propext`, `Classical.choice`,
  `Quot.sound`.  No axioms are declared here; no compiled-code tactics are used.
* The reading of the C++: every definition of the model cites file and lines.
  The code is not executed here, so this reading is the only tie to it.
* C++ semantics assumed by the model
  * `char` is 8 bits; bytes are `UInt8`.  Whether `char` is signed is a
    parameter (`Plat.charSigned`); a `<cctype>` call on a negative value other
    than `EOF` (-1) is the distinct outcome `Fault.ctype`.
  * the "C" locale is in force for `isalpha`, `isdigit`, `isxdigit`,
    `isalnum`, `tolower`, except in C74, which says what another locale changes.
  * `unsigned` is 32 bits, `size_t`/`std::size_t` is 64 bits; both wrap, and the
    model wraps explicitly where the code's arithmetic is done in them.
  * memory allocation succeeds, except in C68, whose model of `encode` and
    `decode` (`Model/Throw`) can throw `bad_alloc` at every allocation;
    `std::vector`, `std::string`, `std::optional`, streams behave as the standard
    says.
  * a `string_view` is an address and the bytes seen through it
    (`SV`): address 0 is the null view.  Lifetime of the *caller's* buffer is
    the caller's obligation; lifetimes of the library's own `store` are modelled:
    a `Store` is an address, its bytes, its capacity and the number of
    allocations so far, and the allocator (addresses handed out, slack added to
    a request) is a universally quantified parameter `Heap`.
  * `std::filesystem::path::operator/=`: POSIX, modelled from the standard.
* Standard texts transcribed in `Verif/Spec`: RFC 3986 ABNF (from
  `/repo/systemtests/uri.abnf`, which is the RFC's appendix A), sections 5.2.2 -
  5.2.4 and appendix B; Unicode table 3-7; UTF-16 definition; WHATWG
  percent-encode sets; RFC 3492.

## 2. What is modelled

| module | code |
| --- | --- |
| `Verif/Model/Base.lean` | bytes, `string_view` (`substr`, `remove_prefix`), faults, `<cctype>` |
| `Verif/Model/Rule.lean` | `include/uri/rule.hpp`, `lib/uri/rule.cpp` - every member function |
| `Verif/Model/Grammar.lean` | `lib/uri/uri.cpp` 25-703 - every matcher, every acceptor |
| `Verif/Model/Uri.lean` | `lib/uri/uri.cpp` 721-1028, `uri.hpp` - `valid`, `==`, `split`, `split_reference`, `join`, `compose`, `operator<<`, path conversions |
| `Verif/Model/Ranges.lean` | `find_last.hpp`, `starts_with.hpp` |
| `Verif/Model/Pct.lean` | `pctencode.hpp`, `pctencode.cpp`, `pctdecode.hpp` (algorithm, iterator, range, view) |
| `Verif/Model/Punycode.lean` | `punycode.hpp` |
| `Verif/Model/Icubaby.lean` | `icubaby.hpp` - the nine typed transcoders, the byte transcoder, the iterator adaptor, `transcode_view`, `length`, `index` |
| `Verif/Model/PartsCodec.lean` | `parts.hpp`, `parts.cpp` - visitors, `puny_encoded`/`puny_decoded`, the two passes of `encode`/`decode` and their store |
| `Verif/Model/Cost.lean` | `rule.hpp`, `rule.cpp` and the grammar of `uri.cpp` again, with the number of steps taken |
| `Verif/Model/PunyCost.lean` | `punycode.hpp` again, with the number of steps taken |
| `Verif/Model/Shared.lean` | several iterators of one `transcode_view`, sharing its `well_formed_` |
| `Verif/Model/Refs.lean` | the iterators of `pctdecode.hpp` as objects: what their references refer to, writing through them, `iter_swap` |
| `Verif/Model/Alias.lean` | `encode`/`decode` of `parts.hpp` again, for values that refer to the store |
| `Verif/Model/Throw.lean` | `encode`/`decode` of `parts.hpp` again, with `std::bad_alloc` wherever an oracle says |
| `Verif/Model/PctWide.lean` | the templates of `pctencode.hpp` and `pctdecode.hpp` on `char16_t`, `char32_t`, `wchar_t`, ... text |
| `Verif/Model/ParseThrow.lean` | the rule class, `split`, `split_reference`, `valid` with an oracle that refuses requests for memory |
| `Verif/Model/Stream.lean` | `operator<<` and `compose` of `uri.cpp` again, on a stream with error state, width, exceptions and a device of limited room |
| `Verif/Model/Locale.lean` | the grammar of `uri.cpp`, `split`, `split_reference`, `join`, `valid` again, in any locale |
| `Verif/Model/SinglePass.lean` | the iterator of `transcode_view` over iterators that share a stream |
| `Verif/Model/Threads.lean` | which objects the operations of `transcode_view` and of the iterators over percent-encoded text read and write; interleavings of threads |
| `Verif/Spec/AbnfNotation.lean`, `UriAbnf.lean` | specification: ABNF notation and its meaning; the text of systemtests/uri.abnf, generated by tools/gen_abnf.py |
| `Verif/Model/Views.lean` | several copies of a transcode_view and their iterators |
| `Verif/Model/OutIter.lean` | icubaby::iterator, copies of it, and what it writes to |
| `Verif/Model/Vec.lean` | uri.cpp:730-804, 940-996 with `std::vector`: capacity, buffer, requests for memory, steps |
| `Verif/Model/OutThrow.lean` | icubaby.hpp: the functions of the transcoders with an output iterator that throws, and `noexcept` |
| `Verif/Model/Effects.lean` | `rule.hpp` and `rule.cpp` again, with functions that have effects and throw |
| `Verif/Model/CodecCost.lean` | `parts.hpp`, `parts.cpp`, `pctencode.hpp`, `pctdecode.hpp` again, counting steps |
| `Verif/Model/InPlace.lean` | `pctencode`, and copying through the iterators of `pctdecode.hpp`, with text and output in the same memory |
| `Verif/Model/IcuInPlace.lean` | transcoding, call by call and through `transcode_view`, with text and output in the same memory |
| `Verif/Model/WriteThrow.lean` | pctencode.hpp, pctdecode.hpp, punycode.hpp, parts.hpp: what writes to an output iterator, if writes and requests for memory may throw |
| `Verif/Model/Depth.lean` | the `rule` members and the parser again, with the number of calls open at a time |
| `Verif/Model/Index.lean` | `icubaby::length` and `index` with projections, and the calls of the projection |
| `Verif/Model/Space.lean` | the `rule` members and the parser again, with the accept functions held at the same time (lifetimes of temporaries included) |
| `Verif/Model/Tool.lean` | `tools/uri-split/uri-split.cpp`, `punycode.cpp` (error category) |

The specifications are in `Verif/Spec` and import nothing of the model but the
types of bytes, byte strings and the `parts` record: `Abnf` (RFC 3986 appendix A as
languages, derivations with components), `Components` (appendix B as a character
scan; recomposition, section 5.3), `Resolve` (sections 5.2.2 - 5.2.4), `Peg`
(ordered-choice grammars for the `rule` class), `Chars` (character repertoire), `Pct`
(WHATWG sets, triplets), `Punycode` (RFC 3492 as a relation), `Utf` (table 3-7,
UTF-16), `Parts` (what is done to each field), `Tool` (lines of a stream), `Calls` (sequences of
calls to a transcoder).
Lemmas are in `Verif/Proofs`, property theorems, with the examples that meet
their hypotheses, in `Verif/Props`.

Where the code's answer differs from the standard's (repetition counts, `merge`,
dot segments, the byte transcoder's BOM handling) the exact theorems compare the
code with a specification that has the deviation written out (`PathCounted` and
`FutureCounted` in `Spec/Abnf`; the `*Built` functions in `Spec/Resolve`,
`Spec/Peg`, `Spec/Utf`), and a second theorem says when that equals the standard.

Simplifications, each repeated at the definition concerned:

* `std::function` acceptors are values of an arbitrary type with an interpreter
  (the six acceptors of uri.cpp are an enumeration); that makes "which acceptors
  ran, with what" observable.
* loops whose end the code does not guarantee by structure carry fuel; running
  out is `Fault.diverge`, which C09 and its kin prove unreachable.
* sizes of strings and stores are natural numbers (no text of 2^64 bytes exists);
  counters of type `unsigned` (`star`'s `count`, the bit position of
  `parts.hpp`) and the 32-bit arithmetic of Punycode do wrap or are checked as in
  the code.
* streams are byte lists in `Model/Uri.lean`: what is written to an `ostream` is appended; `Model/Stream.lean` has the width,
  error state and exceptions of a stream.
* code points are natural numbers, `char16_t` is `UInt16`.

Not modelled: the unit tests and the CMake files (the fuzz targets are C70), concept/SFINAE
constraints, `constexpr` specifiers, `noexcept` specifiers apart from C72 and C84, the `#if 0` block of uri.cpp,
compile-time configuration macros, iterator category plumbing (typedefs,
post-increment by copying), allocation failure in the percent coders (whose callers' own containers do the allocating).

## 3. Faults

Undefined behaviour and other abnormal outcomes are values of `Fault`, distinct
from every normal result: `ctype` (argument outside the domain of a `<cctype>`
function), `outOfRange` (`substr` past the end throws, `remove_prefix` past the
end is undefined; reads and writes outside an array), `emptyBack` (`back()` on an
empty vector), `assertion`, `diverge` (a loop that never ends), `dangling` (use of a destroyed object).  Theorems such as
C09, C32_total, C43, C45 say when they cannot occur.

## 4. Proof architecture

1. *Model level*: matchers are functions `Rule -> Except Fault (Option ...)`
   written in the shape of the C++ (a chain of `concat`, `optional`, `star`,
   `alternative`, ended by `matched`).
2. *Pure level* (`Verif/Proofs/Peg.lean`, `PureGrammar.lean`): parsing-expression
   functions on byte lists.  One lemma per combinator shows that a model-level
   matcher *denotes* the pure function: the run either ends with the same answer,
   all views lying inside the input, or with `Fault.ctype` and then the input
   contains a byte on which the platform's `<cctype>` is undefined.
3. *Spec level* (`Verif/Spec/Abnf.lean`): RFC 3986 as languages, `Str -> Prop`,
   and the relation "s derives with components p".
4. Soundness (`SoundHost`, `SoundUri`) is compositional; completeness
   (`CompleteHost`, `CompleteV6`, `HostExact`, `CompleteUri`) is proved with follow
   conditions (`R u a -> F v -> p (u ++ v) = some (u, a, v)`).  The nine IPv6 forms
   are treated by one lemma about what each greedy prefix takes.
5. Join is shown to be a function of texts (`JoinText`), then compared with the
   RFC's string rewriting (`Resolve`).
6. Codecs: encoder and decoder are shown equal to closed forms (`Pct`,
   `Punycode`), transcoders to simulate a decoder with the pending prefix as ghost
   state (`Utf8Dec`, `Utf16`), views to produce what the transcoder produces
   (`View`), the two-pass store to hold the concatenation of the changed fields
   (`PartsVisit`, `PartsCodec`).

## 5. Plan per property

* C01-C04, C07, C09, C12, C13, C53: sections 4.2 - 4.4; appendix B by a separate
  character-scan specification; C04_unique shows that a text has one derivation.
* C05, C06, C14, C55: compose is modelled as string concatenation in code order;
  C05 from the spec relation, C06 from completeness.
* C10, C11: theorems about the rule class for grammars built from arbitrary
  predicates with its operators (`Spec/Peg`), by induction on the grammar.  The
  specification is the tree `G` with a big-step meaning (`G.built`, counting
  repetitions modulo 2^32; `G.forever` for the ones that do not return);
  C10_exact/C11_exact are equivalences for every tree and text, C10_chain/
  C11_chain the same for a chain of calls on one rule.
* C08, C56: the "denotes" lemma carries `sub-view of the input`.
* C15-C21, C54: join/merge/remove_dot_segments on views; specification is RFC
  pseudo-code on strings (5.2.2-5.2.4).
* C22-C28: bytes; finite facts about the encode-set tables by evaluation over
  all 256 bytes (the whole domain), lists by induction.
* C29-C33: punycode as insertion sequences, variable-length integers; RFC 3492's
  generalised variable-length integers as a relation, the decoder's state machine
  simulated against it, with the overflow checks.
* C34-C39, C61: host label codec and the two-pass store of `parts.hpp`, for
  arbitrary allocators.
* C40-C46, C49-C52: icubaby transcoders as state machines; simulation by induction
  over the input with the decoded prefix as ghost state.
* C47, C48: direct.
* C57: well-formedness as an invariant of every history of calls (`History`).
* C58: what a decoded host can contain (`HostSafety`): every byte of the result
  traced to a byte or a code point of the encoded text.
* C62: `Model/Cost.lean` repeats the rule class with a step counter and the grammar as
  data; proved: forgetting the counter gives the model, the data give the match
  functions, and a static analysis of a grammar (`Gr.bounds`) gives coefficients of a
  linear bound.
* C59, C60: the tool as a function from file contents to output and exit status.
* C63: `Model/Shared.lean` runs programs over several iterators of one view; invariant: each iterator is the
  one that would be there alone, up to the flag, and the flag is down only if some position passed put it down.
* C64: `Model/Refs.lean` runs programs over iterator objects; preservation of text, of dead objects and of the
  stored byte by each operation, then induction over the program.
* C65: inversion of the decoding relation of `Spec/Pct.lean`, then C36 segment by segment.
* C66: `Model/PunyCost.lean`, the functions of Punycode with a count of steps, in the manner of C62; lower bounds by running
  the loop on a family of texts.
* C67: `Model/Alias.lean` has the calls of `encode`/`decode` guarded by "does this view refer to dead characters"; every non-null
  string is visited (`Proofs/PartsVisit`), so a string in the store trips the guard, and none there never does.
* C68: `Model/Throw.lean`; a simulation (a traversal in which nothing was thrown is the plain one) and an invariant (what is
  in the store is a beginning of what will be) over the calls of a traversal.
* C69: the calls inside the byte transcoder as a function of the calls outside (`Spec/Calls.lean`); simulation by
  induction over the calls, the pending bytes of a code unit being the first of the four-byte buffer.
* C70: corollaries for ten of the twelve fuzz targets; for the other two, derivations from RFC 3986 of the texts composed of
  `valid ()` values, and appendix B's expression to read off the authority where there is one.
* C71: the loops of C22/C26 again, over units that are natural numbers; encoding and decoding compose to a map on units.
* C72: `Exact x y N` (N requests, result y, or thrown at the first refused) proved by mutual induction on the grammar, tied to
  the steps of C62; for grammars without accept functions, that every container stays empty.
* C73: each output operator is a list of insertions; one lemma says what a list of insertions leaves of a stream, by induction.
* C74: the `<cctype>` functions of an arbitrary locale satisfying ISO C (`Spec/Locale`); a simulation between grammars of the same shape whose character tests agree up to a renaming of characters; then the tests, one by one.
* C75: the three transcoders from an encoding read the same scalar values (C40, C41, C44), and scalar values written in any encoding are read back; chains by induction.
* C76: `fill` and the loop over the view with `current_` and `next_` reading one stream (`Model/SinglePass`); induction over the loop, then C57 to say what the lost code unit meant.
* C77: operations of threads with the objects they access (`Model/Threads`); invariants over interleavings on top of C63; the flag is written exactly by a `fill` after the first fault.
* C78: a reader of ABNF in Lean is run by the kernel on the text of the file; each rule generates the language that `Spec/Abnf` gives it; then C01-C03 and C12.
* C79: invariant over programs: the flag of a view is that of a lone iterator at the farthest place its own iterators have been at.
* C80: case analysis on the tail of the rule; the character classes by kernel evaluation over the 256 bytes.
* C81: induction on programs; the wrapped output iterator is a parameter, with the position (pointer) or nothing (back inserter) as its state.
* C82: resolution preserves any relation between the strings of two values that respects dot segments and equality of schemes (`join_related`); encoding is such a relation because it is injective on segments.
* C83: `merge`, `remove_dot_segments` and `join` over a vector with a capacity and an oracle that grants requests (`Does`); a removed dot segment leaves room for the empty one added, so the last `emplace_back` never grows.
* C84: the calls that are not `noexcept` statement by statement, the others by their writes; `Passes` and `Ends` by induction over the writes.
* C85: by the cases of `join`; for the directory `remove_dot_segments` as a stack machine, which remembers of the first segments only the stack.
* C86: `Model/Effects.lean`, the members of `rule` in a state-and-exception monad; `Spec/Effects.lean` says in which order calls are made. `star` has no bound on its rounds: what it does is what it does for some number of them.
* C87: `Model/CodecCost.lean` is `Model/PartsCodec.lean` with a step counter; erasing the counter gives back the model. Potentials in the code points left bound the label loops.
* C88: `compose_text` and the exactness of the parsers (C02, C03) reduce it to derivations: a value of the right shape has one, and what has a derivation has the shape. Decoding maps elements of a component to elements of it.
* C89: a loop over a view is the transcoder run in rounds; the rounds that produce too much for the array, or nothing at the end, are those that fail. Induction over the input gives the exact condition for each of the inner transcoders (`Runs`, `RunsTail`), and the state machine of the byte transcoder reduces every text to one of them.
* C90: a potential argument: each state owes at most so many code units of output (`Rationed`), each call adds k. For bytes of unknown encoding the theorems of C46 and C69 say of which text the output is.
* C91: from the exactness of C02 and C03: a derivation of a text with a delimiter is one of the text before it, as no other component contains the delimiter. Independence: a derivation is put together from those of the texts the components occur in.
* C92: memory is a byte string that every read and write goes to. Induction on the decoding (or encoding) of the rest of the text, with the invariant that writes fall before what is still to be read; onto itself, an inductive description of the result.
* C93: the weight of a segment list (each with a slash) does not grow in the stack run, and the segment that is added for a final dot pays for itself; then cases of join.
* C94: memory is a list of code units that every read and write goes to. Simulation: the iterator over the memory and the one over the text do the same as long as the unread part is intact, which the bound on the output of each prefix guarantees (from C90, and for UTF-8 from the state of the decoder).
* C95: iterators reached by a loop, by induction on the increments; a transcoder is silent at most three (one, zero) times in a row, from the states of the decoders.
* C96: the lengths of the relations of C35 and C36, by induction over the RFC 3492 decoder; tightness by an infinite family of inputs.
* C97: join on text, case by case; removal of dot segments as a stack machine, which runs on a longer stack as on a shorter one while nothing climbs below it.
* C98: a relation between a function and what it writes, whatever throws, closed under sequencing; each function of the model with exceptions is related to the result of the one without.
* C99: closed form of decoding over concatenation, by induction; labels of a concatenation, and what is written for them.
* C100: case analysis on what the match functions do; for `star`, the repetition as an inductive relation, by induction on it.
* C101: closed forms of coding, induction on the number of rounds; for parts, two applications of the field-by-field description of `encode`.
* C102: the text form of `join`, case by case; for relative paths, the stack of segments after going up.
* C103: forms of scalar values differ first at a place where the smaller has less; lead and trailing code units are of different kinds and no form is the beginning of another; induction on the texts.
* C104: one increment as a unit of the text and a character of the decoded one; induction on the number of increments.
* C105: image of encoding as an inductive set, decoding as its left inverse; for values the field-by-field descriptions of `decode` and `encode` one after the other, C28 for validity and C88 for reading back.
* C106: label by label: a label and the code points it is read as, encoded again, compared through uniqueness of RFC 3492 encodings (C30, C34); reg-names cut at `.` and `-`; values as in C105.
* C107: case analysis of `join` on values (C85) and on text (`joinT`); the prefix law from C91 and the uniqueness of the reading (C04).
* C108: every RFC 3986 production is closed under change of case (closure of each ABNF operator), carried over to the code by C02, C03, C13; resolution, decoding and encoding commute with lower-casing.
* C109: `Verif/Model/Depth.lean` is the model with the depth of calls; forgetting the depth gives the model (induction over the grammar as data), and the depth is bounded by a number computed from the grammar alone.
* C110: `index` is characterised by a predicate on the text (what stands there and what begins before it) that has one solution; the laws follow from it by counting.
* C111: `Verif/Model/Space.lean` counts what all live vectors hold, temporaries to the end of the full-expression; induction over the grammar as data shows it below the steps of `Verif/Model/Cost.lean`, which C62 bounds.
* C112: `remove_dot_segments` is a run of a stack (`stackRun`); below the directory it is the same run on a deeper stack as long as the count holds. For the converse a base with a directory name longer than every segment of the reference.
* C113: readers are functions on text with their habits as parameters; the authority of a derivation is cut uniquely because userinfo, host and port have no `@`, a name no `:`, a literal no `]`, and none a character that ends an authority.
* C114: the output of the encoder has only `%`, digits (which no set encodes) and characters the set leaves alone; grammar of query and segment is closed under joining; the URI by C91.
* C115: the text of a URI with an authority is cut uniquely at the first colon, at the first of `/?#` behind `//`, and at each slash; induction over the segments of the beginning.
* C116: each rule behind the authority is a repetition of characters and triplets between delimiters; a beginning of its text that does not end in a triplet is again one, by induction over the elements and the segments.
* C117: the test of the text holds exactly if the components have neither scheme nor authority (the grammar of relative references excludes the colon); then `join` copies both from the base. For the converse two bases that differ in the scheme, or in the host, are given.
* C118: both texts are cut into scheme, authority and rest, which agree by the first delimiter; for the query and the fragment the appended text is of the rule by unique decoding into characters and triplets.
* C119: the derivation of the template is cut at the hole: in a segment, the query or the fragment; both sides are texts of characters and triplets, and so is the whole again. Decoding by C99, since neither the left side nor the encoded text ends inside of a triplet.
* C120: the derivation of the authority is replaced by that of the filled one (a text of characters and triplets cut between two of them and filled with such is one), everything else is kept; exactness by uniqueness of derivations.
* C121: the stack that `remove_dot_segments` keeps stays above the root (as for C112, but from the height of the place), so the rest of it depends only on the place and the reference; text by `compose`.
* C122: `walk` follows a path relative to an unknown stack; `join` is shown to be a function of the meaning; conversely bases `s://h/g/g/…/z`, deep enough and with segments `a`, `b` or empty, tell any two meanings apart.
* C123: encoding is a prefix code, byte by byte; a place outside of the triplets of the encoding is a place in the text (`cut`), and inside of one a digit follows (`next_digit`).
* C124: a scheme is put before the template (C91), C119 fills it, and the scheme is taken off again, which the colon condition allows; resolution of a reference without dot segments keeps its segments at the end of the result.
* C125: a reference means one of seven acts on the base (C122), each act uses only some components of the base, and the probing reference shows those.

No property is dropped as inexpressible.

## 6. Findings

Each is a theorem about the model (`*_counterexample`, `*_false`, or the excepted
case of an exact statement); the input is given so that it can be tried on the
code.

Parsing and resolution
* C02, C03: a reg-name with an IPv4 address as a proper prefix is rejected
  (`http://1.2.3.4.com/`): `alternative` commits to the IPv4 match.
* C02: a `1*` repetition of exactly k * 2^32 elements is rejected (`count` wraps).
* C06, C21: `valid()` checks components only, so a valid value or a join result
  with no authority and a path starting `//` composes to something else:
  join("s:/a", "/.//b") composes to `s://b`.
* C08: the segment of the path "/" of a URI without authority is the null view.
* C09: bytes >= 0x80 reach `<cctype>` functions as negative values where `char` is
  signed: undefined behaviour.
* C11: `star` with min > max accepts fewer than min matches.
* C16: `merge` keeps the only segment of a one-segment base path:
  join("http://a/b", "c") is `http://a/b/c`.
* C17: `/a//.` becomes `/a/`, not `/a//`; relative paths lose their relativity in
  the RFC's algorithm, not in the code.
* C74: where `char` is unsigned, a single-byte letter of the program's locale (`é` in ISO 8859-1) is taken for a URI character.
* C73: `compose (p)` swallows `std::bad_alloc` in its string stream and returns a truncated URI; `std::setw` pads the scheme only.
* C54: the empty reference keeps the base's dot segments (as RFC 3986 has it), so
  joining twice can differ there.
* C65: resolution and decoding do not commute: `%2e%2e/c` against `s:/a/b/x`, joined and then decoded, composes to
  `s:/a/b/../c`.

Percent encoding
* C22: the set `none` does not escape '%', so decoding changes `%41`.
* C24: '`' is missing from the fragment set, '^' from the path set of the current
  standard.
* C27: `iter_move` of the view's iterator yields the undecoded byte; the view's
  sentinel refers to a member that does not exist.
* C64: the view's and iterator's `*` at a triplet refers into the iterator: `auto& c = *it++` dangles, a second
  dereference overwrites the first, writing through the view is lost; `iter_swap` swaps the `%` only.
* C71: encoding text of a wider character type keeps a unit's low eight bits only: U+0120 becomes `%20`, U+0141 is copied.
* C28: path, query and fragment encoding leave characters that RFC 3986 forbids.

Punycode and hosts
* C66: decoding an `xn--` label of n bytes can take n²/4 element moves, encoding n code points n² steps.
* C30, C32: a lone leading delimiter is accepted; surrogates and values above
  10FFFF are decoded.
* C34: malformed UTF-8 in a host swallows a following '.', joining two labels;
  pure-ASCII labels that start with `xn--` are not escaped, so they decode to
  something else.
* C106: decoding turns the reg-name `xn--127-.0.0.1` into the IPv4 address `127.0.0.1`, and `xn--xn--tda-` into `xn--tda`, which is decoded once more by whoever decodes again.
* C107: `join` without `strict` compares schemes byte for byte, so `HTTP:g` is not taken as relative to `http://a/b`, although schemes are case-insensitive (RFC 3986, 3.1).
* C108: `puny_decoded` does not recognise the ACE prefix in upper case (`XN--TDA`), although host names are case-insensitive (RFC 3490, 5).
* C112: a directory ending in an empty segment is not kept: with base `http://h/x//f` the reference `c` resolves to `http://h/x//c` but `.` to `http://h/x/`.
* C113: `http:/h/x` and `http:///h/x` are accepted with no and with an empty host; web browsers take `h` for it.
* C114: the set `path` does not encode `/` and the set `query` does not encode `&`, `=` and `+`: for one segment or one parameter of a list `component` or `form_urlencoded` is the set to use; no set encodes `..`.
* C80: `char_range` compares lower-case forms of its bounds: `char_range ('A', '_')` matches nothing, `char_range ('0', 'Z')` matches '_'.
* C36: a host that decodes to nothing (`xn--`, `xn---`) is returned undecoded.
* C77: `transcode_view::well_formed_` is written through const views: two threads that only read one const view of a malformed text race. `*` on one const iterator over percent-encoded text writes its `hex_`: the same for a triplet.
* C67: decoding the result of `encode` with the same store reads characters after `store.clear ()`: undefined.
* C35: from 2^32 - 6 path segments on the bit position of a field wraps.

The project's fuzz targets
* C70: `EncodeAndComposeValidAlwaysAgree` is false: scheme `s` and the absolute path `["", "a:b:c"]` are `valid ()` (and encoded to
  themselves), and `s://a:b:c` is rejected.

icubaby
* C45: `transcode_view` over bytes overflows its output buffer on FE 41, FE FE,
  FF FE 00 41; input of just a BOM leaves an empty buffer that is dereferenced.
* C46: `end_cp` in the middle of a BOM copies one byte too many and does not call
  the inner `end_cp`; FF FE 00 xx is taken for UTF-8; `char32_from_little_endian`
  loses the high byte; a trailing incomplete UTF-16/32 unit is dropped silently.
* C50: the view iterator's `==` ignores the position in the buffer.
* C51: `end_cp` after a truncated UTF-8 sequence leaves the reject state.
* C69: `end_cp` before any byte settles on UTF-8, so that a BOM after it is text (U+FEFF);
  `partial ()` is false with half a UTF-16/32 code unit pending, and `end_cp` neither drops nor reports it.
* C76: `transcode_view` over `std::istreambuf_iterator`s never yields the last character of the stream.
* C79: a pipeline copies the view it is built from, so that `well_formed ()` of the original stays true whatever the text is; and iterators of copies never compare equal.
* C81: postfix `++` of `icubaby::iterator` returns a copy: `*it++ = c` over a pointer overwrites the same place again and again.
* C82: decoding before and after resolution can differ, but only when dot segments are written with triplets (see C65).
* C84: most transcoders declare `operator()` `noexcept` although it writes to a user-supplied output iterator: `std::back_inserter` on a container that cannot grow ends the program. The library itself transcodes only through views, whose array does not throw.
* C85: because `merge` keeps an only segment, resolving against the directory of a base differs from resolving against the base when that directory is the root: `http://h/x/../z` + `c` is `http://h/c`, but its directory `http://h/` + `c` is `http://h//c`.
* C86: `star (match, min, max)` calls `match` once more after `max` matches and discards what it matched (`rule.hpp:219-227`).
* C87: `encode` walks and encodes the host name three times and `decode` twice; with a host name that is not ASCII each is quadratic (`parts.cpp`, `punycode.hpp`).
* C88: a value decoded with `decode` does not in general survive `compose` and `split` (`%2F` in a segment, `%3A` in the first segment of a relative reference).
* C89: `max_output_bytes` is too small for byte input, and the iterator presumes that input remaining means output remaining: a byte order mark with nothing after it, a text that ends within a code unit, `00 41` to UTF-32 and ill-formed UTF-16 after a mark (which the view of `char16_t` accepts) fail an assertion, and with assertions off overrun the array or read an element never written.
* C90: the comment on `max_output_bytes` ("the maximum number of bytes that can be produced by a single code-unit") is false for `std::byte` input: the byte that rules out a mark makes up to 10 bytes of UTF-8.
* C92: `std::copy` (or `std::ranges::copy`) of a percent-decoded text onto itself is wrong as soon as the first triplet is not `%25`, as `operator++` looks at the text again.
* C94: UTF-8 that is not well-formed cannot be transcoded to UTF-8 onto itself: U+FFFD is longer than what it replaces and overwrites what follows before it is read.
* C52: the byte that reveals a malformed sequence is swallowed with it.

## 7. Tests of the theorems

`seeded/LOG.jsonl` records, for each seeded bug, the definition edited, the claim
it breaks and the theorems that failed.  `tools/mutate.py` makes the edit in a
scratch file holding the edited model module and everything that depends on it;
`tools/mutants*.py` list the edits.  A theorem counts as failed when `#print
axioms` no longer shows just the three axioms of section 1.

The other direction, whether the model reads the code as it is, cannot be proved.
It is tested: `Verif/Tests/*.lean` run the model on the inputs of the project's own
unit tests (`unittests/uri/test_uri.cpp`, `test_pctdecode.cpp`, `test_pctencode.cpp`,
`test_punycode.cpp`, `test_parts.cpp`, `test_rule.cpp`, `test_find_last.cpp`,
`test_starts_with.cpp`) and compare with the values expected there: every assertion
of `test_uri.cpp`, `test_pctdecode.cpp`, `test_pctencode.cpp` and `test_punycode.cpp`
(transcribed by `tools/gen_conformance.py`) and the others by hand.  These are
examples, not proofs, and no property rests on them.
