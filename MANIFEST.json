{
 "claims": [
  {
   "property": "C01",
   "status": "proved",
   "theorems": [
    "Verif.C01_split_sound"
   ],
   "note": ""
  },
  {
   "property": "C02",
   "status": "proved",
   "theorems": [
    "Verif.C02_split_exact",
    "Verif.C02_split_complete",
    "Verif.C02_split_rejects_bad_host",
    "Verif.C02_split_rejects",
    "Verif.C02_counterexample",
    "Verif.C02_count_counterexample"
   ],
   "note": "C02_split_exact is the full equivalence; C02_split_complete the readable form below 4 GiB; the excepted sentences are proved to be rejected (C02_split_rejects_bad_host) and to exist (C02_counterexample, C02_count_counterexample)."
  },
  {
   "property": "C03",
   "status": "proved",
   "theorems": [
    "Verif.C03_splitReference_sound",
    "Verif.C03_splitReference_exact",
    "Verif.C03_splitReference_complete",
    "Verif.C03_splitReference_rejects_bad_host",
    "Verif.C03_splitReference_rejects",
    "Verif.C03_reference_with_scheme"
   ],
   "note": "As C02."
  },
  {
   "property": "C04",
   "status": "proved",
   "theorems": [
    "Verif.C04_appendixB",
    "Verif.C04_unique"
   ],
   "note": ""
  },
  {
   "property": "C05",
   "status": "proved",
   "theorems": [
    "Verif.C05_compose_split",
    "Verif.C05_compose_is_recomposition"
   ],
   "note": ""
  },
  {
   "property": "C06",
   "status": "proved",
   "theorems": [
    "Verif.C06_split_compose",
    "Verif.C06_shape_needed",
    "Verif.C06_split_compose_exact",
    "Verif.C06_counterexample"
   ],
   "note": "C06_split_compose_exact is the equivalence; C06_counterexample shows the condition to be needed."
  },
  {
   "property": "C07",
   "status": "proved",
   "theorems": [
    "Verif.C07_split_valid",
    "Verif.C07_splitReference_valid"
   ],
   "note": ""
  },
  {
   "property": "C08",
   "status": "proved",
   "theorems": [
    "Verif.C08_views_alias_input"
   ],
   "note": "The segment of the path '/' is a default (null, empty) view; proved to be the only exception."
  },
  {
   "property": "C09",
   "status": "proved",
   "theorems": [
    "Verif.C09_parse_faults",
    "Verif.C09_valid_faults",
    "Verif.C09_defined",
    "Verif.C09_counterexample"
   ],
   "note": "The exception is witnessed by C09_counterexample and proved to be the only fault."
  },
  {
   "property": "C10",
   "status": "proved",
   "theorems": [
    "Verif.C10_exact",
    "Verif.C10_chain",
    "Verif.C10_accept_only_on_success",
    "Verif.C10_calls_in_language"
   ],
   "note": "C10_exact and C10_chain hold for every grammar expression and every text; G.built is the parser with the 32-bit counter, C11_built_is_parse says when it is the parser of the specification."
  },
  {
   "property": "C11",
   "status": "proved",
   "theorems": [
    "Verif.C11_parse_in_language",
    "Verif.C11_exact",
    "Verif.C11_built_in_language",
    "Verif.C11_built_is_parse",
    "Verif.C11_terminates",
    "Verif.C11_matcher_is_parser",
    "Verif.C11_failed_stays_failed",
    "Verif.C11_optional_accept",
    "Verif.C11_chain",
    "Verif.C11_alternative",
    "Verif.C11_min_above_max_counterexample",
    "Verif.C11_nullable_counterexample",
    "Verif.C11_counter_counterexample"
   ],
   "note": "C11_exact, C11_chain and C11_alternative hold for every expression and every text (G.built: counter of 32 bits, divergence). C11_built_in_language: never outside the ABNF language if min <= max. C11_built_is_parse: equal to the ideal parser if nothing nullable is repeated without bound and unlimited repetitions have no lower bound or the text is below 4 GiB. The counterexamples show that each condition is needed."
  },
  {
   "property": "C12",
   "status": "proved",
   "theorems": [
    "Verif.C12_bracketed_host_exact",
    "Verif.C12_bracketed_host",
    "Verif.C12_ipv4",
    "Verif.C12_decOctet"
   ],
   "note": "Exact, for bracketed hosts of any length; an IPvFuture whose two counted runs are a multiple of 2^32 long is rejected (counter wrap) and excepted by FutureCounted."
  },
  {
   "property": "C13",
   "status": "proved",
   "theorems": [
    "Verif.C13_valid_sound",
    "Verif.C13_valid_complete",
    "Verif.C13_invalid"
   ],
   "note": "Component-wise, any length; HostAccepted excepts the hosts of C02."
  },
  {
   "property": "C14",
   "status": "proved",
   "theorems": [
    "Verif.C14_eq_spec",
    "Verif.C14_equivalence",
    "Verif.C14_compose_congr"
   ],
   "note": ""
  },
  {
   "property": "C15",
   "status": "proved",
   "theorems": [
    "Verif.C15_join_components",
    "Verif.C15_join_strings"
   ],
   "note": ""
  },
  {
   "property": "C16",
   "status": "proved",
   "theorems": [
    "Verif.C16_merge_exact",
    "Verif.C16_merge_built",
    "Verif.C16_join_is_resolve",
    "Verif.C16_join_strings",
    "Verif.C16_join_conforms",
    "Verif.C16_counterexample"
   ],
   "note": "C16_join_strings for all strings that parse; C16_merge_built, C16_merge_exact and C16_counterexample give the deviation from RFC 3986."
  },
  {
   "property": "C17",
   "status": "proved",
   "theorems": [
    "Verif.C17_absolute_exact",
    "Verif.C17_exact",
    "Verif.C17_remove_dot_segments",
    "Verif.C17_conforms_iff",
    "Verif.C17_counterexample"
   ],
   "note": "C17_exact for every path; C17_conforms_iff says when the result is that of RFC 3986; C17_counterexample."
  },
  {
   "property": "C18",
   "status": "proved",
   "theorems": [
    "Verif.C18_no_dots",
    "Verif.C18_unchanged",
    "Verif.C18_idempotent",
    "Verif.C18_absolute",
    "Verif.C18_segments"
   ],
   "note": ""
  },
  {
   "property": "C19",
   "status": "proved",
   "theorems": [
    "Verif.C19_join_strings",
    "Verif.C19_join_fails",
    "Verif.C19_join_faults"
   ],
   "note": ""
  },
  {
   "property": "C20",
   "status": "proved",
   "theorems": [
    "Verif.C20_scheme_ignores_base",
    "Verif.C20_query_fragment_reference",
    "Verif.C20_empty_reference",
    "Verif.C20_empty_string",
    "Verif.C20_scheme_of_base",
    "Verif.C20_result_has_scheme"
   ],
   "note": ""
  },
  {
   "property": "C21",
   "status": "proved",
   "theorems": [
    "Verif.C21_no_dots",
    "Verif.C21_compose_split_exact",
    "Verif.C21_compose_split_authority",
    "Verif.C21_compose_split_short",
    "Verif.C21_counterexample"
   ],
   "note": "C21_compose_split_exact is the equivalence; C21_counterexample."
  },
  {
   "property": "C22",
   "status": "proved",
   "theorems": [
    "Verif.C22_roundtrip",
    "Verif.C22_roundtrip_no_percent",
    "Verif.C22_none",
    "Verif.C22_none_counterexample",
    "Verif.C22_exact"
   ],
   "note": ""
  },
  {
   "property": "C23",
   "status": "proved",
   "theorems": [
    "Verif.C23_shape",
    "Verif.C23_printable",
    "Verif.C23_length",
    "Verif.C23_append",
    "Verif.C23_injective"
   ],
   "note": ""
  },
  {
   "property": "C24",
   "status": "proved",
   "theorems": [
    "Verif.C24_sets",
    "Verif.C24_fragment_counterexample",
    "Verif.C24_path_counterexample",
    "Verif.C24_none",
    "Verif.C24_monotone",
    "Verif.C24_union"
   ],
   "note": "The two deviations are witnessed by counterexample theorems."
  },
  {
   "property": "C25",
   "status": "proved",
   "theorems": [
    "Verif.C25_any",
    "Verif.C25_identity",
    "Verif.C25_size",
    "Verif.C25_size_zero"
   ],
   "note": ""
  },
  {
   "property": "C26",
   "status": "proved",
   "theorems": [
    "Verif.C26_exact",
    "Verif.C26_total",
    "Verif.C26_identity",
    "Verif.C26_size",
    "Verif.C26_fixed"
   ],
   "note": ""
  },
  {
   "property": "C27",
   "status": "proved",
   "theorems": [
    "Verif.C27_decoder",
    "Verif.C27_begin_end",
    "Verif.C27_view",
    "Verif.C27_in_bounds",
    "Verif.C27_iterMove_counterexample",
    "Verif.C27_iterMove"
   ],
   "note": "C27_iterMove is exact; C27_iterMove_counterexample."
  },
  {
   "property": "C28",
   "status": "proved",
   "theorems": [
    "Verif.C28_regName",
    "Verif.C28_userinfo",
    "Verif.C28_segment",
    "Verif.C28_query",
    "Verif.C28_fragment",
    "Verif.C28_fragment_counterexample"
   ],
   "note": "Exact conditions; C28_fragment_counterexample."
  },
  {
   "property": "C29",
   "status": "proved",
   "theorems": [
    "Verif.C29_roundtrip",
    "Verif.C29_plain",
    "Verif.C29_rfc"
   ],
   "note": "For sequences of at most 2^26 32-bit values, or 2^37 Unicode code points (beyond, the encoder's 64-bit delta can wrap)."
  },
  {
   "property": "C30",
   "status": "proved",
   "theorems": [
    "Verif.C30_reencode",
    "Verif.C30_upper",
    "Verif.C30_lone",
    "Verif.C30_injective"
   ],
   "note": "Up to digit case and a lone leading delimiter, as stated; both exceptions are witnessed."
  },
  {
   "property": "C31",
   "status": "proved",
   "theorems": [
    "Verif.C31_shape"
   ],
   "note": ""
  },
  {
   "property": "C32",
   "status": "proved",
   "theorems": [
    "Verif.C32_total",
    "Verif.C32_sound",
    "Verif.C32_inserted",
    "Verif.C32_complete",
    "Verif.C32_exact",
    "Verif.C32_deterministic",
    "Verif.C32_lone_counterexample",
    "Verif.C32_not_unicode_counterexample"
   ],
   "note": "C32_exact for results of at most 2^26 32-bit values or 2^37 code points; C32_total and C32_sound for all texts below the address space."
  },
  {
   "property": "C33",
   "status": "proved",
   "theorems": [
    "Verif.C33_case",
    "Verif.C33_case_eq",
    "Verif.C33_bad_digit",
    "Verif.C33_bad_literal",
    "Verif.C33_cut",
    "Verif.C33_cut_bare",
    "Verif.C33_truncated"
   ],
   "note": "C33_truncated: a text that ends inside an integer whose last digit is '0'-'9' is always rejected; every other truncation is covered by C32_sound (whatever is accepted is an encoding)."
  },
  {
   "property": "C34",
   "status": "proved",
   "theorems": [
    "Verif.C34_exact",
    "Verif.C34_unique",
    "Verif.C34_encode",
    "Verif.C34_roundtrip",
    "Verif.C34_labels",
    "Verif.C34_ace_counterexample",
    "Verif.C34_malformed_counterexample"
   ],
   "note": "Hosts of at most 2^37 bytes. C34_exact is an equivalence, so well-formedness and the xn-- condition are both needed; C34_unique shows that the specification determines the output."
  },
  {
   "property": "C35",
   "status": "proved",
   "theorems": [
    "Verif.C35_encode",
    "Verif.C35_no_reallocation"
   ],
   "note": "For up to 2^32-6 path segments (an unsigned index wraps) and hosts of at most 2^37 bytes; every store and allocator."
  },
  {
   "property": "C36",
   "status": "proved",
   "theorems": [
    "Verif.C36_decode",
    "Verif.C36_no_reallocation",
    "Verif.C36_counterexample"
   ],
   "note": "Up to 2^32-6 path segments; the exception is witnessed by C36_counterexample."
  },
  {
   "property": "C37",
   "status": "proved",
   "theorems": [
    "Verif.C37_roundtrip",
    "Verif.C37_exact"
   ],
   "note": "For up to 2^32-6 path segments, hosts of at most 2^37 bytes; allocators return non-null addresses. C37_exact is an equivalence."
  },
  {
   "property": "C38",
   "status": "proved",
   "theorems": [
    "Verif.C38_valid"
   ],
   "note": "Hosts of at most 2^37 bytes, up to 2^32-6 segments."
  },
  {
   "property": "C39",
   "status": "proved",
   "theorems": [
    "Verif.C39_error"
   ],
   "note": "For up to 2^32-6 path segments."
  },
  {
   "property": "C40",
   "status": "proved",
   "theorems": [
    "Verif.C40_encode",
    "Verif.C40_well_formed",
    "Verif.C40_table",
    "Verif.C40_unique"
   ],
   "note": ""
  },
  {
   "property": "C41",
   "status": "proved",
   "theorems": [
    "Verif.C41_decode",
    "Verif.C41_well_formed",
    "Verif.C41_text",
    "Verif.C41_scalars"
   ],
   "note": ""
  },
  {
   "property": "C42",
   "status": "proved",
   "theorems": [
    "Verif.C42_utf32_utf8_utf32",
    "Verif.C42_utf8_utf32_utf8"
   ],
   "note": ""
  },
  {
   "property": "C43",
   "status": "proved",
   "theorems": [
    "Verif.C43_table",
    "Verif.C43_width"
   ],
   "note": ""
  },
  {
   "property": "C44",
   "status": "proved",
   "theorems": [
    "Verif.C44_encode",
    "Verif.C44_decode",
    "Verif.C44_text",
    "Verif.C44_roundtrip",
    "Verif.C44_utf8_to",
    "Verif.C44_utf16_to"
   ],
   "note": ""
  },
  {
   "property": "C45",
   "status": "proved",
   "theorems": [
    "Verif.C45_utf8_utf32",
    "Verif.C45_utf32_utf8",
    "Verif.C45_utf32_utf16",
    "Verif.C45_utf32_utf32",
    "Verif.C45_utf16_utf32",
    "Verif.C45_utf8_utf16",
    "Verif.C45_utf8_utf8",
    "Verif.C45_utf16_utf8",
    "Verif.C45_utf16_utf16",
    "Verif.C45_bytes_false",
    "Verif.C45_bom_only_false"
   ],
   "note": "All nine typed conversions; C45_bytes_false and C45_bom_only_false for bytes of unknown encoding."
  },
  {
   "property": "C46",
   "status": "proved",
   "theorems": [
    "Verif.C46_total",
    "Verif.C46_utf8_bom",
    "Verif.C46_utf16be_bom",
    "Verif.C46_utf32be_bom",
    "Verif.C46_utf32le_bom",
    "Verif.C46_utf16le_bom",
    "Verif.C46_no_bom",
    "Verif.C46_exact",
    "Verif.C46_conforms_iff",
    "Verif.C46_left_over",
    "Verif.C46_left_over32",
    "Verif.C46_false"
   ],
   "note": "Exact, for every byte string (C46_exact), with the list of deviations from the Standard (C46_conforms_iff, C46_false)."
  },
  {
   "property": "C47",
   "status": "proved",
   "theorems": [
    "Verif.C47_findLast_forward",
    "Verif.C47_findLast",
    "Verif.C47_startsWith",
    "Verif.C47_startsWith_prefix"
   ],
   "note": ""
  },
  {
   "property": "C48",
   "status": "proved",
   "theorems": [
    "Verif.C48_string",
    "Verif.C48_filesystem",
    "Verif.C48_agree",
    "Verif.C48_parsed"
   ],
   "note": ""
  },
  {
   "property": "C49",
   "status": "proved",
   "theorems": [
    "Verif.C49_length_utf8",
    "Verif.C49_length_utf16",
    "Verif.C49_length_utf32",
    "Verif.C49_index_utf8",
    "Verif.C49_index_utf16"
   ],
   "note": ""
  },
  {
   "property": "C50",
   "status": "proved",
   "theorems": [
    "Verif.C50_utf8_utf32",
    "Verif.C50_utf8_utf16",
    "Verif.C50_utf8_utf8",
    "Verif.C50_utf16_utf32",
    "Verif.C50_utf16_utf8",
    "Verif.C50_utf16_utf16",
    "Verif.C50_utf32_utf8",
    "Verif.C50_utf32_utf16",
    "Verif.C50_utf32_utf32",
    "Verif.C50_utf8_utf32_same",
    "Verif.C50_utf32_utf32_same",
    "Verif.C50_false",
    "Verif.C50_false_utf16"
   ],
   "note": "All nine conversions; C50_false and C50_false_utf16 exhibit iterators that are equal at different elements."
  },
  {
   "property": "C51",
   "status": "proved",
   "theorems": [
    "Verif.C51_utf16_utf32",
    "Verif.C51_utf16_utf8",
    "Verif.C51_utf16_utf16",
    "Verif.C51_utf32_utf8",
    "Verif.C51_utf32_utf16",
    "Verif.C51_utf32_utf32",
    "Verif.C51_utf8_cases",
    "Verif.C51_utf8_utf32",
    "Verif.C51_utf8_utf8",
    "Verif.C51_utf8_utf16",
    "Verif.C51_false"
   ],
   "note": "All nine conversions; C51_utf8_cases: every text is in one of the two cases; C51_false is a concrete instance of the defect."
  },
  {
   "property": "C52",
   "status": "proved",
   "theorems": [
    "Verif.C52_standard",
    "Verif.C52_agrees",
    "Verif.C52_swallows",
    "Verif.C52_resynchronises",
    "Verif.C52_false"
   ],
   "note": "C52_standard: the recommended reading exists and is unique; C52_false exhibits the deviation."
  },
  {
   "property": "C53",
   "status": "proved",
   "theorems": [
    "Verif.C53_accepted",
    "Verif.C53_rejected",
    "Verif.C53_components"
   ],
   "note": "The rejecting direction assumes CtypeSafe (C09)."
  },
  {
   "property": "C54",
   "status": "proved",
   "theorems": [
    "Verif.C54_join_idempotent",
    "Verif.C54_counterexample"
   ],
   "note": "An exact condition (iff), with the exception witnessed by C54_counterexample."
  },
  {
   "property": "C55",
   "status": "proved",
   "theorems": [
    "Verif.C55_join_congr",
    "Verif.C55_valid_congr",
    "Verif.C55_valid_same",
    "Verif.C55_parse_injective"
   ],
   "note": ""
  },
  {
   "property": "C56",
   "status": "proved",
   "theorems": [
    "Verif.C56_join_views",
    "Verif.C56_join_strings_views",
    "Verif.C56_join_strings_valid"
   ],
   "note": ""
  },
  {
   "property": "C57",
   "status": "proved",
   "theorems": [
    "Verif.C57_utf8_utf32",
    "Verif.C57_utf16_utf32",
    "Verif.C57_utf32_utf8",
    "Verif.C57_utf32_utf16",
    "Verif.C57_utf32_utf32",
    "Verif.C57_utf8_utf16",
    "Verif.C57_utf8_utf8",
    "Verif.C57_utf16_utf8",
    "Verif.C57_utf16_utf16"
   ],
   "note": "All nine typed transcoders, exact (iff). The byte transcoder of unknown encoding is covered by C46 and C69 instead."
  },
  {
   "property": "C58",
   "status": "proved",
   "theorems": [
    "Verif.C58_puny_decoded",
    "Verif.C58_decode",
    "Verif.C58_delimiters",
    "Verif.C58_encode"
   ],
   "note": "Bounds: at most 2^32-6 path segments (the visitor's unsigned index), host shorter than 2^64-2 bytes (decode) or at most 2^37 (encode)."
  },
  {
   "property": "C59",
   "status": "proved",
   "theorems": [
    "Verif.C59_lines",
    "Verif.C59_stdin",
    "Verif.C59_files",
    "Verif.C59_stops",
    "Verif.C59_report_injective"
   ],
   "note": "CtypeSafe (C09) lines; UriLine is RFC 3986 with the exceptions of C02. Stream failures are not modelled."
  },
  {
   "property": "C60",
   "status": "proved",
   "theorems": [
    "Verif.C60_error_codes",
    "Verif.C60_messages"
   ],
   "note": ""
  },
  {
   "property": "C61",
   "status": "proved",
   "theorems": [
    "Verif.C61_pipeline",
    "Verif.C61_pipeline_split"
   ],
   "note": "Path segments below 2^32/3 bytes, hosts of at most 2^37 bytes and without ACE (xn--) labels, see C34 for those."
  },
  {
   "property": "C62",
   "status": "proved",
   "theorems": [
    "Verif.C62_split",
    "Verif.C62_split_reference",
    "Verif.C62_valid",
    "Verif.C62_grammar",
    "Verif.C62_counterexample"
   ],
   "note": "The steps are counted by Verif/Model/Cost.lean; forgetting the count gives the functions of the other theorems (first half of each statement). C62_grammar: the criterion for any grammar; C62_counterexample: it is needed."
  },
  {
   "property": "C63",
   "status": "proved",
   "theorems": [
    "Verif.C63_utf8_utf32",
    "Verif.C63_utf8_utf16",
    "Verif.C63_utf8_utf8",
    "Verif.C63_utf16_utf32",
    "Verif.C63_utf16_utf8",
    "Verif.C63_utf16_utf16",
    "Verif.C63_utf32_utf8",
    "Verif.C63_utf32_utf16",
    "Verif.C63_utf32_utf32"
   ],
   "note": "Model/Shared.lean: the view's flag, shared by the iterators; Positions is the specification (numbers of elements passed)."
  },
  {
   "property": "C64",
   "status": "proved",
   "theorems": [
    "Verif.C64_bounds",
    "Verif.C64_incr",
    "Verif.C64_deref",
    "Verif.C64_lasts",
    "Verif.C64_dangles",
    "Verif.C64_alias",
    "Verif.C64_postfix",
    "Verif.C64_same_object",
    "Verif.C64_write",
    "Verif.C64_swap",
    "Verif.C64_swap_false"
   ],
   "note": "Model/Refs.lean: iterators as objects with lifetimes, references as names of objects, text as memory. Shows is the specification of the decoded character at a position."
  },
  {
   "property": "C65",
   "status": "proved",
   "theorems": [
    "Verif.C65_dots",
    "Verif.C65_byte",
    "Verif.C65_decode",
    "Verif.C65_join",
    "Verif.C65_join_decode",
    "Verif.C65_order"
   ],
   "note": "Fewer than 2^32-6 path segments for the decode half, as in C36; null views are empty."
  },
  {
   "property": "C66",
   "status": "proved",
   "theorems": [
    "Verif.C66_results",
    "Verif.C66_encode",
    "Verif.C66_decode",
    "Verif.C66_decode_quadratic",
    "Verif.C66_encode_quadratic"
   ],
   "note": "Steps: turns of loops and elements copied, compared or moved; std::sort counts n(log2 n + 1). The lower bound for encode is for texts the library encodes without wrapping (2^26 code points, or 2^37 Unicode ones)."
  },
  {
   "property": "C67",
   "status": "proved",
   "theorems": [
    "Verif.C67_other_store",
    "Verif.C67_same_store_encode",
    "Verif.C67_same_store_decode",
    "Verif.C67_results",
    "Verif.C67_reuse"
   ],
   "note": "Model/Alias.lean: encode and decode reading through views only while the characters live. Path of fewer than 2^32-6 segments, hosts up to 2^37 bytes, as in C35. std::vector::clear ends the life of the characters (C++20 [basic.life]), whether or not their memory is still there."
  },
  {
   "property": "C68",
   "status": "proved",
   "theorems": [
    "Verif.C68_encode",
    "Verif.C68_decode",
    "Verif.C68_retry",
    "Verif.C68_error"
   ],
   "note": "Model/Throw.lean: an oracle says which calls throw, and after how many characters written. push_back is taken not to throw while the capacity suffices (it always does, C35, C36). The argument is passed by const reference; that it is not changed is the type's doing."
  },
  {
   "property": "C69",
   "status": "proved",
   "theorems": [
    "Verif.C69_exact",
    "Verif.C69_settles",
    "Verif.C69_false"
   ],
   "note": "All histories of calls, all three targets. callContent (Spec/Calls.lean) states the sequence of inner calls as built; C69_false lists what is wrong with it."
  },
  {
   "property": "C70",
   "status": "proved",
   "theorems": [
    "Verif.C70_split_never_crashes",
    "Verif.C70_split_compose_equal",
    "Verif.C70_pctdecode_never_crashes",
    "Verif.C70_pctdecode_view_never_crashes",
    "Verif.C70_pctencode_never_crashes",
    "Verif.C70_pct_round_trip",
    "Verif.C70_punycode_encode_never_crashes",
    "Verif.C70_punycode_decode_never_crashes",
    "Verif.C70_punycode_round_trip",
    "Verif.C70_punycode_decode_encode",
    "Verif.C70_parts_round_trip",
    "Verif.C70_compose_accepted",
    "Verif.C70_compose_valid_counterexample"
   ],
   "note": "Each FUZZ_TEST of unittests/uri as a theorem; C70_compose_accepted is the exact condition for the one that fails (C70_compose_valid_counterexample). Hosts of at most 2^37 bytes, up to 2^32-6 segments of less than 2^32 bytes."
  },
  {
   "property": "C71",
   "status": "proved",
   "theorems": [
    "Verif.C71_decode",
    "Verif.C71_decode_total",
    "Verif.C71_encode",
    "Verif.C71_needs",
    "Verif.C71_bytes",
    "Verif.C71_left",
    "Verif.C71_roundtrip",
    "Verif.C71_ascii",
    "Verif.C71_counterexample"
   ],
   "note": "C71_left and C71_roundtrip are exact: which units survive, and what is left of the others; C71_counterexample shows the loss. A unit is its value as an unsigned number."
  },
  {
   "property": "C72",
   "status": "proved",
   "theorems": [
    "Verif.C72_valid",
    "Verif.C72_valid_path",
    "Verif.C72_valid_authority",
    "Verif.C72_valid_returns",
    "Verif.C72_split",
    "Verif.C72_split_reference",
    "Verif.C72_no_wrong_result",
    "Verif.C72_grammar"
   ],
   "note": "Exact: the number of requests, and where an exception leaves. Assumes that an empty vector asks for no memory (as those of the three main implementations do)."
  },
  {
   "property": "C73",
   "status": "proved",
   "theorems": [
    "Verif.C73_written",
    "Verif.C73_exceptions",
    "Verif.C73_bad",
    "Verif.C73_width",
    "Verif.C73_compose",
    "Verif.C73_truncated",
    "Verif.C73_truncated_counterexample"
   ],
   "note": "C73_truncated is exact; C73_truncated_counterexample shows http://good.example.evil.test/ composed to http://good.example. Streams as [ostream.formatted.reqmts] has them; locale and internal adjustment (as right) aside."
  },
  {
   "property": "C74",
   "status": "proved",
   "theorems": [
    "Verif.C74_split",
    "Verif.C74_reference",
    "Verif.C74_valid",
    "Verif.C74_same",
    "Verif.C74_ascii",
    "Verif.C74_signed",
    "Verif.C74_multibyte",
    "Verif.C74_foreign",
    "Verif.C74_sound",
    "Verif.C74_base"
   ],
   "note": "Model/Locale is the grammar again over an arbitrary locale; Proofs/Locale a simulation under a renaming of characters."
  },
  {
   "property": "C75",
   "status": "proved",
   "theorems": [
    "Verif.C75_chain",
    "Verif.C75_back",
    "Verif.C75_repair",
    "Verif.C75_any_length",
    "Verif.C75_views"
   ],
   "note": "All nine transcoders of character types."
  },
  {
   "property": "C76",
   "status": "proved",
   "theorems": [
    "Verif.C76_stream",
    "Verif.C76_last_character"
   ],
   "note": "The property a user would rely on (the view yields all of the text, C45) is false for such ranges; the theorems say exactly what is yielded."
  },
  {
   "property": "C77",
   "status": "proved",
   "theorems": [
    "Verif.C77_percent_text",
    "Verif.C77_percent_depends",
    "Verif.C77_utf8_utf32",
    "Verif.C77_utf8_utf16",
    "Verif.C77_utf8_utf8",
    "Verif.C77_utf16_utf32",
    "Verif.C77_utf16_utf8",
    "Verif.C77_utf16_utf16",
    "Verif.C77_utf32_utf8",
    "Verif.C77_utf32_utf16",
    "Verif.C77_utf32_utf32",
    "Verif.C77_percent",
    "Verif.C77_percent_own",
    "Verif.C77_percent_seen"
   ],
   "note": "Sequentially consistent interleavings; a race is two unordered conflicting accesses, so in the racy cases nothing is claimed beyond the race itself. Sharing a const view of a malformed text is not safe."
  },
  {
   "property": "C78",
   "status": "proved",
   "theorems": [
    "Verif.C78_sound",
    "Verif.C78_components",
    "Verif.C78_rejects",
    "Verif.C78_complete",
    "Verif.C78_addresses"
   ],
   "note": "The exception for texts that contain an IPv4 address is needed because of hosts such as 1.2.3.4.com (C02), and is exact there. The reader of the notation (Spec/AbnfNotation) is part of the specification."
  },
  {
   "property": "C79",
   "status": "proved",
   "theorems": [
    "Verif.C79_utf8_utf32",
    "Verif.C79_utf8_utf16",
    "Verif.C79_utf8_utf8",
    "Verif.C79_utf16_utf32",
    "Verif.C79_utf16_utf8",
    "Verif.C79_utf16_utf16",
    "Verif.C79_utf32_utf8",
    "Verif.C79_utf32_utf16",
    "Verif.C79_utf32_utf32",
    "Verif.C79_copy_counterexample"
   ],
   "note": "The flag after k increments is that of a single iterator (C43, C57). Assignment to a view is not modelled."
  },
  {
   "property": "C80",
   "status": "proved",
   "theorems": [
    "Verif.C80_single_char",
    "Verif.C80_classes",
    "Verif.C80_char_range",
    "Verif.C80_char_range_plain",
    "Verif.C80_char_range_counterexample",
    "Verif.C80_char_range_wide"
   ],
   "note": "\"C\" locale; for others see C74. char_range is stated for ASCII bounds (its model compares bytes, and the EOF value only arises outside ASCII)."
  },
  {
   "property": "C81",
   "status": "proved",
   "theorems": [
    "Verif.C81_appending",
    "Verif.C81_pointer",
    "Verif.C81_copy",
    "Verif.C81_calls",
    "Verif.C81_post",
    "Verif.C81_post_counterexample"
   ],
   "note": "Generic in the transcoder; that the calls succeed for the twelve transcoders is C57 and C69. Two kinds of wrapped output iterator are modelled: array pointer and back inserter."
  },
  {
   "property": "C82",
   "status": "proved",
   "theorems": [
    "Verif.C82_encode",
    "Verif.C82_decode",
    "Verif.C82_decode_counterexample",
    "Verif.C82_scheme_counterexample",
    "Verif.C82_strings"
   ],
   "note": "Bound: fewer than 2^32 - 6 segments in base and reference together, hosts up to 2^37 bytes to encode."
  },
  {
   "property": "C83",
   "status": "proved",
   "theorems": [
    "Verif.C83_in_place",
    "Verif.C83_join",
    "Verif.C83_strings"
   ],
   "note": ""
  },
  {
   "property": "C84",
   "status": "proved",
   "theorems": [
    "Verif.C84_ends_32_8",
    "Verif.C84_ends_32_16",
    "Verif.C84_ends_16_32",
    "Verif.C84_ends_8_16",
    "Verif.C84_ends_16_8",
    "Verif.C84_ends_8_8",
    "Verif.C84_ends_16_16",
    "Verif.C84_ends_bytes",
    "Verif.C84_end_8_16",
    "Verif.C84_end_16_8",
    "Verif.C84_end_8_8",
    "Verif.C84_end_16_16",
    "Verif.C84_passes_8_32",
    "Verif.C84_passes_32_32",
    "Verif.C84_end_8_32",
    "Verif.C84_end_16_32",
    "Verif.C84_resume_8_32",
    "Verif.C84_resume_32_32"
   ],
   "note": ""
  },
  {
   "property": "C85",
   "status": "proved",
   "theorems": [
    "Verif.C85_fragment",
    "Verif.C85_query",
    "Verif.C85_authority",
    "Verif.C85_path",
    "Verif.C85_last_segment",
    "Verif.C85_text",
    "Verif.C85_directory",
    "Verif.C85_directory_counterexample",
    "Verif.C85_only_segment_counterexample"
   ],
   "note": "Exact (iff) for query, authority and directory."
  },
  {
   "property": "C86",
   "status": "proved",
   "theorems": [
    "Verif.C86_star",
    "Verif.C86_concat",
    "Verif.C86_optional",
    "Verif.C86_alternative",
    "Verif.C86_single_char",
    "Verif.C86_done",
    "Verif.C86_failed",
    "Verif.C86_effectless",
    "Verif.C86_moved",
    "Verif.C86_extra_call_counterexample"
   ],
   "note": "Each member is characterised by an equivalence; star with any number of rounds."
  },
  {
   "property": "C87",
   "status": "proved",
   "theorems": [
    "Verif.C87_results",
    "Verif.C87_encode",
    "Verif.C87_decode",
    "Verif.C87_encode_ascii",
    "Verif.C87_decode_plain",
    "Verif.C87_encode_quadratic",
    "Verif.C87_decode_quadratic"
   ],
   "note": "The counting model returns what the model returns (C87_results). Steps inside the allocator are not counted."
  },
  {
   "property": "C88",
   "status": "proved",
   "theorems": [
    "Verif.C88_split_exact",
    "Verif.C88_reference_exact",
    "Verif.C88_compose_injective",
    "Verif.C88_split_injective",
    "Verif.C88_decode_unreserved",
    "Verif.C88_reserved_counterexample"
   ],
   "note": "Four exact or two-way statements and counterexamples for reserved characters."
  },
  {
   "property": "C89",
   "status": "proved",
   "theorems": [
    "Verif.C89_agrees",
    "Verif.C89_utf8",
    "Verif.C89_utf32",
    "Verif.C89_utf16be",
    "Verif.C89_utf16le",
    "Verif.C89_unmarked",
    "Verif.C89_partial_mark",
    "Verif.C89_always",
    "Verif.C89_cases",
    "Verif.C89_text",
    "Verif.C89_false"
   ],
   "note": "Exact conditions for each of the ways in which a text can begin, a theorem that these are all the ways, and counterexamples."
  },
  {
   "property": "C90",
   "status": "proved",
   "theorems": [
    "Verif.C90_room",
    "Verif.C90_call",
    "Verif.C90_bytes",
    "Verif.C90_bytes_call"
   ],
   "note": "Upper bounds for all texts and histories, each attained."
  },
  {
   "property": "C91",
   "status": "proved",
   "theorems": [
    "Verif.C91_fragment",
    "Verif.C91_query",
    "Verif.C91_scheme",
    "Verif.C91_relative",
    "Verif.C91_independent",
    "Verif.C91_relative_counterexample",
    "Verif.C91_path_counterexample"
   ],
   "note": "Equivalences in both directions; with counterexamples for the conditions on scheme and path."
  },
  {
   "property": "C92",
   "status": "proved",
   "theorems": [
    "Verif.C92_copy_before",
    "Verif.C92_copy_beyond",
    "Verif.C92_copy_onto",
    "Verif.C92_copy_onto_exact",
    "Verif.C92_post_onto",
    "Verif.C92_encode_before",
    "Verif.C92_encode_gap",
    "Verif.C92_encode_onto",
    "Verif.C92_encode_onto_exact"
   ],
   "note": "Exact conditions for output onto the text itself."
  },
  {
   "property": "C93",
   "status": "proved",
   "theorems": [
    "Verif.C93_join",
    "Verif.C93_join_exact",
    "Verif.C93_dots",
    "Verif.C93_texts",
    "Verif.C93_chain",
    "Verif.C93_attained"
   ],
   "note": "Bound attained by concrete cases."
  },
  {
   "property": "C94",
   "status": "proved",
   "theorems": [
    "Verif.C94_before",
    "Verif.C94_beyond",
    "Verif.C94_utf16",
    "Verif.C94_utf8_room",
    "Verif.C94_bytes_room",
    "Verif.C94_onto_utf16",
    "Verif.C94_onto_utf32",
    "Verif.C94_utf8",
    "Verif.C94_onto_utf8",
    "Verif.C94_counterexample"
   ],
   "note": "Generic in the transcoder; the view is proved equal to the list model as long as nothing unread is overwritten."
  },
  {
   "property": "C95",
   "status": "proved",
   "theorems": [
    "Verif.C95_ahead",
    "Verif.C95_attained"
   ],
   "note": "Bounds attained by concrete texts."
  },
  {
   "property": "C96",
   "status": "proved",
   "theorems": [
    "Verif.C96_punycode",
    "Verif.C96_encode",
    "Verif.C96_decode",
    "Verif.C96_decode_tight",
    "Verif.C96_encode_tight"
   ],
   "note": "From the RFC 3492 relation: each digit of a variable-length integer but the last two multiplies it by ten or more."
  },
  {
   "property": "C97",
   "status": "proved",
   "theorems": [
    "Verif.C97_second_rooted",
    "Verif.C97_first_rooted",
    "Verif.C97_relative",
    "Verif.C97_counterexamples"
   ],
   "note": "Counterexamples are proved for every condition."
  },
  {
   "property": "C98",
   "status": "proved",
   "theorems": [
    "Verif.C98_nothing_thrown",
    "Verif.C98_write_throws",
    "Verif.C98_room",
    "Verif.C98_pctencode",
    "Verif.C98_pctdecode",
    "Verif.C98_punycode",
    "Verif.C98_host_encode",
    "Verif.C98_host_decode"
   ],
   "note": "`std::string` members that grow are taken to ask for memory once for each non-basic code point and once for each label; memory running out inside `encode` and `decode` of whole URIs is C68."
  },
  {
   "property": "C99",
   "status": "proved",
   "theorems": [
    "Verif.C99_pieces",
    "Verif.C99_cut",
    "Verif.C99_hold_back",
    "Verif.C99_host_encode",
    "Verif.C99_host_decode",
    "Verif.C99_host_error",
    "Verif.C99_host_counterexample"
   ],
   "note": ""
  },
  {
   "property": "C100",
   "status": "proved",
   "theorems": [
    "Verif.C100_group",
    "Verif.C100_concat_assoc",
    "Verif.C100_alternative_one",
    "Verif.C100_alternative_group",
    "Verif.C100_alternative_again",
    "Verif.C100_factor_left",
    "Verif.C100_optional",
    "Verif.C100_accept",
    "Verif.C100_star_unroll",
    "Verif.C100_star_one",
    "Verif.C100_star_optional",
    "Verif.C100_counterexamples"
   ],
   "note": "Match functions are pure functions of the text in the model."
  },
  {
   "property": "C101",
   "status": "proved",
   "theorems": [
    "Verif.C101_encode_twice",
    "Verif.C101_encode_none",
    "Verif.C101_rounds",
    "Verif.C101_decode_fixed",
    "Verif.C101_once_more",
    "Verif.C101_decode_rests",
    "Verif.C101_decode_rests_tight",
    "Verif.C101_host_twice",
    "Verif.C101_host_decode_twice",
    "Verif.C101_parts_twice"
   ],
   "note": ""
  },
  {
   "property": "C102",
   "status": "proved",
   "theorems": [
    "Verif.C102_scheme",
    "Verif.C102_authority",
    "Verif.C102_query",
    "Verif.C102_fragment",
    "Verif.C102_relative",
    "Verif.C102_relative_one",
    "Verif.C102_relative_none",
    "Verif.C102_text_scheme",
    "Verif.C102_counterexamples"
   ],
   "note": ""
  },
  {
   "property": "C103",
   "status": "proved",
   "theorems": [
    "Verif.C103_order",
    "Verif.C103_order_decode",
    "Verif.C103_order16",
    "Verif.C103_search",
    "Verif.C103_search16",
    "Verif.C103_counterexamples"
   ],
   "note": ""
  },
  {
   "property": "C104",
   "status": "proved",
   "theorems": [
    "Verif.C104_nth",
    "Verif.C104_equal",
    "Verif.C104_view_equal",
    "Verif.C104_multipass",
    "Verif.C104_ends"
   ],
   "note": ""
  },
  {
   "property": "C105",
   "status": "proved",
   "theorems": [
    "Verif.C105_percent",
    "Verif.C105_normal_form",
    "Verif.C105_parts",
    "Verif.C105_same_text",
    "Verif.C105_survives",
    "Verif.C105_counterexamples"
   ],
   "note": ""
  },
  {
   "property": "C106",
   "status": "proved",
   "theorems": [
    "Verif.C106_again",
    "Verif.C106_stable",
    "Verif.C106_normal_form",
    "Verif.C106_reg_name",
    "Verif.C106_parts",
    "Verif.C106_not_canonical_counterexamples",
    "Verif.C106_ace_counterexample",
    "Verif.C106_address_counterexample"
   ],
   "note": "Hosts of at most 2^35 bytes, so that what they decode to has at most 2^37."
  },
  {
   "property": "C107",
   "status": "proved",
   "theorems": [
    "Verif.C107_otherwise",
    "Verif.C107_scheme",
    "Verif.C107_same",
    "Verif.C107_prefix",
    "Verif.C107_alone",
    "Verif.C107_case_counterexample",
    "Verif.C107_colon_counterexample"
   ],
   "note": ""
  },
  {
   "property": "C108",
   "status": "proved",
   "theorems": [
    "Verif.C108_split",
    "Verif.C108_reference",
    "Verif.C108_valid",
    "Verif.C108_join",
    "Verif.C108_pctdecode",
    "Verif.C108_pctencode",
    "Verif.C108_join_counterexample",
    "Verif.C108_prefix_counterexample"
   ],
   "note": ""
  },
  {
   "property": "C109",
   "status": "proved",
   "theorems": [
    "Verif.C109_rule",
    "Verif.C109_split",
    "Verif.C109_split_reference",
    "Verif.C109_valid",
    "Verif.C109_reached"
   ],
   "note": ""
  },
  {
   "property": "C110",
   "status": "proved",
   "theorems": [
    "Verif.C110_index",
    "Verif.C110_length_append",
    "Verif.C110_end",
    "Verif.C110_before",
    "Verif.C110_increasing",
    "Verif.C110_step",
    "Verif.C110_slice_utf8",
    "Verif.C110_slice_utf16",
    "Verif.C110_no_cut_utf8",
    "Verif.C110_no_cut_utf16",
    "Verif.C110_projection",
    "Verif.C110_malformed_counterexample"
   ],
   "note": ""
  },
  {
   "property": "C111",
   "status": "proved",
   "theorems": [
    "Verif.C111_grammar",
    "Verif.C111_split",
    "Verif.C111_split_reference",
    "Verif.C111_needed",
    "Verif.C111_needed_reference",
    "Verif.C111_measured"
   ],
   "note": ""
  },
  {
   "property": "C112",
   "status": "proved",
   "theorems": [
    "Verif.C112_stays",
    "Verif.C112_text",
    "Verif.C112_exact",
    "Verif.C112_back_counterexample",
    "Verif.C112_empty_counterexample"
   ],
   "note": ""
  },
  {
   "property": "C113",
   "status": "proved",
   "theorems": [
    "Verif.C113_split",
    "Verif.C113_reference",
    "Verif.C113_search",
    "Verif.C113_search_counterexample",
    "Verif.C113_slashes_counterexample",
    "Verif.C113_differ"
   ],
   "note": ""
  },
  {
   "property": "C114",
   "status": "proved",
   "theorems": [
    "Verif.C114_list",
    "Verif.C114_exact",
    "Verif.C114_query",
    "Verif.C114_path",
    "Verif.C114_counterexample",
    "Verif.C114_dots_counterexample"
   ],
   "note": ""
  },
  {
   "property": "C115",
   "status": "proved",
   "theorems": [
    "Verif.C115_begins",
    "Verif.C115_origin",
    "Verif.C115_counterexample",
    "Verif.C115_dots_counterexample"
   ],
   "note": ""
  },
  {
   "property": "C116",
   "status": "proved",
   "theorems": [
    "Verif.C116_cut",
    "Verif.C116_same",
    "Verif.C116_counterexample"
   ],
   "note": ""
  },
  {
   "property": "C117",
   "status": "proved",
   "theorems": [
    "Verif.C117_stays",
    "Verif.C117_exact",
    "Verif.C117_counterexample"
   ],
   "note": ""
  },
  {
   "property": "C118",
   "status": "proved",
   "theorems": [
    "Verif.C118_server",
    "Verif.C118_path",
    "Verif.C118_query",
    "Verif.C118_fragment",
    "Verif.C118_counterexample"
   ],
   "note": ""
  },
  {
   "property": "C119",
   "status": "proved",
   "theorems": [
    "Verif.C119_filled",
    "Verif.C119_encoded",
    "Verif.C119_resolved",
    "Verif.C119_counterexample"
   ],
   "note": ""
  },
  {
   "property": "C120",
   "status": "proved",
   "theorems": [
    "Verif.C120_host",
    "Verif.C120_accepted",
    "Verif.C120_userinfo",
    "Verif.C120_encoded",
    "Verif.C120_counterexample"
   ],
   "note": ""
  },
  {
   "property": "C121",
   "status": "proved",
   "theorems": [
    "Verif.C121_moved",
    "Verif.C121_text",
    "Verif.C121_counterexample"
   ],
   "note": ""
  },
  {
   "property": "C122",
   "status": "proved",
   "theorems": [
    "Verif.C122_same",
    "Verif.C122_lax",
    "Verif.C122_any_base",
    "Verif.C122_relative",
    "Verif.C122_straight",
    "Verif.C122_examples",
    "Verif.C122_strict_counterexample"
   ],
   "note": "Exact (iff), for all kinds of references."
  },
  {
   "property": "C123",
   "status": "proved",
   "theorems": [
    "Verif.C123_prefix",
    "Verif.C123_equal",
    "Verif.C123_occurrence",
    "Verif.C123_find",
    "Verif.C123_find_exact",
    "Verif.C123_counterexamples"
   ],
   "note": "The condition on the first character is exact."
  },
  {
   "property": "C124",
   "status": "proved",
   "theorems": [
    "Verif.C124_filled",
    "Verif.C124_encoded",
    "Verif.C124_resolved",
    "Verif.C124_counterexamples"
   ],
   "note": ""
  },
  {
   "property": "C125",
   "status": "proved",
   "theorems": [
    "Verif.C125_goes",
    "Verif.C125_all",
    "Verif.C125_rooted",
    "Verif.C125_counterexamples"
   ],
   "note": "The references range over parts; C125_counterexamples shows through the strings that the weaker tests do not imply the stronger, and that http://h and http://h/ are not interchangeable."
  }
 ]
}