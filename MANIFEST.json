{
 "claims": [
  {
   "property": "C01",
   "status": "proved",
   "theorems": [
    "Asteria.Codec.C01_hex_round_trip",
    "Asteria.Codec.C80_hex"
   ],
   "note": "All byte strings, all whitespace delimiters; exact text."
  },
  {
   "property": "C02",
   "status": "proved",
   "theorems": [
    "Asteria.Codec.C02_base32_round_trip",
    "Asteria.Codec.C02_base32_case_insensitive",
    "Asteria.Codec.C80_base32"
   ],
   "note": "All byte strings; exact length and text; letter case of the text is irrelevant."
  },
  {
   "property": "C03",
   "status": "proved",
   "theorems": [
    "Asteria.Codec.C03_base64_round_trip",
    "Asteria.Codec.C80_base64"
   ],
   "note": "All byte strings; exact length and text."
  },
  {
   "property": "C04",
   "status": "proved",
   "theorems": [
    "Asteria.Codec.C04_url_round_trip",
    "Asteria.Codec.C04_url_encode_safe"
   ],
   "note": "Round trip and output grammar."
  },
  {
   "property": "C05",
   "status": "proved",
   "theorems": [
    "Asteria.Codec.C05_url_query_round_trip",
    "Asteria.Codec.C80_url_query"
   ],
   "note": "Round trip, and the exact text (a blank becomes +)."
  },
  {
   "property": "C06",
   "status": "proved",
   "theorems": [
    "Asteria.Codec.C06_hex_decode_iff",
    "Asteria.Codec.C06_hex_decode_sound",
    "Asteria.Codec.C06_hex_decode_complete"
   ],
   "note": "hex_decode accepts exactly the stated language."
  },
  {
   "property": "C07",
   "status": "proved",
   "theorems": [
    "Asteria.Utf.C07_encode_domain",
    "Asteria.Utf.C07_encode_well_formed",
    "Asteria.Utf.C07_round_trip",
    "Asteria.Utf.C07_string_round_trip",
    "Asteria.Utf.C07_encode_invalid"
   ],
   "note": ""
  },
  {
   "property": "C08",
   "status": "partial",
   "theorems": [
    "Asteria.Utf.C08_counterexample",
    "Asteria.Utf.C08_validate_partial",
    "Asteria.Utf.C08_accepts_well_formed",
    "Asteria.Utf.C08_decode_total",
    "Asteria.Utf.C08_validate_total"
   ],
   "note": "False of the code: trailing bytes are not checked (utils.cpp:273); negation proved at C3 41. Completeness and the equivalence under TrailOk hold."
  },
  {
   "property": "C09",
   "status": "proved",
   "theorems": [
    "Asteria.Utf.C09_encode_domain",
    "Asteria.Utf.C09_round_trip",
    "Asteria.Utf.C09_validate"
   ],
   "note": ""
  },
  {
   "property": "C10",
   "status": "proved",
   "theorems": [
    "Asteria.Slice.C10_slice_range",
    "Asteria.Slice.C10_slice_bounds",
    "Asteria.Slice.C10_slice"
   ],
   "note": "all 64-bit from/length; texts up to 2^63-1 elements"
  },
  {
   "property": "C11",
   "status": "proved",
   "theorems": [
    "Asteria.StrSearch.C11_find",
    "Asteria.StrSearch.C11_rfind"
   ],
   "note": "BMH searcher incl. the word-wise skip loop, forward and reverse"
  },
  {
   "property": "C12",
   "status": "proved",
   "theorems": [
    "Asteria.StrSearch.C12_replace",
    "Asteria.StrSearch.C12_subst_functional",
    "Asteria.StrSearch.C12_replace_self",
    "Asteria.StrSearch.C12_replace_empty",
    "Asteria.StrSearch.C12_replace_empty_range"
   ],
   "note": ""
  },
  {
   "property": "C13",
   "status": "proved",
   "theorems": [
    "Asteria.StrSearch.C13_implode_explode",
    "Asteria.StrSearch.C13_segments",
    "Asteria.StrSearch.C13_bytes",
    "Asteria.StrSearch.C13_edge"
   ],
   "note": ""
  },
  {
   "property": "C14",
   "status": "proved",
   "theorems": [
    "Asteria.StrSearch.C14_triml",
    "Asteria.StrSearch.C14_trimr",
    "Asteria.StrSearch.C14_trim",
    "Asteria.StrSearch.C14_leading_unique",
    "Asteria.StrSearch.C14_idempotent"
   ],
   "note": ""
  },
  {
   "property": "C15",
   "status": "proved",
   "theorems": [
    "Asteria.StrSearch.C15_padl",
    "Asteria.StrSearch.C15_padr",
    "Asteria.StrSearch.C15_empty"
   ],
   "note": ""
  },
  {
   "property": "C16",
   "status": "proved",
   "theorems": [
    "Asteria.StrSearch.C16_find_of",
    "Asteria.StrSearch.C16_rfind_of"
   ],
   "note": ""
  },
  {
   "property": "C17",
   "status": "proved",
   "theorems": [
    "Asteria.Slice.C17_replace_slice",
    "Asteria.Slice.C17_array_agrees"
   ],
   "note": ""
  },
  {
   "property": "C18",
   "status": "proved",
   "theorems": [
    "Asteria.ArrayLib.C18_sort",
    "Asteria.ArrayLib.C18_permutation",
    "Asteria.ArrayLib.C18_ksort"
   ],
   "note": "comparators are modelled as pure functions; sort never throws or reads out of bounds with a total preorder, and throws or permutes with any comparator"
  },
  {
   "property": "C19",
   "status": "proved",
   "theorems": [
    "Asteria.ArrayLib.C19_usort",
    "Asteria.ArrayLib.C19_members",
    "Asteria.ArrayLib.C19_any"
   ],
   "note": "comparators are pure functions"
  },
  {
   "property": "C20",
   "status": "proved",
   "theorems": [
    "Asteria.ArrayLib.C20_lower_bound",
    "Asteria.ArrayLib.C20_upper_bound",
    "Asteria.ArrayLib.C20_equal_range",
    "Asteria.ArrayLib.C20_binary_search",
    "Asteria.ArrayLib.C20_no_ub"
   ],
   "note": ""
  },
  {
   "property": "C21",
   "status": "proved",
   "theorems": [
    "Asteria.ArrayLib.C21_shuffle",
    "Asteria.ArrayLib.C21_determined"
   ],
   "note": ""
  },
  {
   "property": "C22",
   "status": "proved",
   "theorems": [
    "Asteria.ArrayLib.C22_rotate",
    "Asteria.ArrayLib.C22_inverse"
   ],
   "note": ""
  },
  {
   "property": "C23",
   "status": "proved",
   "theorems": [
    "Asteria.ArrayLib.C23_find",
    "Asteria.ArrayLib.C23_rfind",
    "Asteria.ArrayLib.C23_count",
    "Asteria.ArrayLib.C23_exclude",
    "Asteria.ArrayLib.C23_max_of",
    "Asteria.ArrayLib.C23_min_of"
   ],
   "note": "the element test (equality with the target or predicate call) is a pure function"
  },
  {
   "property": "C24",
   "status": "proved",
   "theorems": [
    "Asteria.IntOps.C24_add",
    "Asteria.IntOps.C24_sub",
    "Asteria.IntOps.C24_mul",
    "Asteria.IntOps.C24_inc",
    "Asteria.IntOps.C24_dec",
    "Asteria.IntOps.C24_neg",
    "Asteria.IntOps.C24_abs",
    "Asteria.IntOps.C24_div",
    "Asteria.IntOps.C24_mod"
   ],
   "note": "int64 as BitVec 64; GCC overflow builtins per their manual; % also throws for INT64_MIN % -1 (statement says so)"
  },
  {
   "property": "C25",
   "status": "proved",
   "theorems": [
    "Asteria.IntOps.C25_addm",
    "Asteria.IntOps.C25_subm",
    "Asteria.IntOps.C25_mulm",
    "Asteria.IntOps.C25_unique"
   ],
   "note": ""
  },
  {
   "property": "C26",
   "status": "proved",
   "theorems": [
    "Asteria.IntOps.C26_adds",
    "Asteria.IntOps.C26_subs",
    "Asteria.IntOps.C26_muls"
   ],
   "note": ""
  },
  {
   "property": "C27",
   "status": "proved",
   "theorems": [
    "Asteria.IntOps.C27_negative_count",
    "Asteria.IntOps.C27_sll",
    "Asteria.IntOps.C27_srl",
    "Asteria.IntOps.C27_sra",
    "Asteria.IntOps.C27_sla"
   ],
   "note": ""
  },
  {
   "property": "C28",
   "status": "proved",
   "theorems": [
    "Asteria.IntOps.C28_lzcnt",
    "Asteria.IntOps.C28_tzcnt",
    "Asteria.IntOps.C28_popcnt"
   ],
   "note": ""
  },
  {
   "property": "C29",
   "status": "proved",
   "theorems": [
    "Asteria.Numeric.C29_round_trip",
    "Asteria.Numeric.C29_in_range",
    "Asteria.Numeric.C29_length",
    "Asteria.Numeric.C29_orders",
    "Asteria.Numeric.C29_digits"
   ],
   "note": "Byte-level model of pack/unpack for every width and byte order."
  },
  {
   "property": "C30",
   "status": "proved",
   "theorems": [
    "Asteria.Numeric.C30_rotl",
    "Asteria.Numeric.C30_rotr",
    "Asteria.Numeric.C30_inverse",
    "Asteria.Numeric.C30_other"
   ],
   "note": "Bit-level characterisation for every m, x and shift."
  },
  {
   "property": "C31",
   "status": "proved",
   "theorems": [
    "Asteria.Numeric.C31_bump",
    "Asteria.Numeric.C31_unit",
    "Asteria.Numeric.C31_onto"
   ],
   "note": "ISAAC engine modelled in full; the ratio is exact as k * 2^-53."
  },
  {
   "property": "C32",
   "status": "proved",
   "theorems": [
    "Asteria.NumText.C32_round_trip",
    "Asteria.NumText.C32_round_trip_exponent",
    "Asteria.NumText.C32_format",
    "Asteria.NumText.C32_bases",
    "Asteria.NumText.C32_digits"
   ],
   "note": "All int64_t values, bases 2, 10 and 16, with and without an exponent, any blanks around; also the text given by format (against Nat.digits), digit strings of any length (integer when in range, otherwise real), and the errors for other bases. Value printing uses the same put_DI."
  },
  {
   "property": "C33",
   "status": "proved",
   "theorems": [
    "Asteria.SeqOps.C33_and",
    "Asteria.SeqOps.C33_or",
    "Asteria.SeqOps.C33_xor",
    "Asteria.SeqOps.C33_not",
    "Asteria.SeqOps.C33_negative_count",
    "Asteria.SeqOps.C33_sll",
    "Asteria.SeqOps.C33_srl",
    "Asteria.SeqOps.C33_sla",
    "Asteria.SeqOps.C33_sra",
    "Asteria.SeqOps.C33_sla_sra",
    "Asteria.SeqOps.C33_duplicate"
   ],
   "note": "max_size() is a parameter; growth past it throws"
  },
  {
   "property": "C34",
   "status": "proved",
   "theorems": [
    "Asteria.Hash.C34_refines",
    "Asteria.Hash.C34_total",
    "Asteria.Hash.C34_spec_put",
    "Asteria.Hash.C34_spec_del"
   ],
   "note": "Reference_Dictionary refines a finite map for every operation history and every hash function, never reaching undefined behaviour; running out of buckets throws"
  },
  {
   "property": "C35",
   "status": "proved",
   "theorems": [
    "Asteria.Hash.C35_insert",
    "Asteria.Hash.C35_erase",
    "Asteria.Hash.C35_merge",
    "Asteria.Hash.C35_extract",
    "Asteria.Hash.C35_empty"
   ],
   "note": "insert/erase/merge/extract of Variable_HashMap act on the represented map as specified, for every reachable table"
  },
  {
   "property": "C36",
   "status": "proved",
   "theorems": [
    "Asteria.LinearBuffer.C36_step",
    "Asteria.LinearBuffer.C36_pre",
    "Asteria.LinearBuffer.C36_history",
    "Asteria.LinearBuffer.C36_fifo",
    "Asteria.LinearBuffer.C36_copy"
   ],
   "note": "every history refines a queue; reads and writes stay inside initialized storage; data put by the caller must not alias the buffer"
  },
  {
   "property": "C37",
   "status": "proved",
   "theorems": [
    "Asteria.CowVector.C37_step",
    "Asteria.CowVector.C37_read",
    "Asteria.CowVector.C37_history",
    "Asteria.CowVector.C37_no_leak"
   ],
   "note": "cow_vector: any program over any number of vectors, with references into the vectors themselves as arguments; element constructors do not throw, counters do not overflow, no concurrent use; the cow_hashmap and cow_string handles use the same scheme and are covered as values in C38 / byte lists"
  },
  {
   "property": "C38",
   "status": "proved",
   "theorems": [
    "Asteria.HashMap.C38_step",
    "Asteria.HashMap.C38_history",
    "Asteria.HashMap.C38_erase_range",
    "Asteria.HashMap.C38_spec_add"
   ],
   "note": "every history of operations refines a finite map, for every hash function and every pattern of sharing; no assertion fails"
  },
  {
   "property": "C39",
   "status": "proved",
   "theorems": [
    "Asteria.C39_recursive",
    "Asteria.C39_converse",
    "Asteria.C39_transitive",
    "Asteria.C39_reflexive",
    "Asteria.C39_mixed",
    "Asteria.C39_total"
   ],
   "note": "Explicit-stack comparison refines a recursive specification, for which the order laws are proved."
  },
  {
   "property": "C40",
   "status": "proved",
   "theorems": [
    "Asteria.C40_exact",
    "Asteria.C40_infinite",
    "Asteria.C40_nan"
   ],
   "note": "Finite doubles are dyadic rationals; the fesetround(FE_DOWNWARD) conversion is modelled as round toward minus infinity and proved to meet the IEEE definition."
  },
  {
   "property": "C41",
   "status": "partial",
   "theorems": [
    "Asteria.Subscript.C41_partial",
    "Asteria.Subscript.C41_false",
    "Asteria.Subscript.C41_read"
   ],
   "note": "True except for INT64_MAX and INT64_MIN on an empty array, where the subtraction overflows (C41_false gives the exact condition)"
  },
  {
   "property": "C42",
   "status": "proved",
   "theorems": [
    "Asteria.Subscript.C42_read_after_write",
    "Asteria.Subscript.C42_frame",
    "Asteria.Subscript.C42_array",
    "Asteria.Subscript.C42_object",
    "Asteria.Subscript.C42_reference"
   ],
   "note": "Value level: cow_vector storage is C37. Frame for arbitrary diverging paths plus the exact effect on arrays and objects"
  },
  {
   "property": "C43",
   "status": "proved",
   "theorems": [
    "Asteria.Subscript.C43_result",
    "Asteria.Subscript.C43_absent",
    "Asteria.Subscript.C43_present",
    "Asteria.Subscript.C43_frame"
   ],
   "note": "Result equals reading; absent is a no-op; present removes exactly that element; frame for other paths"
  },
  {
   "property": "C44",
   "status": "proved",
   "theorems": [
    "Asteria.Subscript.C44_locate",
    "Asteria.Subscript.C44_copy",
    "Asteria.Subscript.C44_throw"
   ],
   "note": ""
  },
  {
   "property": "C45",
   "status": "proved",
   "theorems": [
    "Asteria.Exec.C45_while",
    "Asteria.Exec.C45_do",
    "Asteria.Exec.C45_for",
    "Asteria.Exec.C45_for_init",
    "Asteria.Exec.C45_each",
    "Asteria.Exec.C45_switch",
    "Asteria.Exec.C45_clauses",
    "Asteria.Exec.C45_stop",
    "Asteria.Exec.C45_stop_exc",
    "Asteria.Exec.C45_then",
    "Asteria.Exec.C45_if",
    "Asteria.Exec.C45_function"
   ],
   "note": "Each statement against a big-step specification; every execution, any nesting."
  },
  {
   "property": "C46",
   "status": "proved",
   "theorems": [
    "Asteria.Exec.C46_accepted",
    "Asteria.Exec.C46_block",
    "Asteria.Exec.C46_once",
    "Asteria.Exec.C46_at_most_once",
    "Asteria.Exec.C46_after_registration",
    "Asteria.Exec.C46_result",
    "Asteria.Exec.C46_exception"
   ],
   "note": "Event log of every execution accepted by a small record machine; per-block exactly once, in reverse order, after the body."
  },
  {
   "property": "C47",
   "status": "partial",
   "theorems": [
    "Asteria.Exec.C47_false",
    "Asteria.Exec.C47_partial",
    "Asteria.Exec.C47_use_partial"
   ],
   "note": "False in general: with two nested proper tail calls that both carry deferred expressions the order is inverted (C47_false); holds when at most one hand-off is pending."
  },
  {
   "property": "C48",
   "status": "proved",
   "theorems": [
    "Asteria.Operators.C48_values",
    "Asteria.Operators.C48_nodes"
   ],
   "note": "All binary operators, on values and on the stack with variables; arithmetic of reals is abstract."
  },
  {
   "property": "C49",
   "status": "proved",
   "theorems": [
    "Asteria.Exec.C49_terminator",
    "Asteria.Exec.C49_code",
    "Asteria.Exec.C49_drop",
    "Asteria.Exec.C49_generate"
   ],
   "note": ""
  },
  {
   "property": "C50",
   "status": "proved",
   "theorems": [
    "Asteria.Exec.C50_caught",
    "Asteria.Exec.C50_caught_tail_call",
    "Asteria.Exec.C50_sees",
    "Asteria.Exec.C50_throw",
    "Asteria.Exec.C50_no_exception",
    "Asteria.Exec.C50_scope"
   ],
   "note": ""
  },
  {
   "property": "C51",
   "status": "proved",
   "theorems": [
    "Asteria.Exec.C51_binding",
    "Asteria.Exec.C51_varg",
    "Asteria.Exec.C51_varg_null",
    "Asteria.Exec.C51_bindArgs"
   ],
   "note": "Parameter binding and __varg; __varg with an extreme out-of-range index and no extra argument is undefined behaviour (see C41), excluded in C51_varg_null only."
  },
  {
   "property": "C52",
   "status": "proved",
   "theorems": [
    "Asteria.Exec.C52_array",
    "Asteria.Exec.C52_object"
   ],
   "note": ""
  },
  {
   "property": "C53",
   "status": "proved",
   "theorems": [
    "Asteria.Exec.C53_short_circuit",
    "Asteria.Exec.C53_result",
    "Asteria.Exec.C53_assign"
   ],
   "note": "Including the assigning forms; the operand code is arbitrary (non-empty)."
  },
  {
   "property": "C54",
   "status": "partial",
   "theorems": [
    "Asteria.Gc.C54_exact",
    "Asteria.Gc.C54_partial",
    "Asteria.Gc.C54_false",
    "Asteria.Gc.C54_false_call",
    "Asteria.Gc.C54_false_foreign",
    "Asteria.Gc.C54_assertion_fails"
   ],
   "note": "Exact characterisation of what a collection wipes (C54_exact), for every hash order and heap. C54 itself is false of the code: variables used by a function object that is shared with an older variable or a call in progress are wiped (C54_false, C54_false_call); also through foreign variables (C54_false_foreign). C54_partial proves it when no function/container block is shared that way and every variable is held once. C54_assertion_fails: an assertion can fail after std.gc.collect(0)."
  },
  {
   "property": "C55",
   "status": "proved",
   "theorems": [
    "Asteria.Gc.C55_reclaims",
    "Asteria.Gc.C55_no_garbage",
    "Asteria.Gc.C55_survivors",
    "Asteria.Gc.C55_held",
    "Asteria.Gc.C55_terminates"
   ],
   "note": "every variable of the generation that is not reachable from outside is wiped and pooled; survivors are promoted; each variable stays held once; the loops end"
  },
  {
   "property": "C56",
   "status": "proved",
   "theorems": [
    "Asteria.Json.C56_text",
    "Asteria.Json.C56_round_trip",
    "Asteria.Json.C56_round_trip_spaces",
    "Asteria.Json.C56_reparse"
   ],
   "note": "Round trip for every value with UTF-8 text, distinct keys and at most 32 levels, any blank indentation; the text is the one the grammar Writes assigns. Numbers are abstract: the hypothesis Survives says that the text of a number is a JSON number and that it is read back."
  },
  {
   "property": "C57",
   "status": "partial",
   "theorems": [
    "Asteria.Json.C57_false",
    "Asteria.Json.C57_false_string",
    "Asteria.Json.C57_partial"
   ],
   "note": "False of the code: a lead byte from 0xFC on makes do_load_next copy five or more bytes to a buffer of four (witness). Proved for all inputs without such bytes."
  },
  {
   "property": "C58",
   "status": "partial",
   "theorems": [
    "Asteria.Csv.C58_partial",
    "Asteria.Csv.C58_image",
    "Asteria.Csv.C58_row_partial",
    "Asteria.Csv.C58_second_row",
    "Asteria.Csv.C58_false",
    "Asteria.Csv.C58_false_backslash",
    "Asteria.Csv.C58_false_break",
    "Asteria.Csv.C58_false_break2",
    "Asteria.Csv.C58_false_cr"
   ],
   "note": "Round trip false; C58_partial/C58_image say what is read back from tables without the failing patterns."
  },
  {
   "property": "C59",
   "status": "partial",
   "theorems": [
    "Asteria.Ini.C59_partial",
    "Asteria.Ini.C59_accept",
    "Asteria.Ini.C59_false",
    "Asteria.Ini.C59_false_bom"
   ],
   "note": "False for line breaks and a leading byte order mark; otherwise proved for every accepted object."
  },
  {
   "property": "C60",
   "status": "proved",
   "theorems": [
    "Asteria.Json.C60_stack",
    "Asteria.Json.C60_height",
    "Asteria.Json.C60_throws"
   ],
   "note": "At most 33 open containers in any reachable state; result nested at most 32 deep; 34 open brackets throw whatever follows."
  },
  {
   "property": "C61",
   "status": "proved",
   "theorems": [
    "Asteria.Lexer.C61_longest",
    "Asteria.Lexer.C61_none",
    "Asteria.Lexer.C61_distinct",
    "Asteria.Lexer.C61_lex"
   ],
   "note": "longest punctuator, iff; step of the line loop"
  },
  {
   "property": "C62",
   "status": "partial",
   "theorems": [
    "Asteria.Lexer.C62_false",
    "Asteria.Lexer.C62_skip_partial",
    "Asteria.Lexer.C62_lines_partial"
   ],
   "note": "false as stated: only the first asterisk of the rest of a line is examined (C62_false); proved for comments without other asterisks, on one line and over several"
  },
  {
   "property": "C63",
   "status": "proved",
   "theorems": [
    "Asteria.Lexer.C63_quote",
    "Asteria.Lexer.C63_printable",
    "Asteria.Lexer.C63_reload"
   ],
   "note": ""
  },
  {
   "property": "C64",
   "status": "proved",
   "theorems": [
    "Asteria.Parser.C64_sound",
    "Asteria.Parser.C64_complete",
    "Asteria.Parser.C64_parser",
    "Asteria.Parser.C64_unambiguous",
    "Asteria.Parser.C64_left",
    "Asteria.Parser.C64_tighter",
    "Asteria.Parser.C64_right"
   ],
   "note": "Parser accepts exactly the documented grammar with its units; prefix, postfix, call, subscript, member, ternary, assignment included. Closures, array/object literals, __vcall and import are opaque tokens; the native-stack recursion sentry is a bound."
  },
  {
   "property": "C65",
   "status": "proved",
   "theorems": [
    "Asteria.Checksum.C65_history",
    "Asteria.Checksum.C65_openssl",
    "Asteria.Checksum.C65_file",
    "Asteria.Checksum.C65_fnv",
    "Asteria.Checksum.C65_hex"
   ],
   "note": "CRC-32 and Adler-32 of zlib are modelled byte by byte; for OpenSSL the chunking law is a hypothesis."
  },
  {
   "property": "C66",
   "status": "partial",
   "theorems": [
    "Asteria.Chrono.C66",
    "Asteria.Chrono.C66_text",
    "Asteria.Chrono.C66_calendar",
    "Asteria.Chrono.C66_range",
    "Asteria.Chrono.C66_local_partial",
    "Asteria.Chrono.C66_local_false"
   ],
   "note": "Proved for every given offset; for local time only if the offset is a whole number of minutes, otherwise false."
  },
  {
   "property": "C67",
   "status": "partial",
   "theorems": [
    "Asteria.Modules.C67_partial",
    "Asteria.Modules.C67_all_partial",
    "Asteria.Modules.C67_key",
    "Asteria.Modules.C67_false",
    "Asteria.Modules.C67_false_denied"
   ],
   "note": "Module trees: imports refine a stack-scoped specification and leave the set of locked files unchanged, as long as flock does not fail. False when flock fails: the file stays marked (C67_false)."
  },
  {
   "property": "C68",
   "status": "proved",
   "theorems": [
    "Asteria.Format.C68_format",
    "Asteria.Format.C68_error",
    "Asteria.Format.C68_plain",
    "Asteria.Format.C68_doubled"
   ],
   "note": "Exact: a template is formatted iff it is a sequence of pieces, with the output of each piece as specified; any other template throws. Numbers up to 655349; at most 2^32-2 arguments."
  },
  {
   "property": "C69",
   "status": "partial",
   "theorems": [
    "Asteria.Compound.C69_partial",
    "Asteria.Compound.C69_false_ub",
    "Asteria.Compound.C69_false_value"
   ],
   "note": "True for targets that exist; false for targets that make the array grow: use after free or wrong operand"
  },
  {
   "property": "C70",
   "status": "partial",
   "theorems": [
    "Asteria.Subscript.C70_partial",
    "Asteria.Subscript.C70_false",
    "Asteria.Subscript.C70_false_null",
    "Asteria.Subscript.C70_immutable"
   ],
   "note": "False in general; true when the first subscript fails on a non-null value, and for constants and temporaries"
  },
  {
   "property": "C71",
   "status": "proved",
   "theorems": [
    "Asteria.C71_safe_double_to_int64",
    "Asteria.C71_otherwise"
   ],
   "note": "llrint with FE_INVALID and FE_INEXACT checks."
  },
  {
   "property": "C72",
   "status": "partial",
   "theorems": [
    "Asteria.Exec.C72_false",
    "Asteria.Exec.C72_partial",
    "Asteria.Exec.C72_rod_partial"
   ],
   "note": "False: the initialiser and step parts of a for statement are not visited (C72_false); proved for all code without for statements and for all code outside them."
  },
  {
   "property": "C73",
   "status": "partial",
   "theorems": [
    "Asteria.ArrayLib.C73_counterexample",
    "Asteria.ArrayLib.C73_ignore_unordered_partial"
   ],
   "note": "false of the code: C73_counterexample"
  },
  {
   "property": "C74",
   "status": "partial",
   "theorems": [
    "Asteria.ArrayLib.C74_is_sorted",
    "Asteria.ArrayLib.C74_counterexample"
   ],
   "note": "decision of order proved; the documented result for unordered elements is false of the code"
  },
  {
   "property": "C75",
   "status": "partial",
   "theorems": [
    "Asteria.ArrayLib.C75_counterexample",
    "Asteria.ArrayLib.C75_first_partial"
   ],
   "note": "false of the code: C75_counterexample"
  },
  {
   "property": "C76",
   "status": "partial",
   "theorems": [
    "Asteria.Random.C76_partial",
    "Asteria.Random.C76_default",
    "Asteria.Random.C76_throw",
    "Asteria.Random.C76_false",
    "Asteria.Random.C76_subnormal"
   ],
   "note": "False of subnormal limits (C76_false, C76_subnormal). Assumes only that a product is rounded to a nearest double; exists_rounding shows that such a rounding exists."
  },
  {
   "property": "C77",
   "status": "partial",
   "theorems": [
    "Asteria.HashMap.C77_partial",
    "Asteria.HashMap.C77_false",
    "Asteria.HashMap.C77_erase_empty"
   ],
   "note": "false of the code beyond 17 elements for single-pass iterators (C77_false), and for erase on a map without storage; proved for up to 17 elements; forward iterators are covered by C38"
  },
  {
   "property": "C78",
   "status": "partial",
   "theorems": [
    "Asteria.Exec.C78_false",
    "Asteria.Exec.C78_partial"
   ],
   "note": "False for chains of two or more tail calls (C78_false); proved if the target does not itself end with a tail call."
  },
  {
   "property": "C79",
   "status": "partial",
   "theorems": [
    "Asteria.Exec.C79_operands",
    "Asteria.Exec.C79_false",
    "Asteria.Exec.C79_partial"
   ],
   "note": "The operands are always kept on the current stack (C79_operands), but if the operand throws while call arguments are being evaluated on the alternative stack the stacks stay swapped and a later return is lost (C79_false); otherwise C79_partial."
  },
  {
   "property": "C80",
   "status": "proved",
   "theorems": [
    "Asteria.Codec.C80_hex",
    "Asteria.Codec.C80_base32",
    "Asteria.Codec.C80_base64",
    "Asteria.Codec.C80_url",
    "Asteria.Codec.C80_url_query"
   ],
   "note": "exact text of all five encoders"
  },
  {
   "property": "C81",
   "status": "proved",
   "theorems": [
    "Asteria.Lexer.C81_word"
   ],
   "note": ""
  },
  {
   "property": "C82",
   "status": "partial",
   "theorems": [
    "Asteria.Lexer.C82_false",
    "Asteria.Lexer.C82_operator_partial"
   ],
   "note": "false after [?] (C82_false); proved after every other token"
  },
  {
   "property": "C83",
   "status": "partial",
   "theorems": [
    "Asteria.Lexer.C83_false",
    "Asteria.Lexer.C83_no_ub_partial"
   ],
   "note": "false for text with incomplete UTF-8 sequences that utf8_decode accepts (C83_false); proved for well-formed UTF-8"
  },
  {
   "property": "C84",
   "status": "proved",
   "theorems": [
    "Asteria.Lexer.C84_integer"
   ],
   "note": ""
  },
  {
   "property": "C85",
   "status": "proved",
   "theorems": [
    "Asteria.Lexer.C85_reload",
    "Asteria.Lexer.C85_line",
    "Asteria.Lexer.C85_unambiguous",
    "Asteria.Lexer.C85_bom",
    "Asteria.Lexer.C85_shebang"
   ],
   "note": "real literals and integers with exponents are outside the grammar of the theorem"
  },
  {
   "property": "C86",
   "status": "proved",
   "theorems": [
    "Asteria.Lexer.C86_quoted",
    "Asteria.Lexer.C86_raw"
   ],
   "note": ""
  },
  {
   "property": "C87",
   "status": "proved",
   "theorems": [
    "Asteria.Json.C87_good",
    "Asteria.Json.C87_norm"
   ],
   "note": "Invariant over the states of the parser."
  },
  {
   "property": "C88",
   "status": "partial",
   "theorems": [
    "Asteria.NumText.C88_partial",
    "Asteria.NumText.C88_false",
    "Asteria.NumText.C88_false_neg"
   ],
   "note": "false as stated: the exponent may wrap and then overflow signed subtraction (C88_false); holds for exponents below 10^18 and for integers without a fraction"
  },
  {
   "property": "C89",
   "status": "proved",
   "theorems": [
    "Asteria.RealText.C89"
   ],
   "note": "The three layouts of put_DD are proved to match RFC 8259 for every finite bit pattern."
  },
  {
   "property": "C90",
   "status": "proved",
   "theorems": [
    "Asteria.Csv.C90_csv"
   ],
   "note": ""
  },
  {
   "property": "C91",
   "status": "partial",
   "theorems": [
    "Asteria.Ini.C91_partial",
    "Asteria.Ini.C91_false"
   ],
   "note": "False when a section has the name of an earlier property."
  },
  {
   "property": "C92",
   "status": "partial",
   "theorems": [
    "Asteria.Chrono.C92_partial",
    "Asteria.Chrono.C92_false"
   ],
   "note": "False for strings that are cut short."
  },
  {
   "property": "C93",
   "status": "proved",
   "theorems": [
    "Asteria.Operators.C93_generate"
   ],
   "note": "Assumes that the parser never marks comparisons and ~ as assigning (NotAssigned)."
  },
  {
   "property": "C94",
   "status": "partial",
   "theorems": [
    "Asteria.RealText.C94_partial",
    "Asteria.RealText.C94_zero",
    "Asteria.RealText.C94_digits",
    "Asteria.RealText.C94_false",
    "Asteria.RealText.C94_false_odd"
   ],
   "note": "The claim is false: C94_false (a power of two) and C94_false_odd (an odd mantissa). Proved instead for every finite nonzero pattern: the number read is the number printed or one of its two neighbours, and is exactly the number printed when the mantissa is even and nonzero, or the number is an even subnormal or the least normal number; zeroes of both signs are exact; and what is printed is within half a unit in the last place."
  },
  {
   "property": "C95",
   "status": "proved",
   "theorems": [
    "Asteria.ArgReader.C95",
    "Asteria.ArgReader.C95_unique"
   ],
   "note": "refinement of the reader to a specification without states or counters; the specification is shown to determine the outcome"
  },
  {
   "property": "C96",
   "status": "proved",
   "theorems": [
    "Asteria.ArgReader.C96"
   ],
   "note": "from C95"
  },
  {
   "property": "C97",
   "status": "proved",
   "theorems": [
    "Asteria.Exec.C97_locals_found",
    "Asteria.Exec.C97_locals_found_ptc"
   ],
   "note": "for the modelled constructs: every statement and expression unit except __this, __func, __varg, __backtrace, variadic and import calls"
  },
  {
   "property": "C98",
   "status": "partial",
   "theorems": [
    "Asteria.Exec.C98_partial",
    "Asteria.Exec.EachDemo.C98_false"
   ],
   "note": "false if the key and the mapped element have the same name (C98_false); proved otherwise (C98_partial)"
  },
  {
   "property": "C99",
   "status": "partial",
   "theorems": [
    "Asteria.Exec.C99_no_assertion_fails_partial",
    "Asteria.Exec.C99_calls_balanced_partial",
    "Asteria.Exec.C99_enter_no_assertion_fails_partial",
    "Asteria.Exec.C99_undefined_is_a_reference_partial"
   ],
   "note": "excluded: catch expressions with calls in optimized code (false there, C79); undefined reads and writes through references (C41); variadic and import calls"
  },
  {
   "property": "C100",
   "status": "partial",
   "theorems": [
    "Asteria.Syntax.C100_script_well_formed",
    "Asteria.Syntax.C100_expression_well_formed",
    "Asteria.Syntax.C100_one_result",
    "Asteria.Exec.C100_scripts_run_partial"
   ],
   "note": "Well-formedness is proved for all scripts; the end-to-end statement lacks what C99 lacks: catch operands with calls in optimized code (false there, C79), variadic and import calls."
  },
  {
   "property": "C101",
   "status": "proved",
   "theorems": [
    "Asteria.Syntax.C101_jumps_have_targets",
    "Asteria.Syntax.C101_expression_jumps_have_targets"
   ],
   "note": ""
  },
  {
   "property": "C102",
   "status": "proved",
   "theorems": [
    "Asteria.Syntax.C102_parser_ends",
    "Asteria.Syntax.C102_bound_irrelevant"
   ],
   "note": ""
  },
  {
   "property": "C103",
   "status": "proved",
   "theorems": [
    "Asteria.Exec.C103_no_stray_jumps",
    "Asteria.Exec.C103_no_stray_jumps_ptc",
    "Asteria.Exec.C103_scripts"
   ],
   "note": ""
  },
  {
   "property": "C104",
   "status": "proved",
   "theorems": [
    "Asteria.Script.C104_sound",
    "Asteria.Script.C104_scripts",
    "Asteria.Script.C104_expressions",
    "Asteria.Script.C104_unambiguous",
    "Asteria.Script.C104_rejects"
   ],
   "note": "Grammar in Verif/Spec/Script.lean, independent of the parser. Soundness for every bound; completeness for bounds that suffice (C102). __vcall and import calls are outside the model and excluded by hypothesis in C104_rejects."
  },
  {
   "property": "C105",
   "status": "proved",
   "theorems": [
    "Asteria.Ini.C105_lines",
    "Asteria.Ini.C105_unambiguous",
    "Asteria.Ini.C105_determined",
    "Asteria.Ini.C105_reads",
    "Asteria.Ini.C105_throws",
    "Asteria.Ini.C105_asserts",
    "Asteria.Ini.C105_mark"
   ],
   "note": "parse_file is not modelled; failures of ASTERIA_ASSERT are Res.ub. The order of elements is not stated: objects are hash maps."
  },
  {
   "property": "C106",
   "status": "partial",
   "theorems": [
    "Asteria.MemPool.C106_safe_partial",
    "Asteria.MemPool.C106_partition",
    "Asteria.MemPool.C106_size",
    "Asteria.MemPool.C106_alloc",
    "Asteria.MemPool.C106_same_pool",
    "Asteria.MemPool.C106_clean",
    "Asteria.MemPool.C106_false"
   ],
   "note": "Proved for all interleavings, for requests of at most 2^63 bytes or whose size overflows; C106_false shows that sizes in between reach the pool past the last one. Atomic operations are taken to be sequentially consistent."
  },
  {
   "property": "C107",
   "status": "proved",
   "theorems": [
    "Asteria.Avm.C107_lists",
    "Asteria.Avm.C107_no_leak",
    "Asteria.Avm.C107_throws"
   ],
   "note": "Executors, constructors, destructors and collectors are parameters and do not call the rod they are in."
  },
  {
   "property": "C108",
   "status": "proved",
   "theorems": [
    "Asteria.Avm.C108_safe",
    "Asteria.Avm.C108_contents",
    "Asteria.Avm.C108_throws"
   ],
   "note": "sizeof(Reference) is a parameter, at least 2."
  },
  {
   "property": "C109",
   "status": "proved",
   "theorems": [
    "Asteria.Lexer.C109_source",
    "Asteria.Lexer.C109_rejects",
    "Asteria.Lexer.C109_unambiguous",
    "Asteria.Lexer.C109_token",
    "Asteria.Lexer.C109_conversion",
    "Asteria.Lexer.C109_underscore",
    "Asteria.Lexer.C109_separator",
    "Asteria.Lexer.C109_inexact"
   ],
   "note": "Hypotheses: the text is well-formed UTF-8 (C83 has witnesses otherwise) and not longer than 2^57 bytes."
  },
  {
   "property": "C110",
   "status": "proved",
   "theorems": [
    "Asteria.Source.C110_scripts",
    "Asteria.Source.C110_expressions",
    "Asteria.Source.C110_rejects",
    "Asteria.Source.C110_well_formed"
   ],
   "note": "The code generator that follows is C97-C103."
  },
  {
   "property": "C111",
   "status": "proved",
   "theorems": [
    "Asteria.Lexer.C111",
    "Asteria.Lexer.C111_range",
    "Asteria.Lexer.C111_exact",
    "Asteria.Lexer.C111_no_ub"
   ],
   "note": "For every numeral; the exact rational number is defined in Spec/RealLiteral.lean apart from the code. With C109 the tokens are those of the lexer."
  },
  {
   "property": "C112",
   "status": "partial",
   "theorems": [
    "Asteria.Lexer.C111_nearest",
    "Asteria.Lexer.C111_decimal_false",
    "Asteria.Lexer.C111_underflow_false"
   ],
   "note": "Proved for hexadecimal and binary literals that are accepted (C111_nearest). False for decimal literals (C111_decimal_false, within 0.51 units by C111) and for the rejection of one kind of hexadecimal literal (C111_underflow_false)."
  },
  {
   "property": "C113",
   "status": "proved",
   "theorems": [
    "Asteria.Json.C113_exact",
    "Asteria.Json.C113_rejects",
    "Asteria.Json.C113_unambiguous",
    "Asteria.Json.C113_value",
    "Asteria.Json.C113_range"
   ],
   "note": "both directions for every byte sequence; the conversion of numbers is that of C111"
  },
  {
   "property": "C114",
   "status": "partial",
   "theorems": [
    "Asteria.Json.C114_partial",
    "Asteria.Json.C114_false",
    "Asteria.Json.C114_number_false"
   ],
   "note": "false because of U+007F in strings; proved for all other texts; C114_number_false: numbers are accepted that RFC 8259 does not have"
  },
  {
   "property": "C115",
   "status": "partial",
   "theorems": [
    "Asteria.CowString.C115_step_partial",
    "Asteria.CowString.C115_text",
    "Asteria.CowString.C115_no_leak",
    "Asteria.CowString.C115_history_partial",
    "Asteria.CowString.C115_false",
    "Asteria.CowString.C115_shallow_false"
   ],
   "note": "False in general, with witnesses: a proper end taken with substr, or a reference to a literal, loses its text on append/pop_back/resize. Proved for every operation in every consistent state where the text is at the beginning of its block when the code relies on it, and for all programs without these two operations."
  },
  {
   "property": "C116",
   "status": "partial",
   "theorems": [
    "Asteria.StrFind.C116_find_partial",
    "Asteria.StrFind.C116_find_zero",
    "Asteria.StrFind.C116_false",
    "Asteria.StrFind.C116_rfind",
    "Asteria.StrFind.C116_find_of",
    "Asteria.StrFind.C116_find_not_of",
    "Asteria.StrFind.C116_rfind_of",
    "Asteria.StrFind.C116_rfind_not_of",
    "Asteria.StrFind.C116_char"
   ],
   "note": "find with a pattern and a start above zero returns a relative position (C116_false); C116_find_partial states what it returns; everything else is proved in full."
  },
  {
   "property": "C117",
   "status": "proved",
   "theorems": [
    "Asteria.StrMap.C117_to_upper",
    "Asteria.StrMap.C117_to_lower",
    "Asteria.StrMap.C117_translate"
   ],
   "note": "Over the strings of C115, in every consistent state."
  },
  {
   "property": "C118",
   "status": "partial",
   "theorems": [
    "Asteria.Conf.C118_false",
    "Asteria.Conf.C118_false_sample",
    "Asteria.Conf.C118_false_escape",
    "Asteria.Conf.C118_partial",
    "Asteria.Conf.C118_exact_partial",
    "Asteria.Conf.C118_unambiguous"
   ],
   "note": "C118_false, C118_false_sample and C118_false_escape disprove the full claim. C118_partial and C118_exact_partial hold of all files without the constructs the code gets wrong."
  },
  {
   "property": "C119",
   "status": "partial",
   "theorems": [
    "Asteria.Conf.C119_false",
    "Asteria.Conf.C119_false_truncated",
    "Asteria.Conf.C119_false_delimited",
    "Asteria.Conf.C119_partial"
   ],
   "note": "C119_false* disprove the full claim. C119_partial: everything accepted is derivable in the grammar with the stated changes."
  },
  {
   "property": "C120",
   "status": "partial",
   "theorems": [
    "Asteria.Conf.C120_false",
    "Asteria.Conf.C120_false_wide",
    "Asteria.Conf.C120_false_prefix",
    "Asteria.Conf.C120_false_utf8",
    "Asteria.Conf.C120_partial",
    "Asteria.Conf.C120_invalid_partial"
   ],
   "note": "C120_false* disprove the full claim. C120_partial and C120_invalid_partial: no other file is undefined."
  },
  {
   "property": "C121",
   "status": "proved",
   "theorems": [
    "Asteria.Files.C121_read"
   ],
   "note": ""
  },
  {
   "property": "C122",
   "status": "proved",
   "theorems": [
    "Asteria.Files.C122_stream"
   ],
   "note": ""
  },
  {
   "property": "C123",
   "status": "proved",
   "theorems": [
    "Asteria.Files.C123_write",
    "Asteria.Files.C123_append"
   ],
   "note": ""
  },
  {
   "property": "C124",
   "status": "partial",
   "theorems": [
    "Asteria.Files.C124_false",
    "Asteria.Files.C124_false_self",
    "Asteria.Files.C124_partial"
   ],
   "note": "C124_false and C124_false_self disprove the full claim. C124_partial: paths that lead to different files."
  },
  {
   "property": "C125",
   "status": "partial",
   "theorems": [
    "Asteria.Remove.C125_false",
    "Asteria.Remove.C125_partial",
    "Asteria.Remove.C125_direct_partial",
    "Asteria.Remove.C125_absent"
   ],
   "note": "C125_false disproves the full claim. C125_partial: paths that keep leading to the directory; C125_direct_partial: paths without links; C125_absent: nothing there."
  },
  {
   "property": "C126",
   "status": "partial",
   "theorems": [
    "Asteria.Remove.C126_false",
    "Asteria.Remove.C126_partial"
   ],
   "note": "C126_false disproves the full claim. C126_partial: without changes by other processes."
  },
  {
   "property": "C127",
   "status": "partial",
   "theorems": [
    "Asteria.Io.C127_false",
    "Asteria.Io.C127_partial",
    "Asteria.Io.C127_stuck"
   ],
   "note": "C127_false disproves the full claim. C127_partial: exactly when the lock is left as it was; C127_stuck: what happens after an error."
  },
  {
   "property": "C128",
   "status": "partial",
   "theorems": [
    "Asteria.Io.C128_false",
    "Asteria.Io.C128_false_regular",
    "Asteria.Io.C128_getc_partial",
    "Asteria.Io.C128_getln_partial",
    "Asteria.Io.C128_lines_partial",
    "Asteria.Io.C128_read_partial"
   ],
   "note": "C128_false and C128_false_regular disprove the full claim. The others: calls of one kind, no failures."
  },
  {
   "property": "C129",
   "status": "partial",
   "theorems": [
    "Asteria.Io.C129_false",
    "Asteria.Io.C129_false_mixed",
    "Asteria.Io.C129_puts_partial",
    "Asteria.Io.C129_putln_partial",
    "Asteria.Io.C129_putc",
    "Asteria.Io.C129_write_partial",
    "Asteria.Io.C129_round_trip_partial"
   ],
   "note": "C129_false and C129_false_mixed disprove the full claim. The others: strings in which lead bytes are followed by continuation bytes, calls of one kind."
  },
  {
   "property": "C130",
   "status": "partial",
   "theorems": [
    "Asteria.Pipe.C130_false",
    "Asteria.Pipe.C130_deadlock",
    "Asteria.Pipe.C130_partial",
    "Asteria.Pipe.C130_short_partial",
    "Asteria.Pipe.C130_steps"
   ],
   "note": "C130_deadlock and C130_false disprove the full claim. C130_partial: the only way to hang; C130_short_partial: inputs that fit into a pipe; C130_steps: bounded number of steps."
  },
  {
   "property": "C131",
   "status": "partial",
   "theorems": [
    "Asteria.Pipe.C131_false",
    "Asteria.Pipe.C131_false_ignored",
    "Asteria.Pipe.C131_partial"
   ],
   "note": "C131_false and C131_false_ignored disprove the full claim. C131_partial: whenever it returns, and when it does not."
  },
  {
   "property": "C132",
   "status": "proved",
   "theorems": [
    "Asteria.Uuid.C132_form",
    "Asteria.Uuid.C132_uniform"
   ],
   "note": "for all values that RAND_bytes may give; that it may fail, which the code does not check, is not modelled"
  },
  {
   "property": "C133",
   "status": "partial",
   "theorems": [
    "Asteria.Exec.C133_optimization_is_transparent_partial",
    "Asteria.Exec.C133_same_sources_compile",
    "Asteria.Exec.OptExample.C133_false"
   ],
   "note": "false as stated (C133_false); holds without calls in operands of catch; operators are parameters of which FoldSem is assumed (C48, C93 are about them); level 2 and variadic and import calls are not covered"
  },
  {
   "property": "C134",
   "status": "proved",
   "theorems": [
    "Asteria.Zlib.C134_compressed",
    "Asteria.Zlib.C134_decompressed",
    "Asteria.Zlib.C134_round_trip",
    "Asteria.Zlib.C134_needs_prompt"
   ],
   "note": "zlib is a parameter of which zlib.h's promises (Deflates, Inflates) and Prompt are assumed; C134_needs_prompt shows that the latter is needed"
  },
  {
   "property": "C135",
   "status": "proved",
   "theorems": [
    "Asteria.Zlib.C135_flushed"
   ],
   "note": "zlib is a parameter of which zlib.h's promises are assumed"
  },
  {
   "property": "C136",
   "status": "partial",
   "theorems": [
    "Asteria.Zlib.C136_clear_partial",
    "Asteria.Zlib.C136_kept",
    "Asteria.Zlib.C136_finished",
    "Asteria.Zlib.C136_false"
   ],
   "note": "false as stated (C136_false): clear keeps output"
  },
  {
   "property": "C137",
   "status": "partial",
   "theorems": [
    "Asteria.Zlib.C137_arguments_partial",
    "Asteria.Zlib.C137_false"
   ],
   "note": "false as stated (C137_false): levels above 9 are accepted"
  },
  {
   "property": "C138",
   "status": "partial",
   "theorems": [
    "Asteria.Zlib.C138_decompressed_partial",
    "Asteria.Zlib.C138_exactly",
    "Asteria.Zlib.C138_false"
   ],
   "note": "false as stated (C138_false): bytes after the stream are ignored"
  },
  {
   "property": "C139",
   "status": "proved",
   "theorems": [
    "Asteria.Gc.C139_generations",
    "Asteria.Gc.C139_thresholds",
    "Asteria.Gc.C139_collected",
    "Asteria.Gc.C139_finalize"
   ],
   "note": "that the collector holds each variable that is referred to once is assumed of memory for the count"
  },
  {
   "property": "C140",
   "status": "proved",
   "theorems": [
    "Asteria.Gc.C140_bounded",
    "Asteria.Gc.C140_not_before"
   ],
   "note": "over all states that a collector gets into (Reached)"
  },
  {
   "property": "C141",
   "status": "proved",
   "theorems": [
    "Asteria.Gc.C141_zero",
    "Asteria.Gc.C141_collect",
    "Asteria.Gc.C141_one_is_not_enough"
   ],
   "note": "C141_one_is_not_enough shows that one threshold of zero, as in the manual, is not enough"
  },
  {
   "property": "C142",
   "status": "partial",
   "theorems": [
    "Asteria.Gc.C142_new_partial",
    "Asteria.Gc.C142_declared",
    "Asteria.Gc.C142_false"
   ],
   "note": "false as stated (C142_false): the const flag of a recycled variable is not reset"
  },
  {
   "property": "C143",
   "status": "partial",
   "theorems": [
    "Asteria.Gc.C143_unused_partial",
    "Asteria.Gc.C143_false"
   ],
   "note": "false as stated (C143_false), as C54 is"
  },
  {
   "property": "C144",
   "status": "partial",
   "theorems": [
    "Asteria.Env.C144_agree_partial",
    "Asteria.Env.C144_first_and_last",
    "Asteria.Env.C144_names",
    "Asteria.Env.C144_false"
   ],
   "note": "false as stated (C144_false); getenv of the C library is modelled as its manual says"
  },
  {
   "property": "C145",
   "status": "proved",
   "theorems": [
    "Asteria.Env.C145_launched",
    "Asteria.Env.C145_status",
    "Asteria.Env.C145_failures"
   ],
   "note": "posix_spawnp and waitpid are parameters"
  },
  {
   "property": "C146",
   "status": "partial",
   "theorems": [
    "Asteria.Stream.C146_partial",
    "Asteria.Stream.C146_step_partial",
    "Asteria.Stream.C146_write",
    "Asteria.Stream.C146_truncates",
    "Asteria.Stream.C146_defined",
    "Asteria.Stream.C146_moved",
    "Asteria.Stream.C146_false"
   ],
   "note": "false as stated (C146_false); max_size is a parameter below 2^63"
  },
  {
   "property": "C147",
   "status": "proved",
   "theorems": [
    "Asteria.Stream.C147_string"
   ],
   "note": ""
  },
  {
   "property": "C148",
   "status": "proved",
   "theorems": [
    "Asteria.Stream.C148_queue",
    "Asteria.Stream.C148_latin1"
   ],
   "note": ""
  },
  {
   "property": "C149",
   "status": "proved",
   "theorems": [
    "Asteria.Stream.C149_open",
    "Asteria.Stream.C149_exclusive"
   ],
   "note": "POSIX's fdopen is specified by Permits"
  },
  {
   "property": "C150",
   "status": "proved",
   "theorems": [
    "Asteria.Refcnt.C150_defined",
    "Asteria.Refcnt.C150_effect",
    "Asteria.Refcnt.C150_alive",
    "Asteria.Refcnt.C150_once",
    "Asteria.Refcnt.C150_exact",
    "Asteria.Refcnt.C150_count",
    "Asteria.Refcnt.C150_members",
    "Asteria.Refcnt.C150_no_leak",
    "Asteria.Refcnt.C150_ends",
    "Asteria.Refcnt.C150_circle"
   ],
   "note": "sequentially consistent steps; the counter does not overflow"
  },
  {
   "property": "C151",
   "status": "partial",
   "theorems": [
    "Asteria.Order.C151_partial",
    "Asteria.Order.C151_last",
    "Asteria.Order.C151_unique",
    "Asteria.Order.C151_mutate_partial",
    "Asteria.Order.C151_acquire",
    "Asteria.Order.C151_alone",
    "Asteria.Order.C151_false"
   ],
   "note": "false of mutation (C151_false); happens-before by vector clocks"
  },
  {
   "property": "C152",
   "status": "proved",
   "theorems": [
    "Asteria.Teardown.C152_no_recursion",
    "Asteria.Teardown.C152_others",
    "Asteria.Teardown.C152_exact",
    "Asteria.Teardown.C152_once",
    "Asteria.Teardown.C152_leaks"
   ],
   "note": "one thread; C152_leaks is the witness that memory shortage leaks"
  },
  {
   "property": "C153",
   "status": "partial",
   "theorems": [
    "Asteria.Variant.C153_partial",
    "Asteria.Variant.C153_good",
    "Asteria.Variant.C153_strong",
    "Asteria.Variant.C153_get",
    "Asteria.Variant.C153_false",
    "Asteria.Variant.C153_witness_false"
   ],
   "note": "false for arguments that the present alternative owns (C153_false, C153_witness_false); all the rest is proved"
  },
  {
   "property": "C154",
   "status": "partial",
   "theorems": [
    "Asteria.StaticVector.C154_step_partial",
    "Asteria.StaticVector.C154_run_partial",
    "Asteria.StaticVector.C154_new",
    "Asteria.StaticVector.C154_read",
    "Asteria.StaticVector.C154_take",
    "Asteria.StaticVector.C154_swap",
    "Asteria.StaticVector.C154_destroy",
    "Asteria.StaticVector.C154_pop",
    "Asteria.StaticVector.C154_false",
    "Asteria.StaticVector.C154_input_false"
   ],
   "note": "false for full vectors of 256, 65536 or 2^32 elements and for overlong ranges of input iterators; all the rest is proved"
  },
  {
   "property": "C155",
   "status": "partial",
   "theorems": [
    "Asteria.Optional.C155_construct_partial",
    "Asteria.Optional.C155_assign",
    "Asteria.Optional.C155_observe",
    "Asteria.Optional.C155_compare",
    "Asteria.Optional.C155_false"
   ],
   "note": "false for construction from an lvalue of another optional type (C155_false); all the rest is proved"
  },
  {
   "property": "C156",
   "status": "partial",
   "theorems": [
    "Asteria.Uchar.C156_read32",
    "Asteria.Uchar.C156_read16_partial",
    "Asteria.Uchar.C156_read16_single",
    "Asteria.Uchar.C156_read16_false",
    "Asteria.Uchar.C156_eof_false",
    "Asteria.Uchar.C156_bytes",
    "Asteria.Uchar.C156_write16",
    "Asteria.Uchar.C156_write32",
    "Asteria.Uchar.C156_round",
    "Asteria.Uchar.C156_putmb32",
    "Asteria.Uchar.C156_putmb16_partial",
    "Asteria.Uchar.C156_putmb16_false",
    "Asteria.Uchar.C156_putmb_short"
   ],
   "note": "false for xfgetn and putmbn with char16_t and characters outside of the basic plane, and after the end of a truncated file; all the rest is proved"
  },
  {
   "property": "C157",
   "status": "proved",
   "theorems": [
    "Asteria.Backtrace.C157_throw",
    "Asteria.Backtrace.C157_assert",
    "Asteria.Backtrace.C157_native",
    "Asteria.Backtrace.C157_order",
    "Asteria.Backtrace.C157_kept",
    "Asteria.Backtrace.C157_replaced",
    "Asteria.Backtrace.C157_backtrace"
   ],
   "note": "values print as less than 2^64 bytes"
  },
  {
   "property": "C158",
   "status": "proved",
   "theorems": [
    "Asteria.Print.C158_print",
    "Asteria.Print.C158_dump",
    "Asteria.Print.C158_debug",
    "Asteria.Print.C158_printable"
   ],
   "note": "the text of reals, opaque values and functions is a parameter"
  },
  {
   "property": "C159",
   "status": "proved",
   "theorems": [
    "Asteria.Dirs.C159_create",
    "Asteria.Dirs.C159_create_any",
    "Asteria.Dirs.C159_remove",
    "Asteria.Dirs.C159_remove_error",
    "Asteria.Dirs.C159_symlink",
    "Asteria.Dirs.C159_move"
   ],
   "note": "over a tree of files as POSIX has it; hard links and devices are left out"
  },
  {
   "property": "C160",
   "status": "partial",
   "theorems": [
    "Asteria.Dirs.C160_false",
    "Asteria.Dirs.C160_list_partial",
    "Asteria.Dirs.C160_list_absent",
    "Asteria.Dirs.C160_properties_false",
    "Asteria.Dirs.C160_properties_partial"
   ],
   "note": "false: a failure of readdir() is taken for the end of the directory, and times far away overflow; proved without these"
  },
  {
   "property": "C161",
   "status": "partial",
   "theorems": [
    "Asteria.Globals.C161_sentry",
    "Asteria.Globals.C161_recursion",
    "Asteria.Globals.C161_false",
    "Asteria.Globals.C161_partial"
   ],
   "note": "false if a function of the host executes a script with the same context, which moves the base; proved for all other nesting"
  },
  {
   "property": "C162",
   "status": "proved",
   "theorems": [
    "Asteria.Globals.C162_table",
    "Asteria.Globals.C162_library",
    "Asteria.Globals.C162_max"
   ],
   "note": "the contents of modules are left out"
  },
  {
   "property": "C163",
   "status": "proved",
   "theorems": [
    "Asteria.Globals.C163_globals",
    "Asteria.Globals.C163_temporary"
   ],
   "note": "the table of names is a function"
  },
  {
   "property": "C164",
   "status": "proved",
   "theorems": [
    "Asteria.Log.C164_safe",
    "Asteria.Log.C164_contents",
    "Asteria.Log.C164_controls"
   ],
   "note": "about the bytes passed to write(), which may write fewer; the clock is an input"
  },
  {
   "property": "C165",
   "status": "partial",
   "theorems": [
    "Asteria.Log.C165_false",
    "Asteria.Log.C165_partial"
   ],
   "note": "false for messages with null bytes, after which the text ends; proved for all others"
  },
  {
   "property": "C166",
   "status": "proved",
   "theorems": [
    "Asteria.Logf.C166_error",
    "Asteria.Logf.C166_contents"
   ],
   "note": "values are printed before the template is read, in the model; the texts of reals, opaque values and functions, the clock and write() are inputs"
  }
 ]
}