{"id": "C01", "title": "hex round trip", "statement": "std.string.hex_decode(std.string.hex_encode(s, delim)) equals s whenever delim is absent or consists only of whitespace characters; in particular hex_decode never throws on the output of hex_encode.", "quantifier": "every byte string s of any length and every whitespace delimiter string", "why_tests_cant": "there are infinitely many strings; tests sample a few literals and never mix arbitrary delimiters with arbitrary bytes", "anchors": ["asteria/src/library/string.cpp:hex_encode", "asteria/src/library/string.cpp:hex_decode"]}
{"id": "C02", "title": "base32 round trip", "statement": "std.string.base32_decode(std.string.base32_encode(s)) equals s, for either letter case, and the encoding always has length 8*ceil(n/5).", "quantifier": "every byte string s", "why_tests_cant": "padding depends on the length modulo 5 and every byte value; infinite input space", "anchors": ["asteria/src/library/string.cpp:base32_encode", "asteria/src/library/string.cpp:base32_decode"]}
{"id": "C03", "title": "base64 round trip", "statement": "std.string.base64_decode(std.string.base64_encode(s)) equals s, and the encoding always has length 4*ceil(n/3).", "quantifier": "every byte string s", "why_tests_cant": "padding depends on length modulo 3 and every byte value; infinite input space", "anchors": ["asteria/src/library/string.cpp:base64_encode", "asteria/src/library/string.cpp:base64_decode"]}
{"id": "C04", "title": "URL component round trip and safety", "statement": "url_decode(url_encode(s)) equals s, and url_encode emits only unreserved characters and well-formed %XX escapes.", "quantifier": "every byte string s", "why_tests_cant": "all 256 byte values at every position and every following context", "anchors": ["asteria/src/library/string.cpp:url_encode", "asteria/src/library/string.cpp:url_decode"]}
{"id": "C05", "title": "URL query round trip", "statement": "url_query_decode(url_query_encode(s)) equals s (blank becomes '+').", "quantifier": "every byte string s", "why_tests_cant": "all byte values in all contexts", "anchors": ["asteria/src/library/string.cpp:url_query_encode", "asteria/src/library/string.cpp:url_query_decode"]}
{"id": "C06", "title": "decoders accept exactly the documented language", "statement": "hex_decode accepts exactly the strings that are sequences of adjacent hex digit pairs (high digit first) with whitespace allowed before/after each pair, and returns the bytes those pairs denote; every other string makes it throw.", "quantifier": "every byte string given to hex_decode", "why_tests_cant": "rejection has to be checked on all strings outside the language", "anchors": ["asteria/src/library/string.cpp:hex_decode"]}
{"id": "C07", "title": "UTF-8 encode/decode round trip", "statement": "utf8_encode fails exactly for surrogates and values above 0x10FFFF; otherwise decoding its output at that offset consumes exactly the bytes written and returns the code point. Whole-string version: std.string.utf8_decode(std.string.utf8_encode(cps)) returns cps.", "quantifier": "every 32-bit code point, every list of valid code points, every surrounding text", "why_tests_cant": "2^32 code points and unbounded lists", "anchors": ["asteria/src/utils.cpp:utf8_encode", "asteria/src/utils.cpp:utf8_decode", "asteria/src/library/string.cpp:utf8_encode", "asteria/src/library/string.cpp:utf8_decode"]}
{"id": "C08", "title": "UTF-8 validation accepts only well-formed text", "statement": "utf8_decode/utf8_validate accept a byte string only if it is well-formed UTF-8 as defined by Unicode table 3-7. (FALSE of the code: trailing bytes are not checked; a witness is proved and the part that holds is kept as a partial theorem.)", "quantifier": "every byte string", "why_tests_cant": "needs all ill-formed sequences", "anchors": ["asteria/src/utils.cpp:utf8_decode", "asteria/src/utils.cpp:utf8_validate"]}
{"id": "C09", "title": "UTF-16 encode/decode round trip and validation", "statement": "utf16_encode fails exactly for surrogates and values above 0x10FFFF; decoding its output returns the code point; utf16_validate accepts exactly the sequences in which surrogates occur as high/low pairs.", "quantifier": "every code point, every sequence of 16-bit units", "why_tests_cant": "unbounded sequences", "anchors": ["asteria/src/utils.cpp:utf16_encode", "asteria/src/utils.cpp:utf16_decode", "asteria/src/utils.cpp:utf16_validate"]}
{"id": "C10", "title": "string slice is interval intersection", "statement": "slice(text, from, length) returns exactly the characters whose index lies in [f, f+length) where f = from, or from+size if from is negative; never out of bounds, for every 64-bit from and length including extremes; absent length means to the end.", "quantifier": "every text, every int64 from, every optional int64 length", "why_tests_cant": "boundary combinations of two 64-bit integers and unbounded sizes, with signed overflow hazards", "anchors": ["asteria/src/library/string.cpp:do_slice", "asteria/src/library/string.cpp:std_string_slice", "asteria/src/library/array.cpp:do_slice"]}
{"id": "C11", "title": "find returns the first match", "statement": "find(text, pattern) within a subrange returns the least index at which pattern occurs, or null if it does not occur; no byte outside the subrange is read. rfind returns the greatest such index.", "quantifier": "every text, every pattern, every subrange", "why_tests_cant": "the Boyer-Moore-Horspool skip tables must never skip a match for any text/pattern pair", "anchors": ["asteria/src/library/string.cpp:BMH_Searcher", "asteria/src/library/string.cpp:do_find_opt", "asteria/src/library/string.cpp:std_string_find", "asteria/src/library/string.cpp:std_string_rfind"]}
{"id": "C12", "title": "replace substitutes leftmost non-overlapping matches", "statement": "replace(text, pattern, replacement) yields the text in which leftmost non-overlapping occurrences of a non-empty pattern are substituted, characters outside matches being unchanged and in order; replacing a pattern by itself is the identity.", "quantifier": "every text, non-empty pattern, replacement", "why_tests_cant": "unbounded text, self-overlapping patterns", "anchors": ["asteria/src/library/string.cpp:std_string_replace"]}
{"id": "C13", "title": "explode/implode inverse", "statement": "implode(explode(s, delim), delim) equals s for non-empty delim; no segment produced without a limit contains delim; with a limit n at most n segments are produced; explode(\"\") is empty.", "quantifier": "every text, every delimiter, every positive limit", "why_tests_cant": "unbounded texts and overlapping delimiters", "anchors": ["asteria/src/library/string.cpp:std_string_explode", "asteria/src/library/string.cpp:std_string_implode"]}
{"id": "C14", "title": "trim removes a maximal prefix/suffix", "statement": "trim/triml/trimr(s, reject) returns the substring obtained by removing the longest prefix/suffix consisting of reject characters and nothing else.", "quantifier": "every text, every reject set", "why_tests_cant": "unbounded", "anchors": ["asteria/src/library/string.cpp:std_string_trim", "asteria/src/library/string.cpp:std_string_triml", "asteria/src/library/string.cpp:std_string_trimr"]}
{"id": "C15", "title": "padding reaches the requested length", "statement": "padl/padr(s, length, padding) returns s preceded/followed by as many whole copies of padding as fit without exceeding `length` (none if s is already longer); the original text is intact; an empty padding is an error.", "quantifier": "every text, non-empty padding, length", "why_tests_cant": "unbounded", "anchors": ["asteria/src/library/string.cpp:std_string_padl", "asteria/src/library/string.cpp:std_string_padr"]}
{"id": "C16", "title": "character-set searches", "statement": "find_any_of/find_not_of return the least, rfind_any_of/rfind_not_of the greatest index in the subrange whose character is (not) in the set, or null if none.", "quantifier": "every text, every set, every subrange", "why_tests_cant": "unbounded", "anchors": ["asteria/src/library/string.cpp:do_find_of_opt", "asteria/src/library/string.cpp:std_string_find_any_of", "asteria/src/library/string.cpp:std_string_rfind_not_of"]}
{"id": "C17", "title": "replace_slice splices", "statement": "replace_slice(text, from, length, replacement[, rfrom[, rlength]]) equals prefix ++ slice of replacement ++ suffix where prefix/suffix are what surrounds the addressed slice; the array version agrees.", "quantifier": "every text/array, all int64 offsets and lengths", "why_tests_cant": "unbounded and extreme integers", "anchors": ["asteria/src/library/string.cpp:std_string_replace_slice", "asteria/src/library/array.cpp:std_array_replace_slice"]}
{"id": "C18", "title": "sort is a stable sorting permutation", "statement": "std.array.sort(data[, comparator]) with a comparator that is a total preorder returns a permutation of data that is non-descending and in which equivalent elements keep their original order.", "quantifier": "every array of every length, every total-preorder comparator", "why_tests_cant": "arbitrary lengths (odd/even/runs), arbitrary order patterns", "anchors": ["asteria/src/library/array.cpp:do_merge_blocks", "asteria/src/library/array.cpp:std_array_sort"]}
{"id": "C19", "title": "usort yields strictly ascending representatives", "statement": "std.array.usort returns a strictly ascending array which contains exactly one element of each equivalence class of the input, the first one occurring in the input.", "quantifier": "every array, every total-preorder comparator", "why_tests_cant": "arbitrary lengths and duplicate patterns", "anchors": ["asteria/src/library/array.cpp:do_merge_blocks", "asteria/src/library/array.cpp:std_array_usort"]}
{"id": "C20", "title": "binary searches agree with linear definitions", "statement": "On an ascending array: binary_search returns an index holding an equivalent element iff one exists; lower_bound = number of elements less than target; upper_bound = number not greater; equal_range = (lower_bound, count of equivalent elements).", "quantifier": "every ascending array, every target, total preorder", "why_tests_cant": "arbitrary lengths and duplicates", "anchors": ["asteria/src/library/array.cpp:do_bsearch", "asteria/src/library/array.cpp:do_bound", "asteria/src/library/array.cpp:std_array_equal_range"]}
{"id": "C21", "title": "shuffle permutes deterministically", "statement": "std.array.shuffle(data, seed) returns a permutation of data determined by data's length and seed, never indexing out of bounds.", "quantifier": "every array, every 64-bit seed", "why_tests_cant": "all seeds and lengths", "anchors": ["asteria/src/library/array.cpp:std_array_shuffle", "asteria/rocket/xhashtable.hpp:probe_origin"]}
{"id": "C22", "title": "rotate moves elements cyclically", "statement": "std.array.rotate(data, shift) puts the element at index i to index (i+shift) mod n for every signed 64-bit shift; rotate by -shift undoes it.", "quantifier": "every array, every int64 shift", "why_tests_cant": "in-place block-swap loop, all sizes and shifts", "anchors": ["asteria/src/library/array.cpp:std_array_rotate", "asteria/rocket/fwd.hpp:rotate"]}
{"id": "C23", "title": "array folds: find/count/exclude/max_of/min_of", "statement": "find/rfind return the least/greatest index of an equal element; count counts them; exclude removes exactly them preserving order; max_of/min_of return an element that bounds every comparable element.", "quantifier": "every array, every target, every equality", "why_tests_cant": "unbounded", "anchors": ["asteria/src/library/array.cpp:do_find_opt", "asteria/src/library/array.cpp:std_array_count", "asteria/src/library/array.cpp:std_array_exclude", "asteria/src/library/array.cpp:std_array_max_of"]}
{"id": "C24", "title": "integer arithmetic is exact or throws", "statement": "For integers, + - * / unary- ++ -- and abs return the mathematically exact result when it is representable in 64 bits and throw otherwise (and on division by zero); % returns the exact remainder and throws on a zero divisor and for INT64_MIN % -1; they never wrap and never hit signed-overflow UB.", "quantifier": "every pair of int64", "why_tests_cant": "2^128 pairs", "anchors": ["asteria/src/runtime/air_node.cpp:apply_xop_add", "asteria/src/runtime/air_node.cpp:apply_xop_sub", "asteria/src/runtime/air_node.cpp:apply_xop_mul", "asteria/src/runtime/air_node.cpp:apply_xop_div", "asteria/src/runtime/air_node.cpp:apply_xop_mod", "asteria/src/runtime/air_node.cpp:apply_xop_neg", "asteria/src/runtime/air_node.cpp:apply_xop_abs"]}
{"id": "C25", "title": "modular arithmetic", "statement": "__addm/__subm/__mulm return the unique int64 congruent to the exact result modulo 2^64.", "quantifier": "every pair of int64", "why_tests_cant": "2^128 pairs", "anchors": ["asteria/src/runtime/air_node.cpp:apply_xop_addm", "asteria/src/runtime/air_node.cpp:apply_xop_subm", "asteria/src/runtime/air_node.cpp:apply_xop_mulm"]}
{"id": "C26", "title": "saturating arithmetic", "statement": "__adds/__subs/__muls return the exact result clamped to [INT64_MIN, INT64_MAX].", "quantifier": "every pair of int64", "why_tests_cant": "2^128 pairs", "anchors": ["asteria/src/runtime/air_node.cpp:apply_xop_adds", "asteria/src/runtime/air_node.cpp:apply_xop_subs", "asteria/src/runtime/air_node.cpp:apply_xop_muls"]}
{"id": "C27", "title": "integer shifts", "statement": "For n >= 0: x << n returns x*2^n or throws exactly when that is not representable; x >> n is floor(x/2^n); x <<< n and x >>> n are logical shifts giving 0 for n >= 64; negative n throws.", "quantifier": "every int64 pair", "why_tests_cant": "2^128 pairs, boundary at 63/64", "anchors": ["asteria/src/runtime/air_node.cpp:apply_xop_sll", "asteria/src/runtime/air_node.cpp:apply_xop_srl", "asteria/src/runtime/air_node.cpp:apply_xop_sla", "asteria/src/runtime/air_node.cpp:apply_xop_sra"]}
{"id": "C28", "title": "bit counting", "statement": "__lzcnt, __tzcnt, __popcnt equal the number of leading zero, trailing zero, and one bits of the 64-bit pattern (64 for zero input to the first two).", "quantifier": "every int64", "why_tests_cant": "2^64 inputs", "anchors": ["asteria/src/runtime/air_node.cpp:apply_xop_lzcnt", "asteria/rocket/fwd.hpp:lzcnt"]}
{"id": "C29", "title": "numeric pack/unpack round trip", "statement": "unpack_iN{be,le}(pack_iN{be,le}(xs)) returns each x truncated to N bits and sign-extended; for in-range values it is the identity; a byte length not divisible by N/8 throws; be and le differ by byte reversal.", "quantifier": "every list of int64, each width", "why_tests_cant": "unbounded lists", "anchors": ["asteria/src/library/numeric.cpp:std_numeric_pack_i16be", "asteria/src/library/numeric.cpp:std_numeric_unpack_i16be"]}
{"id": "C30", "title": "rotl/rotr", "statement": "rotl(m, x, sh) rotates the low m bits of x: bit i of the result is bit (i-sh) mod m for i < m, all other bits are zero; rotr rotates the other way; rotr(m, rotl(m, x, sh), sh) is the low m bits of x; m=0 gives 0; m outside 0..64 throws.", "quantifier": "every m in 0..64, every int64 x and sh", "why_tests_cant": "all integers", "anchors": ["asteria/src/library/numeric.cpp:std_numeric_rotl", "asteria/src/library/numeric.cpp:std_numeric_rotr"]}
{"id": "C31", "title": "random numbers lie in the unit interval", "statement": "The ratio drawn by numeric.random() is k/2^53 with 0 <= k < 2^53, hence in [0,1); every k is produced by some pair of generator words; drawing never reads outside the 256-word tables and preserves the generator's invariant.", "quantifier": "every output of the generator", "why_tests_cant": "2^64 generator outputs", "anchors": ["asteria/src/library/numeric.cpp:std_numeric_random", "asteria/runtime/random_engine.hpp:bump"]}
{"id": "C32", "title": "integer formatting is parsed back", "statement": "numeric.parse(numeric.format(x, base)) equals x for bases 2, 10 and 16; the value printed for an integer reads back as that integer.", "quantifier": "every int64, each base", "why_tests_cant": "2^64 values, INT64_MIN edge", "anchors": ["asteria/src/rocket/ascii_numput.cpp:put_DI", "asteria/src/rocket/ascii_numget.cpp:parse_D", "asteria/src/library/numeric.cpp:std_numeric_format"]}
{"id": "C33", "title": "string bitwise, shift and duplication operators", "statement": "On strings: & yields the bytewise and of the common prefix; | and ^ zero-extend the shorter; ~ complements every byte; on strings and arrays: <<< and >>> keep the length and move every element by n positions; << appends n fillers and >> drops min(n,len) from the end; (s << n) >> n = s; s * n is n copies of s, or throws for negative n or excessive length.", "quantifier": "every pair of strings, every non-negative count", "why_tests_cant": "unbounded", "anchors": ["asteria/src/runtime/air_node.cpp:apply_xop_andb", "asteria/src/runtime/air_node.cpp:apply_xop_sll", "asteria/src/runtime/air_node.cpp:apply_xop_sla"]}
{"id": "C34", "title": "scope dictionary behaves as a map", "statement": "After any sequence of insert/erase/clear on the name table of a scope, find(name) returns the reference inserted last under that name and not erased since, and size is the number of live names.", "quantifier": "every history of operations, every hash function", "why_tests_cant": "open addressing with backward-shift deletion: correctness depends on the whole history and hash collisions", "anchors": ["asteria/src/llds/reference_dictionary.cpp", "asteria/rocket/xhashtable.hpp:linear_probe"]}
{"id": "C35", "title": "variable map behaves as a set", "statement": "After any sequence of insert/erase/merge/extract the collector's variable table contains exactly the inserted and not removed variables; insert reports whether the key was new; extract removes exactly one element.", "quantifier": "every history, every pointer hash", "why_tests_cant": "history dependence and collisions", "anchors": ["asteria/src/llds/variable_hashmap.cpp"]}
{"id": "C36", "title": "stream buffer is a FIFO", "statement": "A linear_buffer subjected to any sequence of put/get/discard/unaccept operations returns bytes in exactly the order in which they were put, with no loss, duplication or out-of-bounds access, whatever compactions and reallocations happen.", "quantifier": "every history of operations", "why_tests_cant": "interleavings of offset compaction and growth", "anchors": ["asteria/rocket/linear_buffer.hpp", "asteria/rocket/details/linear_buffer.ipp:reserve"]}
{"id": "C37", "title": "copy-on-write isolation", "statement": "Copies of arrays/objects/strings are independent: after any history of copying and mutating handles, each handle reads back what a by-value semantics would give, and no shared block is mutated in place.", "quantifier": "every history over any number of handles", "why_tests_cant": "aliasing patterns are unbounded", "anchors": ["asteria/rocket/cow_vector.hpp", "asteria/rocket/details/cow_vector.ipp:storage_handle"]}
{"id": "C38", "title": "hash map behaves as a finite map", "statement": "cow_hashmap with any history of try_emplace/insert_or_assign/erase (single and range) behaves as a finite map and size() is the number of keys.", "quantifier": "every history, every hash function", "why_tests_cant": "collisions and range erasure", "anchors": ["asteria/rocket/details/cow_hashmap.ipp"]}
{"id": "C39", "title": "value comparison is a consistent partial order", "statement": "compare_partial is reflexive on comparable scalars, converse under swapping of operands (less <-> greater), and transitive on totally ordered values; arrays compare lexicographically; values of different types are unordered.", "quantifier": "all values of any nesting", "why_tests_cant": "unbounded nesting", "anchors": ["asteria/src/value.cpp:compare_partial"]}
{"id": "C40", "title": "integer/real comparison is exact", "statement": "Comparing an integer with a finite real gives the mathematically exact order without rounding; NaN is unordered with everything.", "quantifier": "every int64, every real", "why_tests_cant": "2^128 pairs incl. rounding boundary cases", "anchors": ["asteria/src/value.cpp:compare_numeric_partial"]}
{"id": "C41", "title": "negative index wrapping", "statement": "An index i addresses element i if 0<=i<n and element n+i if -n<=i<0; any other index needs exactly the number of appended/prepended elements that makes it valid; no signed overflow. (FALSE at the extremes: witness proved; partial theorem excludes them.)", "quantifier": "every size, every int64 index", "why_tests_cant": "all 64-bit indices and sizes", "anchors": ["asteria/utils.hpp:Wrapped_Index"]}
{"id": "C42", "title": "read after write through subscripts", "statement": "After v[s1][s2]... = x, reading v[s1][s2]... gives x, and every element not on the path is unchanged, except that arrays grow with nulls where needed (indices of negative subscripts shift accordingly).", "quantifier": "every value, every subscript chain, every x", "why_tests_cant": "unbounded nesting", "anchors": ["asteria/src/runtime/subscript.cpp:apply_open", "asteria/src/runtime/subscript.cpp:apply_read_opt"]}
{"id": "C43", "title": "unset removes exactly the addressed element", "statement": "unset v[..path..] returns the element that reading the path returned, removes it (arrays shrink by one, objects lose one key), and leaves everything else unchanged; absent elements make it a no-op returning null.", "quantifier": "every value, every path", "why_tests_cant": "unbounded nesting", "anchors": ["asteria/src/runtime/subscript.cpp:apply_unset"]}
{"id": "C44", "title": "read and write subscript access agree", "statement": "apply_write_opt locates an element iff apply_read_opt does, and it is the same element; a failed access throws in both.", "quantifier": "every value, every subscript", "why_tests_cant": "unbounded", "anchors": ["asteria/src/runtime/subscript.cpp:apply_write_opt"]}
{"id": "C45", "title": "structured control flow", "statement": "break/continue/return leave exactly the constructs they target: a loop consumes unlabelled and matching labelled break/continue, anything else propagates; statements after a control transfer in a block do not run; switch enters the first matching clause, or default if none, and falls through.", "quantifier": "every program of the statement core, every execution", "why_tests_cant": "unbounded nesting and executions", "anchors": ["asteria/src/runtime/air_node.cpp:solidify (while/do/for/switch)", "asteria/src/llds/avm_rod.cpp:execute"]}
{"id": "C46", "title": "deferred expressions run exactly once in LIFO order", "statement": "Whenever a scope exits without a pending tail call \u2014 normally, by break/continue/return or by an exception \u2014 each deferred expression registered in it runs exactly once, last registered first, after the scope's body and before anything in the enclosing scope that follows.", "quantifier": "every program, every exit mode", "why_tests_cant": "unbounded executions and nesting", "anchors": ["asteria/src/runtime/executive_context.cpp:on_scope_exit_normal", "asteria/src/runtime/air_node.cpp:do_execute_block"]}
{"id": "C47", "title": "defer order is preserved under proper tail calls", "statement": "Deferred expressions of inner scopes run before those of outer scopes also when the function returns via a proper tail call. (FALSE of the code; witness proved, partial theorem for a single scope.)", "quantifier": "every nesting of scopes with a tail call", "why_tests_cant": "nesting", "anchors": ["asteria/src/runtime/executive_context.cpp:on_scope_exit_normal", "asteria/src/runtime/reference.cpp:do_use_function_result_slow"]}
{"id": "C48", "title": "constant-operand operators agree with generic ones", "statement": "Operators specialised at compile time for a 32-bit constant right operand produce the same result or the same failure as the generic operators applied to that constant.", "quantifier": "every left operand value, every 32-bit constant, each operator", "why_tests_cant": "2^96 combinations and all value types", "anchors": ["asteria/src/runtime/air_node.cpp:S_apply_operator_bi32"]}
{"id": "C49", "title": "code after a terminator is unreachable", "statement": "If a statement is classified as a terminator then executing it never completes normally, so that dropping the statements after it does not change behaviour.", "quantifier": "every statement, every execution", "why_tests_cant": "all programs", "anchors": ["asteria/src/runtime/air_node.cpp:is_terminator", "asteria/src/compiler/statement.cpp"]}
{"id": "C50", "title": "try/catch", "statement": "An exception thrown in a try body is caught by its catch clause, which sees the thrown value; without exception the catch body does not run; statuses propagate unchanged from either body; names of the try body do not leak.", "quantifier": "every program", "why_tests_cant": "unbounded", "anchors": ["asteria/src/runtime/air_node.cpp:S_try_statement"]}
{"id": "C51", "title": "argument binding", "statement": "Parameter i of a call is bound to argument i, missing arguments are null, extra arguments are rejected unless the function is variadic, in which case __varg(k) yields exactly the k-th extra argument (negative k from the end) and __varg() their number.", "quantifier": "every parameter list, every argument list", "why_tests_cant": "unbounded lists", "anchors": ["asteria/src/runtime/executive_context.cpp", "asteria/src/runtime/variadic_arguer.cpp"]}
{"id": "C52", "title": "array and object literals", "statement": "[e1,...,en] evaluates to an array of the element values in order; {k1:e1,...} to an object where for duplicate keys the rightmost wins.", "quantifier": "every literal", "why_tests_cant": "unbounded", "anchors": ["asteria/src/runtime/air_node.cpp:S_push_unnamed_object"]}
{"id": "C53", "title": "short-circuit operators", "statement": "a && b evaluates b iff a is truthy, a || b iff a is falsy, a ?? b iff a is null, and exactly one branch of ?: is evaluated; the result is the value of the operand selected.", "quantifier": "every expression", "why_tests_cant": "unbounded", "anchors": ["asteria/src/runtime/air_node.cpp:S_branch_expression", "asteria/src/runtime/air_node.cpp:S_coalesce_expression"]}
{"id": "C54", "title": "garbage collection never clears a reachable variable", "statement": "A collection never wipes a variable that can be reached from outside of the collected set (stack, globals, older generations).", "quantifier": "every object graph, every reference count consistent with it", "why_tests_cant": "all graphs and cycles", "anchors": ["asteria/src/runtime/garbage_collector.cpp:do_collect_generation"]}
{"id": "C55", "title": "garbage collection reclaims unreachable cycles", "statement": "A collection wipes every tracked variable in the generation that is not reachable from an external reference.", "quantifier": "every object graph", "why_tests_cant": "all graphs", "anchors": ["asteria/src/runtime/garbage_collector.cpp:do_collect_generation"]}
{"id": "C56", "title": "JSON round trip", "statement": "std.json.parse(std.json.format(v)) equals v for every value built from null, booleans, numbers that survive number formatting, valid UTF-8 strings, arrays and objects nested at most 32 deep; with any whitespace indentation.", "quantifier": "every such value", "why_tests_cant": "unbounded nesting and strings", "anchors": ["asteria/src/library/json.cpp:do_print_to", "asteria/src/library/json.cpp:do_parse_from"]}
{"id": "C57", "title": "JSON reader memory safety", "statement": "Reading any byte sequence as JSON never writes outside the 4-byte look-ahead buffer. (FALSE of the code for lead bytes 0xFC..0xFF; witness proved; partial theorem for the rest.)", "quantifier": "every byte sequence", "why_tests_cant": "all byte sequences", "anchors": ["asteria/src/library/json.cpp:do_load_next"]}
{"id": "C58", "title": "CSV round trip", "statement": "std.csv.parse(std.csv.format(rows)) gives back a table of strings. (FALSE: strings without commas, line breaks and quotation marks are escaped and never unescaped; a row that begins with a string after a row that ends with one keeps its quotation marks; certain line breaks in strings are dropped. Witnesses proved; partial theorem: what exactly is read back from a table without these.)", "quantifier": "every table of strings", "why_tests_cant": "all cell contents", "anchors": ["asteria/src/library/csv.cpp:do_print_to", "asteria/src/library/csv.cpp:do_parse_from"]}
{"id": "C59", "title": "INI round trip", "statement": "std.ini.format(obj) succeeds exactly if names and strings have none of []=;# and no blanks at either end; and std.ini.parse of the result gives back the scalars as strings and the objects as sections, in order. (FALSE for line breaks in names and strings, and for a first name that begins with a byte order mark; witnesses proved; partial theorem otherwise.)", "quantifier": "every object", "why_tests_cant": "all keys and values", "anchors": ["asteria/src/library/ini.cpp"]}
{"id": "C60", "title": "JSON nesting is bounded", "statement": "std.json.parse keeps at most 33 open containers, whatever the input; deeper nesting throws rather than exhausting memory or the native stack.", "quantifier": "every input", "why_tests_cant": "unbounded inputs", "anchors": ["asteria/src/library/json.cpp:do_parse_from"]}
{"id": "C61", "title": "punctuators are lexed by maximal munch", "statement": "At any position the lexer takes the longest punctuator of the language which is a prefix of the remaining text.", "quantifier": "every remaining text", "why_tests_cant": "all texts", "anchors": ["asteria/src/compiler/token_stream.cpp:do_accept_punctuator"]}
{"id": "C62", "title": "block comments end at the first */", "statement": "A block comment extends to the first occurrence of */ after its opening. (FALSE of the code: only the first asterisk of each remaining line is examined; witness proved; partial theorem for comments whose text has no other asterisk.)", "quantifier": "every source text", "why_tests_cant": "all texts", "anchors": ["asteria/src/compiler/token_stream.cpp:reload"]}
{"id": "C63", "title": "quoting produces literals that lex back", "statement": "c_quote applied to a byte string yields a double-quoted literal that the lexer reads back as the same byte string.", "quantifier": "every byte string", "why_tests_cant": "all strings", "anchors": ["asteria/src/utils.cpp:c_quote", "asteria/src/compiler/token_stream.cpp:do_accept_string_literal"]}
{"id": "C64", "title": "infix expressions respect precedence and associativity", "statement": "Parsing a sequence of operands and infix operators groups tighter operators first, and equal precedence left-to-right, except assignments and the conditional operators which group right-to-left; operands are kept in order.", "quantifier": "every operator sequence", "why_tests_cant": "unbounded sequences", "anchors": ["asteria/src/compiler/infix_element.cpp", "asteria/src/compiler/statement_sequence.cpp"]}
{"id": "C65", "title": "checksums do not depend on chunking", "statement": "For CRC-32, Adler-32 and FNV-1a (and for digests of OpenSSL, if OpenSSL does so), feeding data to a checksum object in any pieces, after any history of update, finish and clear, gives the checksum of the concatenation since the last finish or clear; the checksum of a file does not depend on how much each read returns; FNV-1a has its published value; digests are written as uppercase hexadecimal.", "quantifier": "every byte string, every split", "why_tests_cant": "all splits", "anchors": ["asteria/src/library/checksum.cpp"]}
{"id": "C66", "title": "timestamps round trip", "statement": "std.chrono.format(t, offset) and format_ms write the date and time of the Gregorian calendar; std.chrono.parse reads t back whatever the UTC offset, rounded down to a whole second without milliseconds; time points before 1970 and from 9999 on become the least and the greatest integer. (For local time, FALSE if the offset of the time zone is not a whole number of minutes; witness proved; partial theorem otherwise.)", "quantifier": "every int64 time point in range, every offset in minutes", "why_tests_cant": "10^13 instants times all offsets", "anchors": ["asteria/src/library/chrono.cpp:do_format_with_ms", "asteria/src/library/chrono.cpp:std_chrono_parse"]}
{"id": "C67", "title": "recursive import is denied and locks are released", "statement": "A file can be locked by the module loader iff it is not already being imported; after the import ends, normally or by exception, it can be imported again. (FALSE if flock() fails; witness proved.)", "quantifier": "every history of imports, incl. failures", "why_tests_cant": "failure points and histories", "anchors": ["asteria/src/runtime/module_loader.cpp"]}
{"id": "C68", "title": "format placeholders", "statement": "Formatting a template replaces $$ by a dollar sign, $N/${N} by the N-th argument, $0 by the template, and copies all other text verbatim and in order; text without $ is unchanged; doubling every $ makes any text print as itself.", "quantifier": "every template, every argument list", "why_tests_cant": "unbounded templates", "anchors": ["asteria/rocket/tinyfmt.hpp:formatv"]}
{"id": "C69", "title": "compound assignment uses the original operand values", "statement": "x op= y stores op(old x, y) where y is the value of the right operand when evaluated. (FALSE of the code when opening the left reference relocates the right operand; witness proved.)", "quantifier": "every pair of references", "why_tests_cant": "aliasing", "anchors": ["asteria/src/runtime/air_node.cpp:apply_xop_add"]}
{"id": "C70", "title": "failed assignment leaves the target unchanged", "statement": "An assignment that throws leaves the destination variable unchanged. (FALSE of the code: elements may have been appended before failure; witness proved.)", "quantifier": "every value, every path, every failure", "why_tests_cant": "failure points", "anchors": ["asteria/src/runtime/reference.cpp", "asteria/src/runtime/subscript.cpp:apply_open"]}
{"id": "C71", "title": "clamped double-to-integer conversions", "statement": "safe_double_to_int64 returns the value exactly when the real is integral and in range and throws otherwise.", "quantifier": "every double", "why_tests_cant": "2^64 doubles", "anchors": ["asteria/src/utils.cpp:safe_double_to_int64"]}
{"id": "C72", "title": "collector tracing covers code bodies", "statement": "Every variable referenced by a compiled node's constants or nested code is reported to the collector. (FALSE for the body of a for statement; witness proved; partial theorem for other node kinds.)", "quantifier": "every code tree", "why_tests_cant": "unbounded nesting", "anchors": ["asteria/src/runtime/air_node.cpp:collect_variables"]}
{"id": "C73", "title": "max_of/min_of ignore elements unordered with the first", "statement": "The documentation says that std.array.max_of/min_of silently ignore elements that are unordered with the first element, i.e. the result equals the result on the array without them. (FALSE of the code: such an element makes the call throw; witness proved; partial theorem when all elements are ordered.)", "quantifier": "every array, every comparator", "why_tests_cant": "needs a comparator with unordered elements at arbitrary positions", "anchors": ["asteria/src/library/array.cpp:std_array_max_of", "asteria/src/library/array.cpp:do_compare_total"]}
{"id": "C74", "title": "is_sorted decides non-descending order", "statement": "std.array.is_sorted(data) is true iff data is non-descending. (With a total preorder: proved. The documentation's claim that unordered elements give false is FALSE of the code: it throws; witness proved.)", "quantifier": "every array, every comparator", "why_tests_cant": "unbounded arrays", "anchors": ["asteria/src/library/array.cpp:std_array_is_sorted"]}
{"id": "C75", "title": "binary_search finds the first equal element", "statement": "The documentation says that std.array.binary_search finds the first element that is equal to the target. (FALSE of the code: with several equal elements any of them may be returned; witness proved; partial theorem for strictly ascending arrays.)", "quantifier": "every ascending array, every target", "why_tests_cant": "depends on length and position of duplicates", "anchors": ["asteria/src/library/array.cpp:std_array_binary_search", "asteria/src/library/array.cpp:do_bsearch"]}
{"id": "C76", "title": "random(limit) stays below its limit", "statement": "std.numeric.random(limit) returns a value whose magnitude is less than |limit| for every finite nonzero limit (as documented). (FALSE of every subnormal limit, for which rounding reaches the limit: proved; partial theorem for limits above 2^-1022 in magnitude, where the sign is also that of the limit; the default limit and the errors are proved outright.)", "quantifier": "every limit including subnormal numbers, every state of the generator", "why_tests_cant": "fails only for a sliver of limits and generator outputs", "anchors": ["asteria/src/library/numeric.cpp:std_numeric_random"]}
{"id": "C77", "title": "hash map range insertion adds every new key", "statement": "cow_hashmap::insert(first,last) adds exactly the elements whose keys are not in the map, for every category of iterators and every length of the range; erase(begin(),end()) empties every map.", "quantifier": "every map, every range", "why_tests_cant": "needs a range that outgrows the initial reservation", "anchors": ["asteria/rocket/cow_hashmap.hpp:insert"]}
{"id": "C78", "title": "discarded call results", "statement": "A function whose body ends with a call statement (not a return statement) yields no result, and a call in a by-value return statement yields a value, whether or not the calls are proper tail calls.", "quantifier": "every chain of tail calls", "why_tests_cant": "depends on the kinds of all calls in a chain of any length", "anchors": ["asteria/src/runtime/reference.cpp:do_use_function_result_slow", "asteria/src/runtime/air_optimizer.cpp:reload"]}
{"id": "C79", "title": "catch expressions keep the operands", "statement": "After catch(e), evaluation goes on with the operands that were there before and the exception of e (or null) on top; in particular a later return statement returns its operand.", "quantifier": "every operand, every exception, every state", "why_tests_cant": "depends on where inside nested calls the exception is thrown", "anchors": ["asteria/src/runtime/air_node.cpp:S_catch_expression", "asteria/src/runtime/air_node.cpp:S_alt_clear_stack"]}
{"id": "C80", "title": "text encoders write exactly the standard text", "statement": "std.string.hex_encode, base32_encode, base64_encode, url_encode and url_query_encode return exactly the text that RFC 4648 and RFC 3986 prescribe: the right alphabet, upper-case digits, '=' padding, delimiters only between bytes; unreserved characters as they are, a blank in a query as '+', everything else as %XX.", "quantifier": "every byte string, every delimiter", "why_tests_cant": "round trips do not notice a consistently wrong alphabet; there are infinitely many inputs", "anchors": ["asteria/src/library/string.cpp:std_string_hex_encode", "asteria/src/library/string.cpp:std_string_base32_encode", "asteria/src/library/string.cpp:std_string_base64_encode", "asteria/src/library/string.cpp:std_string_url_encode", "asteria/src/library/string.cpp:std_string_url_query_encode"]}
{"id": "C81", "title": "words are keywords or identifiers by their whole spelling", "statement": "At any position of a line where a word (a maximal run of letters, digits and underscores, not starting with a digit) begins, the whole word becomes one token, a keyword if and only if the word is exactly a keyword (nan, NaN, infinity and Infinity are numbers).", "quantifier": "every line, preceding tokens and following text", "why_tests_cant": "all words and contexts", "anchors": ["asteria/src/compiler/token_stream.cpp:do_accept_identifier_or_keyword"]}
{"id": "C82", "title": "a sign after an operand is an operator", "statement": "A + or - directly before a number is an operator if the previous token may end an expression. (FALSE of the code after [?]; witness proved; partial theorem for all other tokens.)", "quantifier": "every previous token and following number", "why_tests_cant": "all contexts", "anchors": ["asteria/src/compiler/token_stream.cpp:do_may_infix_operators_follow", "asteria/src/compiler/token_stream.cpp:do_accept_numeric_literal"]}
{"id": "C83", "title": "lexing never fails an assertion", "statement": "Token_Stream::reload either succeeds or throws for every source text; no assertion fails. (FALSE of the code: text with an incomplete UTF-8 sequence before a quotation mark passes validation and skips past the end of the literal; witness proved; partial theorem for well-formed UTF-8.)", "quantifier": "every source text", "why_tests_cant": "all byte strings", "anchors": ["asteria/src/compiler/token_stream.cpp:reload", "asteria/src/compiler/token_stream.cpp:Text_Reader::consume", "asteria/src/utils.cpp:utf8_decode"]}
{"id": "C84", "title": "integer literals have the value of their digits", "statement": "A binary, decimal or hexadecimal integer literal with any number of digits, digit separators and an optional sign lexes to exactly the integer its digits denote if that fits in 64 bits, and throws otherwise.", "quantifier": "every literal, context and following text", "why_tests_cant": "unbounded digit strings", "anchors": ["asteria/src/compiler/token_stream.cpp:do_accept_numeric_literal"]}
{"id": "C85", "title": "programs spelled by the lexical grammar lex to their tokens", "statement": "A source text of any number of lines, each a sequence of lexemes of the documented lexical grammar, blanks and comments, lexes to exactly those tokens in order; the reading is unique; a byte order mark and a #! line make no difference.", "quantifier": "every sequence of tokens and every spelling of them", "why_tests_cant": "unbounded token sequences", "anchors": ["asteria/src/compiler/token_stream.cpp:reload"]}
{"id": "C86", "title": "string literals follow the documented escape grammar", "statement": "A string literal is accepted exactly when its text follows the documented grammar, and has the value the grammar assigns, for both kinds of quotation marks.", "quantifier": "every text", "why_tests_cant": "all strings of escape sequences", "anchors": ["asteria/src/compiler/token_stream.cpp:do_accept_string_literal"]}
{"id": "C87", "title": "Values read from JSON are well-formed", "statement": "Every value that std.json.parse returns, for any input, consists of null, booleans, finite real numbers, strings, arrays and objects; all its strings and keys are valid UTF-8 and the keys of each object are distinct.", "quantifier": "every input text that is accepted", "why_tests_cant": "all byte sequences, including malformed UTF-8, escape sequences and nested containers", "anchors": ["asteria/src/library/json.cpp:do_token", "asteria/src/library/json.cpp:do_parse_from"]}
{"id": "C88", "title": "number parser has no undefined behaviour", "statement": "Parsing a decimal number never overflows signed arithmetic, whatever the text. (FALSE: the exponent wraps around and then its difference from the one of the significant figures overflows, e.g. 18446744073709551616e92233720368547758070; witness proved; partial theorem for exponents below 10^18 and for integers without a fraction.)", "quantifier": "every text", "why_tests_cant": "needs an exponent of twenty digits together with significant figures of twenty digits or a fraction", "anchors": ["asteria/src/rocket/ascii_numget.cpp:101-189", "asteria/src/rocket/ascii_numget.cpp:1187-1215"]}
{"id": "C90", "title": "CSV reader has no undefined behaviour", "statement": "std.csv.parse either returns rows or throws, for every text; it never reads beyond a line, and never refers to a row or a cell that does not exist.", "quantifier": "every text", "why_tests_cant": "all texts of any length", "anchors": ["asteria/src/library/csv.cpp:52-144"]}
{"id": "C91", "title": "INI reader has no undefined behaviour", "statement": "std.ini.parse either returns an object or throws, for every text. (FALSE: a section named as an earlier property fails an assertion, which is undefined behaviour in release builds; witness proved; partial theorem for texts without sections and texts that begin with a section.)", "quantifier": "every text", "why_tests_cant": "all texts of any length", "anchors": ["asteria/src/library/ini.cpp:127-206"]}
{"id": "C92", "title": "time reader does not read beyond the end", "statement": "std.chrono.parse never reads beyond the end of the string. (FALSE: it compares two characters at the end of a string that is cut short before two digits, e.g. '2009-'; witness proved; partial theorem for strings that do not end with a digit, blank, colon, dot or sign.)", "quantifier": "every string", "why_tests_cant": "the byte that is read in excess is usually harmless, so that tests do not notice", "anchors": ["asteria/src/library/chrono.cpp:137-159"]}
{"id": "C93", "title": "constant folding by the code generator preserves meaning", "statement": "Whatever code was generated before, the code generated for an operator at any optimization level (folded constants, null tests, member access, complement of a literal) has the same failures, the same effects on variables and indistinguishable results as that code followed by the generic operator.", "quantifier": "every prefix of code, every operator, every optimization level, all variables and stacks", "why_tests_cant": "unbounded programs and values", "anchors": ["asteria/src/compiler/expression_unit.cpp:245-299", "asteria/src/runtime/air_node.cpp"]}
{"id": "C89", "title": "Finite reals are printed as JSON numbers", "statement": "For every finite double, of either sign and including zeroes and subnormals, ascii_numput::put_DD (used by std.json.format and std.numeric.format) writes a text that matches the `number` production of RFC 8259 section 6 (optional minus, no superfluous leading zero, digits on both sides of the point, a complete exponent), and ascii_numget::parse_DD consumes the whole of that text as a number with the same sign. No assertion in the formatter fails and no table access is out of bounds.", "quantifier": "all 2^64 - 2^54 finite bit patterns", "why_tests_cant": "The layout depends on a 633-entry table, a binary search, a rounding loop and three formats; there are 1.8e19 inputs.", "anchors": ["asteria/src/rocket/ascii_numput.cpp:1190-1354", "asteria/src/rocket/ascii_numput.cpp:1888-1934", "asteria/src/rocket/ascii_numget.cpp:1185-1202", "asteria/src/library/json.cpp:885-905"]}
{"id": "C94", "title": "Printed reals read back as the same number", "statement": "For every finite double x, the text that ascii_numput::put_DD writes for x, when read by ascii_numget::parse_D and cast_D, gives a double with the same bit pattern as x.", "quantifier": "all finite bit patterns of both signs", "why_tests_cant": "Failures are rare (some powers of two, and one odd mantissa in several thousands) and the domain has 1.8e19 elements; correctness of the others depends on error bounds for 64-bit products with two tables of 633 and 652 entries.", "anchors": ["asteria/src/rocket/ascii_numput.cpp:382-1014", "asteria/src/rocket/ascii_numput.cpp:1190-1354", "asteria/src/rocket/ascii_numput.cpp:1888-1934", "asteria/src/rocket/ascii_numget.cpp:247-898", "asteria/src/rocket/ascii_numget.cpp:1261-1289", "asteria/src/rocket/ascii_numget.cpp:1692-1863"]}
{"id": "C95", "title": "Argument_Reader resolves overloads as specified, with saved states", "statement": "For every sequence of calls of start_overload, optional, required, save_state, load_state and end_overload on an Argument_Reader, for every list of arguments: the n-th parameter of the current overload (that is, counting the parameters read before the state was saved) takes the n-th argument; an argument of the wrong type, or a missing argument for a required parameter, fails the overload, and later parameters of it are given null or default values without reading their arguments; null and missing arguments are accepted by optional parameters; an integer is accepted as a real; end_overload returns true if and only if no parameter failed and, unless variadic, there are no more arguments than parameters; variadic arguments are delivered in order from the first that has no parameter; reading a parameter after end_overload, or loading a state that has not been saved, throws; and the list of overloads in the message of throw_no_matching_function_call has exactly the parameter lists of the overloads that have been ended, in order.", "quantifier": "all sequences of calls, all numbers and types of arguments, all saved states (fewer than 2^32 calls and arguments in total)", "why_tests_cant": "Call sequences, state saving and argument lists are unbounded; each library function exercises one fixed sequence.", "anchors": ["asteria/src/runtime/argument_reader.cpp:15-97", "asteria/src/runtime/argument_reader.cpp:99-455", "asteria/src/runtime/argument_reader.cpp:457-577", "asteria/runtime/argument_reader.hpp:13-160"]}
{"id": "C96", "title": "The first matching overload of a native function is called", "statement": "A native function that tries overloads one after another (start_overload, parameters, end_overload) runs the first overload, all of whose parameters accept their arguments and which leaves no argument over unless it is variadic; each variable receives the argument in its place, and variadic arguments are the remaining ones in order. If no overload accepts the arguments, none runs, and the message lists all of them in order.", "quantifier": "all lists of overloads, all lists of arguments that can be dereferenced", "why_tests_cant": "Both lists are unbounded.", "anchors": ["asteria/src/runtime/argument_reader.cpp:53-97", "asteria/src/runtime/argument_reader.cpp:457-577", "asteria/src/library/array.cpp:686-704"]}
{"id": "C97", "title": "Local references of compiled functions always find their names", "statement": "The code generator resolves a name in a function to a number of contexts to go up. Whenever a function that has been compiled from source is called, then before each step of its execution (and that of all functions called, tail calls made later, and deferred expressions): a node that pushes a local reference finds a context at the recorded depth, and that context has the recorded name; and where a function or a deferred expression captures local references, there is a context for each of them.  The null dereferences and failed assertions that would follow otherwise do not happen.", "quantifier": "all function bodies (any nesting of blocks, loops, switch clauses, try blocks, closures, deferred expressions), all compiler options, all operators, all arguments, all executions of any length", "why_tests_cant": "A wrong depth shows only for a particular combination of nesting and control flow (for example a switch entered at a later clause, or an empty block that is flattened); bodies and executions are unbounded.", "anchors": ["asteria/src/compiler/expression_unit.cpp:82-390", "asteria/src/compiler/statement.cpp:16-644", "asteria/src/runtime/air_optimizer.cpp:28-51", "asteria/src/runtime/analytic_context.cpp:9-26", "asteria/src/runtime/air_node.cpp:1772-1826", "asteria/src/runtime/air_node.cpp:463-487"]}
{"id": "C98", "title": "A for each loop does not write to existing variables", "statement": "A `for each` statement creates a variable for its key and writes to no variable that exists before it: neither to that of the range, nor to any other, constant or not, except for what its initializer, its body and its __ifcomplete block do themselves.", "quantifier": "all ranges, all names for keys and mapped elements, all bodies, all ways to leave the loop", "why_tests_cant": "Names, ranges and bodies are unbounded; the failing case needs a key and a mapped element of the same name.", "anchors": ["asteria/src/runtime/air_node.cpp:1262-1380", "asteria/src/compiler/statement_sequence.cpp:993-1059"]}
{"id": "C99", "title": "Compiled functions do not fail the assertions of the interpreter", "statement": "When a function that has been compiled from source is called, its execution and that of everything it calls never takes an operand from an empty stack, never initializes a variable that has not been declared or has been initialized already, never ends a block, a loop, a switch clause, a deferred expression or a function with a status that is not expected there, never returns without a result, and never uses a context that does not exist. A call that returns replaces `this` on the caller's stack with the result and leaves everything else on it; no context is left behind. (Partial: catch expressions whose operands call functions are excluded in optimized code, where this is false, see C79; what is undefined when a reference is read or written, see C41, is not part of this.)", "quantifier": "all function bodies that the parser can make, all compiler options, all operators with fixed numbers of operands, all arguments, all executions of any length", "why_tests_cant": "The number of operands on the stack depends on the path through nested branches, tail calls, the alternative stack and deferred expressions; bodies and executions are unbounded.", "anchors": ["asteria/src/compiler/expression_unit.cpp:82-390", "asteria/src/compiler/statement.cpp:16-644", "asteria/src/runtime/air_node.cpp", "asteria/src/runtime/executive_context.cpp:97-160", "asteria/src/llds/avm_rod.cpp:149-180"]}
{"id": "C100", "title": "What the parser accepts is well-formed", "statement": "In every script that the parser accepts, each operator has the number of operands it takes, and every condition, every branch of a ternary or logical operator, every argument, every initializer, every operand of catch, defer, return and throw leaves exactly one result on the stack. Hence when a script is parsed, compiled and called, no assertion of the interpreter about its stack or its statuses fails (partial: except for catch expressions whose operands call functions in optimized code, see C79, and for variadic and import calls).", "quantifier": "all sequences of tokens, any nesting of expressions, statements and closures; all compiler options", "why_tests_cant": "Scripts are unbounded; the interpreter takes operands off the stack without tests in release builds, so that an expression with one operand too few reads outside the stack.", "anchors": ["asteria/src/compiler/statement_sequence.cpp:1-2803", "asteria/src/compiler/infix_element.cpp"]}
{"id": "C101", "title": "break and continue have targets", "statement": "In every script that the parser accepts, each break statement is in a switch or loop of the same function, and if it names switch, while or for then in one of that kind; each continue statement is in a loop of the same function, and of that kind if one is named; the blocks that follow a loop (__ifcomplete) and the bodies of closures and the operands of defer do not count as being in it.", "quantifier": "all sequences of tokens, any nesting", "why_tests_cant": "The parser decides with three flags that are passed down through mutually recursive functions for each kind of statement; one wrong flag shows only for one combination of nesting.", "anchors": ["asteria/src/compiler/statement_sequence.cpp:1-2803", "asteria/src/compiler/infix_element.cpp"]}
{"id": "C102", "title": "The parser ends", "statement": "The parser ends for each sequence of tokens. Nesting of its function calls is bounded by a linear function of the number of tokens. A larger limit for the nesting gives the same result.", "quantifier": "all sequences of tokens, accepted or not", "why_tests_cant": "A loop or recursion that consumes no token would go on for ever only for particular inputs.", "anchors": ["asteria/src/compiler/statement_sequence.cpp:1-2803", "asteria/src/compiler/infix_element.cpp"]}
{"id": "C103", "title": "No jump leaves its function", "statement": "When a script that has been parsed and compiled is called, then in its execution and that of everything it calls, no function body ends with the status of a break or continue statement: each jump is taken by a loop or switch of the same function. The exceptions 'Stray `break` statement' and 'Stray `continue` statement' are never thrown.", "quantifier": "all scripts, all compiler options, all arguments, all executions of any length, with tail calls, exceptions and deferred expressions", "why_tests_cant": "Which statements take a status is decided in eight places of the interpreter, the parser decides with three flags what is allowed; programs and executions are unbounded.", "anchors": ["asteria/src/runtime/instantiated_function.cpp:73-98", "asteria/src/runtime/air_node.cpp:94-106", "asteria/src/runtime/air_node.cpp:1062-1069", "asteria/src/runtime/air_node.cpp:1129-1146", "asteria/src/runtime/air_node.cpp:1440-1461", "asteria/src/compiler/statement.cpp:450-524"]}
{"id": "C104", "title": "The parser accepts exactly the documented grammar and gives each script its one meaning", "statement": "Statement_Sequence::reload accepts a token sequence if and only if it is a document of the grammar in doc/grammar.md (with its precedence table, the rules for names, jumps and duplicate declarations, `else` and `__ifcomplete` belonging to the nearest statement, and expressions being as long as possible), and the statements it produces are those the grammar assigns. Hence the grammar is unambiguous; everything else makes reload throw, unless it contains `__vcall` or `import`, which are not modelled. The same holds for reload_oneline and single expressions.", "quantifier": "for all token sequences, of any length and nesting, and all bounds on the recursion that are at least 8 times the number of tokens plus 7", "why_tests_cant": "tests compare a finite number of scripts; there are infinitely many, and ambiguities show only for particular combinations of statements and operators", "anchors": ["asteria/compiler/statement_sequence.cpp:387-2801", "asteria/compiler/infix_element.cpp:13-236", "doc/grammar.md:21-383"]}
{"id": "C105", "title": "The INI reader returns exactly what the text says", "statement": "std.ini.parse(text): lines end at LF, with an optional CR before it; a comment begins with `;` or `#`; spaces and tabs around keys and values and after section headers do not count; a property has the last value given to it in its section, and sections that are opened again continue. If every line can be read and no section bears the name of a property outside sections, the result is the object with exactly these properties and sections. If some line cannot be read, and those before it can, parse throws, whatever follows. If a section bears the name of an earlier property outside sections, the assertion fails. One byte order mark at the beginning changes nothing. Each line can be read in at most one way. Names of sections are not trimmed, although the comment in the source says so.", "quantifier": "for all texts, with any number of lines of any length", "why_tests_cant": "spaces, comments, line ends, repeated keys and repeated sections combine in infinitely many ways; tests contain a few texts", "anchors": ["asteria/src/library/ini.cpp:127-206", "asteria/src/library/ini.cpp:227-235"]}
{"id": "C106", "title": "The memory pools never give a block to two owners and lose none, in any interleaving of threads", "statement": "xmemalloc, xmemfree and xmemclean, called by any number of threads with any options, while holders write anything to their blocks: no memory is accessed that is not a block from the system, or beyond its size, and nothing is deleted twice; every block is always in exactly one place (held by callers, in exactly one list, or with exactly one thread in these functions); a block that xmemalloc returns was nobody's, is at least as large as requested, and info.count tells no more than its size and no less than the request; freed with that info it returns to the pool it came from; xmemclean with no other thread active returns to the system everything that callers do not hold. This holds for requests of at most 2^63 bytes or such that element_size * count overflows (bad_alloc); between them the claim is false: the shift count becomes 64 and s_pools[64] is accessed.", "quantifier": "for all sequences of calls and all interleavings of the steps of any number of threads, any sizes, addresses, failures of operator new and spurious failures of cmpxchg_weak", "why_tests_cant": "the orders in which threads access the list heads are unbounded, and races (lost lists, ABA) show in few of them; tests run a few schedules", "anchors": ["asteria/src/rocket/xmemory.cpp:12-140", "asteria/rocket/xmemory.hpp:11-45"]}
{"id": "C107", "title": "Nodes of solidified code in memory behave as a list: executed in order, destroyed exactly once, none lost", "statement": "AVM_Rod, for any sequence of push_function, clear, destruction, swap and move assignment on any number of rods: no call reads a cell that does not hold a header or the object expected there, deletes metadata twice or uses it after deletion; each rod is the list of nodes pushed without an exception (a push that throws - object too large, no memory, constructor throws - leaves the list as it was); clear and destruction call the destructor of each node exactly once, in order, with its own uparam and the object that its constructor made, wherever the block has moved since; execute calls executors in order until one throws or the status is no longer air_status_next, and adds the frame of the failing node's source location; collect_variables visits each collector in order; when rods are empty no metadata remains. push_function throws if and only if sparam_size > 4079, memory is lacking for metadata or nodes, the constructor throws, or the block would reach 0x7FFE0000 bytes.", "quantifier": "for all sequences of operations, any number of rods and nodes, all sizes of objects, all addresses and failures of allocations, with and without ASTERIA_DEBUG", "why_tests_cant": "the layout depends on the sizes and order of all nodes and on where reallocations fall; tests see a few layouts, and leaks or double deletions do not show in results", "anchors": ["asteria/llds/avm_rod.hpp:15-180", "asteria/src/llds/avm_rod.cpp:10-193"]}
{"id": "C108", "title": "The reference stack is a list of references, whatever is pushed, popped and replaced", "statement": "Reference_Stack, for any sequence of push, pop, clear, destruction and assignments through mut_top that satisfy the documented assertions (count <= size, index < size): every slot that is read or destroyed holds an object, nothing is constructed over an object, and no object is left in a block that is freed; size() is the number of references, top(i) is the i-th from the last pushed and bottom(i) the i-th from the first, after any number of reallocations; only push throws, if and only if it has to get memory and there is none or 0x7FFE0000 bytes would be reached, and the stack is then as before.", "quantifier": "for all sequences of operations, all numbers of references, all sizes of a reference of at least 2 bytes, all failures of allocations, with and without ASTERIA_DEBUG", "why_tests_cant": "32-bit sizes and growth matter only for long stacks, and objects lost or destroyed twice do not show in results", "anchors": ["asteria/llds/reference_stack.hpp:11-150", "asteria/src/llds/reference_stack.cpp:8-100"]}
{"id": "C109", "title": "The lexer accepts exactly the lexical grammar and gives the tokens it prescribes", "statement": "Token_Stream::reload of a well-formed UTF-8 text gives tokens t1..tn if and only if the text is divided into these tokens by the lexical grammar: an optional byte order mark and #! line; lines without null characters that are no conflict markers; blanks, line comments and block comments between tokens; punctuators by longest match, keywords, names, string literals with and without escapes, nan and infinity, numeric literals that extend over digits, separators, radix point, exponent and letters as far as possible, where an integer literal denotes exactly the number its digits and exponent say, within 64 bits, and a real literal has the 64-bit mantissa and exponent its digits say; a sign belongs to a literal unless the token before ends an expression. Every other text is rejected with Compiler_Error; no assertion fails.", "quantifier": "for all well-formed UTF-8 texts up to 2^57 bytes, all tokens and positions, any conversion of reals that is insensitive to exponents beyond 2^61 (the actual one is shown to be)", "why_tests_cant": "tests fix some literals; the grammar has interactions of signs, separators, prefixes, exponents, comments and line breaks in unboundedly many combinations", "anchors": ["asteria/src/compiler/token_stream.cpp:14-861", "asteria/src/rocket/ascii_numget.cpp"]}
{"id": "C110", "title": "A source text is accepted exactly if it is in the lexical and syntactic grammar", "statement": "Simple_Script::reload (and reload_oneline) gets past the lexer and the parser with statements b if and only if the text is divided into tokens by the lexical grammar and these tokens are a script (an expression) of the documented grammar that stands for b; if __vcall and import do not occur, every other text is rejected with an exception of the lexer or the parser. What is accepted is well-formed in the sense of C100, and its jumps have targets (C101).", "quantifier": "for all well-formed UTF-8 texts up to 2^57 bytes, all nesting depths", "why_tests_cant": "composition of two unbounded languages; tests cannot show that nothing else is accepted", "anchors": ["asteria/src/simple_script.cpp:54-88", "asteria/src/compiler/token_stream.cpp:764-861", "asteria/src/compiler/statement_sequence.cpp:2745-2801"]}
{"id": "C111", "title": "A literal of a real number denotes that number, up to 0.51 units in the last place", "statement": "For every literal with a radix point (decimal, hexadecimal or binary, any number of digits and any exponent), the lexer either produces a token whose double differs from the exact rational number that is written by at most 0.51 times the distance to the neighbouring double on that side, or rejects the literal. It rejects none that is zero or lies between DBL_TRUE_MIN and DBL_MAX. A literal that is exactly equal to a double is read as that double. No literal makes cast_D access its table out of bounds or fail in another undefined way.", "quantifier": "for all numerals of all lengths, in bases 2, 10 and 16, with all exponents, both signs", "why_tests_cant": "the error depends on 652 table entries, on a 64-bit product that is truncated and on digits that are dropped; the inputs are unbounded", "anchors": ["asteria/src/rocket/ascii_numget.cpp:1185-1289", "asteria/src/rocket/ascii_numget.cpp:1692-1866", "asteria/src/compiler/token_stream.cpp:331-376"]}
{"id": "C112", "title": "A literal of a real number is the nearest double", "statement": "Every literal with a radix point is read as the double that is nearest to the number that is written, ties going to the even one, and is rejected only if that double would be infinity, or zero though the number is not.", "quantifier": "for all numerals of all lengths, in bases 2, 10 and 16, with all exponents, both signs", "why_tests_cant": "the cases that fail are some in ten thousand random ones; the inputs are unbounded", "anchors": ["asteria/src/rocket/ascii_numget.cpp:1692-1866", "asteria/src/compiler/token_stream.cpp:331-376"]}
{"id": "C113", "title": "JSON texts are read exactly as the grammar says", "statement": "std.json.parse accepts a text iff it is derivable in the grammar of JSON extended by a byte order mark, trailing commas, a plus sign and leading zeroes, without U+007F, equal keys and more than 32 levels, and then returns exactly the value which the grammar assigns to it; any other text (with no byte from 0xFC on) gives an exception. Every number in the value is within 0.51 units in the last place of what its text says, and no number is rejected unless it is out of range.", "quantifier": "every byte sequence (up to 2^57 bytes for the accuracy of numbers)", "why_tests_cant": "unbounded texts; both directions of an equivalence", "anchors": ["asteria/src/library/json.cpp:do_load_next", "asteria/src/library/json.cpp:do_token", "asteria/src/library/json.cpp:do_parse_from"]}
{"id": "C114", "title": "Every JSON text of RFC 8259 is accepted", "statement": "std.json.parse accepts every JSON text of RFC 8259 with distinct names in objects and at most 32 levels whose numbers are in range, and gives its value. (FALSE of the code: a string with the character U+007F, which the RFC lets stand unescaped, is rejected; witness proved; true of all other texts. Conversely, numbers with a plus sign or leading zeroes are accepted although the documentation lists only trailing commas as an extension.)", "quantifier": "every RFC 8259 text", "why_tests_cant": "unbounded texts", "anchors": ["asteria/src/library/json.cpp:do_token", "doc/standard-library.md:2592"]}
{"id": "C115", "title": "Strings that share storage behave as independent values", "statement": "For any program over any number of cow_string objects (assignment, move, swap, append from anything including the string itself, replace/insert/erase, pop_back, substr, resize, clear, reserve, shrink_to_fit, writes to characters), each string has exactly the text that it would have if nothing were ever shared, followed by a null terminator; there is no access outside of a block, no write to a shared block, no leak, and exceptions only for positions out of range or lengths above the limit. (FALSE of the code: substr() of a proper end keeps a pointer into the middle of the block, and append, pop_back and resize on such a string, once it alone refers to the block, go on with the characters at the beginning of the block: s = \"hello world\"; s = s.substr(6); s += \"!\" gives \"hello!\". Likewise for a reference to a literal assigned to a string with storage, which can even write out of bounds. Witnesses proved; true of every other operation in every state and of every program without these.)", "quantifier": "all programs, texts, numbers of strings; every state reachable or not that represents some texts", "why_tests_cant": "unbounded sequences of operations with arbitrary sharing", "anchors": ["asteria/rocket/cow_string.hpp:append", "asteria/rocket/cow_string.hpp:substr", "asteria/rocket/cow_string.hpp:pop_back", "asteria/rocket/cow_string.hpp:operator=(shallow_type)", "asteria/rocket/details/cow_string.ipp:reallocate_more", "asteria/src/library/string.cpp:std_string_triml"]}
{"id": "C116", "title": "Searching in strings finds the first or the last occurrence", "statement": "cow_string::find(from, pattern) returns the least position not below from at which the pattern occurs, rfind(to, pattern) the greatest one not above to, find_of / find_not_of / rfind_of / rfind_not_of and the forms for one character the first or last position of a character in (or not in) the set on the given side, and npos if and only if there is none; nothing outside of the text or the pattern is read. (FALSE of find with from > 0 and a pattern: it returns the position relative to from: for \"hello\", find(1, \"lo\", 2) gives 2 and not 3. Witness proved; what it does return is proved for all inputs, and everything else holds.)", "quantifier": "all texts and patterns of any lengths below 2^64 and all positions", "why_tests_cant": "the shift table confuses characters that agree modulo 64 and stores offsets in 8 bits for patterns up to 256 characters; correctness depends on all pairs of text and pattern", "anchors": ["asteria/rocket/cow_string.hpp:find", "asteria/rocket/cow_string.hpp:rfind", "asteria/rocket/cow_string.hpp:find_of", "asteria/rocket/cow_string.hpp:rfind_not_of", "asteria/rocket/details/cow_string.ipp:do_boyer_moore_horspool_search"]}
{"id": "C117", "title": "to_upper, to_lower and translate change exactly the characters they should, in one string only", "statement": "std.string.to_upper / to_lower return the text with exactly the letters a-z / A-Z replaced by their counterparts; std.string.translate(text, inputs, outputs) returns the text in which each character that occurs in inputs is replaced by the character of outputs at its first place in inputs, or removed if outputs is absent or too short, and all others kept in order. No other string changes, whichever strings share storage (also if text, inputs and outputs are the same string, or an end of another), nothing is accessed outside of a block, and the pointer kept across erasures stays valid. The only exception is length_error.", "quantifier": "all states of any number of strings with any sharing, all texts, inputs and outputs of any length", "why_tests_cant": "a raw pointer is kept over erasures and storage is shared; infinitely many states and texts", "anchors": ["asteria/src/library/string.cpp:std_string_to_upper", "asteria/src/library/string.cpp:std_string_to_lower", "asteria/src/library/string.cpp:std_string_translate", "asteria/rocket/xascii.hpp:ascii_to_upper"]}
{"id": "C118", "title": "Every configuration file is read by load_conf and gives what it describes", "statement": "std.system.load_conf on a file whose content is a configuration file (JSON5-like: optional commas, semicolons, colons and equals signs, no top-level braces, comments, single-quoted strings without escapes, binary/decimal/hexadecimal numbers with backticks and exponents, at most 32 levels, distinct keys) succeeds and gives the object that the text describes; integers exactly, real numbers within 0.51 units. (FALSE of the code: a block comment ending in '**/' is not ended; \\U10FFFF is rejected; infinity and nan, used in doc/sample.conf itself, are rejected; see also C119, C120. Witnesses proved; true of all files without two stars in a row inside of a block comment, non-ASCII in single quotes, \\U10FFFF, and a number as the very last thing.)", "quantifier": "all files up to 2^57 bytes, all values, all depths", "why_tests_cant": "the grammar describes infinitely many files; separators are optional, so every pair of adjacent tokens matters", "anchors": ["asteria/src/library/system.cpp:std_system_load_conf", "asteria/rocket/ascii_numget.cpp:parse_I", "doc/sample.conf", "doc/standard-library.md:std.system.load_conf"]}
{"id": "C119", "title": "load_conf accepts nothing but configuration files", "statement": "If std.system.load_conf succeeds, the content of the file is a configuration file and the result is the object it describes. (FALSE of the code: characters in single-quoted strings are truncated to bytes, so 'é' gives an invalid UTF-8 string; 5e-1 gives the integer 0; 5b:6 is taken as a number and a key. Witnesses proved; what is accepted is proved to be exactly derivable in the grammar with these changes, for all files.)", "quantifier": "all files up to 2^57 bytes and all results", "why_tests_cant": "infinitely many malformed files", "anchors": ["asteria/src/library/system.cpp:std_system_load_conf"]}
{"id": "C120", "title": "load_conf has no undefined behaviour", "statement": "Whatever the content of the file, std.system.load_conf returns a value or throws an exception; no array is accessed out of bounds and no assertion fails. (FALSE of the code: valid_digits[] is indexed with (uint32_t)-1 if a number ends the file, as in 'a=5' without a line feed, and beyond its 256 elements if a number is followed by a character from U+0100 on; '0x' without digits fails an assertion; lead bytes from 0xFC on overflow a buffer. Witnesses proved; no other file is undefined: proved for every file in which nothing like a number is at the end or before such a character, each 0x or 0b is followed by digits, and no byte is 0xFC or above.)", "quantifier": "all files up to 2^57 bytes", "why_tests_cant": "all byte sequences; the out-of-bounds read usually goes unnoticed", "anchors": ["asteria/src/library/system.cpp:std_system_load_conf"]}
{"id": "C121", "title": "filesystem.read returns the stated part of a file however transfers are split", "statement": "std.filesystem.read(path, offset, limit) returns exactly the bytes of the file from offset (or the beginning) on, at most limit of them (or all of them); it throws an exception only if the offset is negative, the path has a null character, the file does not exist or a system call fails; signed arithmetic never overflows.", "quantifier": "all files up to 2^63-1 bytes, all offsets and limits, all ways in which the system splits or fails reads", "why_tests_cant": "all sequences of short reads and all file sizes", "anchors": ["asteria/src/library/filesystem.cpp:std_filesystem_read"]}
{"id": "C122", "title": "filesystem.stream delivers consecutive blocks with their offsets", "statement": "std.filesystem.stream calls the callback with nonempty blocks that follow each other without gaps or overlaps, each with its absolute offset, beginning at offset; if it returns, the blocks make up what read would return and the result is their total length; if a callback throws, no further block is delivered.", "quantifier": "all files up to 2^63-1 bytes, all callbacks, all offsets and limits, all ways in which the system splits or fails reads", "why_tests_cant": "all sequences of short reads and callbacks", "anchors": ["asteria/src/library/filesystem.cpp:std_filesystem_stream"]}
{"id": "C123", "title": "filesystem.write and append store all data or report failure", "statement": "If std.filesystem.write(path, offset, data) returns, the file is its first offset bytes (zeros where it had none; nothing if there is no offset) followed by data; append keeps everything and with exclusive requires that no file exists; other files and permissions do not change; a new file has mode 0666 less the umask. After an exception a prefix of the data may have been written and nothing else.", "quantifier": "all files, data, offsets, all ways in which the system splits or fails writes", "why_tests_cant": "all sequences of short writes and failures", "anchors": ["asteria/src/library/filesystem.cpp:std_filesystem_write", "asteria/src/library/filesystem.cpp:std_filesystem_append", "asteria/src/library/filesystem.cpp:do_write_loop"]}
{"id": "C124", "title": "filesystem.copy copies contents and permissions", "statement": "If std.filesystem.copy(path_new, path_old) returns, path_new has the contents and the mode that path_old had, path_old is unchanged, and so is every other file; after an exception the new file has a prefix of the contents, and nobody can read it if it has been created. (FALSE of the code when both paths lead to the same file: it is truncated before it is read, and copy returns normally; witness proved, and proved to happen for all such paths. Proved for paths that lead to different files.)", "quantifier": "all files, block sizes, all ways in which the system splits or fails transfers", "why_tests_cant": "all sequences of short reads and writes, aliasing of paths", "anchors": ["asteria/src/library/filesystem.cpp:std_filesystem_copy"]}
{"id": "C125", "title": "remove_recursive removes exactly what the path leads to and counts it", "statement": "When no other process interferes, std.filesystem.remove_recursive(path) terminates, removes the file or directory that path leads to with everything below it and nothing else, does not follow links, and returns the number of files and directories removed, 0 if there is none; if a system call fails it throws, and the directory is still there. (FALSE of the code if the path goes through a link below the directory itself: removing the link breaks the path, and the function returns normally with the directory still there; witness proved. Proved for all paths that keep leading to the directory, in particular for all without links.)", "quantifier": "all trees of any depth and width, all paths, whichever calls fail and whichever types readdir tells", "why_tests_cant": "unbounded trees, all failures", "anchors": ["asteria/src/library/filesystem.cpp:std_filesystem_remove_recursive"]}
{"id": "C126", "title": "remove_recursive removes nothing outside of the directory", "statement": "Whatever other processes do inside the directory while it is removed, std.filesystem.remove_recursive removes nothing outside of it. (FALSE of the code: directories are opened by path following links, so a process that replaces a subdirectory by a link after its parent has been listed has the target of the link emptied; witness proved. Proved when no other process changes the files, whichever calls fail.)", "quantifier": "all trees, all paths, all interleavings of changes", "why_tests_cant": "requires a race", "anchors": ["asteria/src/library/filesystem.cpp:std_filesystem_remove_recursive"]}
{"id": "C127", "title": "Calls that use standard streams leave them unlocked", "statement": "A call of std.io.getc, getln, read, putc, putln, putf, putfln or write leaves the lock of the stream as it has found it, whether it returns or throws. (FALSE of the code: the constructor of IOF_Sentry locks the stream and throws if its error indicator is set or freopen() fails; the destructor does not run. Witness proved; exactly when it happens is proved, and that after an error every further call throws and locks the stream once more.)", "quantifier": "all streams, calls, failures of the C library, sequences of calls of any length", "why_tests_cant": "requires failing streams and other threads", "anchors": ["asteria/src/library/io.cpp:IOF_Sentry"]}
{"id": "C128", "title": "Reading from standard input delivers all characters, lines and bytes in order", "statement": "Successive calls of std.io.getc, getln and read deliver the input in order without loss or repetition: getc the next character or null at the end, getln the next line without its line feed and null after the last one, read at most limit bytes. (FALSE of the code when text and binary functions are mixed: freopen() loses what has been read ahead from a pipe, and restarts a regular file; two witnesses proved. Proved for calls of one kind.)", "quantifier": "all texts, limits, streams, numbers of calls", "why_tests_cant": "all inputs, buffering of the C library", "anchors": ["asteria/src/library/io.cpp:std_io_getc", "asteria/src/library/io.cpp:std_io_getln", "asteria/src/library/io.cpp:std_io_read"]}
{"id": "C129", "title": "Writing to standard output writes exactly the text and counts its characters", "statement": "std.io.putc, putln, putf, putfln append exactly the UTF-8 text (and a line feed) to what has been written and return the number of characters, and write appends exactly the bytes; if they throw, a prefix has been written; lines written by putln are what getln reads. (FALSE of the code for strings such as C3 41, which are accepted and written as something else; and when text and binary functions are mixed, a regular file is truncated; witnesses proved. Proved for strings in which lead bytes are followed by continuation bytes, and functions of one kind.)", "quantifier": "all strings, integers, streams, failures of the C library", "why_tests_cant": "all strings and failures", "anchors": ["asteria/src/library/io.cpp:std_io_putc", "asteria/src/library/io.cpp:std_io_putln", "asteria/src/library/io.cpp:std_io_write", "asteria/src/library/io.cpp:do_write_utf8_common"]}
{"id": "C130", "title": "std.system.pipe does not hang", "statement": "While std.system.pipe has not ended, either it or the program that it has started goes on; and it takes a bounded number of steps for each step of the program. (FALSE of the code: the pipe to the program is in blocking mode, so write() does not return before all of the input is written, and nothing reads the output meanwhile; for every capacity of pipes, `cat` with an input longer than two pipes and two bytes may hang for ever; proved. Proved: this is the only way to hang, both pipes being full and the program writing; an input that fits into a pipe never hangs.)", "quantifier": "all programs, inputs, capacities, interleavings of unbounded length", "why_tests_cant": "needs a certain interleaving and large data", "anchors": ["asteria/src/library/system.cpp:std_system_pipe"]}
{"id": "C131", "title": "std.system.pipe returns what the program has written", "statement": "std.system.pipe returns exactly what the program has written to its standard output if it exits with status zero and null otherwise; what the program reads is the input from its beginning. (FALSE of the code if the program closes its standard input early: POLLOUT is checked before POLLERR, so the calling process is killed by SIGPIPE, or if that is ignored an exception is thrown; witnesses proved. Proved: whenever it returns the result is right, and otherwise the program has closed its standard input before it has read all of the input.)", "quantifier": "all programs, inputs, capacities, interleavings of unbounded length", "why_tests_cant": "all interleavings", "anchors": ["asteria/src/library/system.cpp:std_system_pipe"]}
{"id": "C132", "title": "std.system.random_uuid gives version-4 UUIDs, all equally likely", "statement": "std.system.random_uuid returns 36 characters of the form xxxxxxxx-xxxx-4xxx-Nxxx-xxxxxxxxxxxx in lowercase where N is one of 8, 9, a and b; and each such string is returned for exactly 64 of the 2^128 values that the random bytes may have, so all of them are equally likely.", "quantifier": "all values of the 16 random bytes, all UUIDs", "why_tests_cant": "2^128 values", "anchors": ["asteria/src/library/system.cpp:std_system_random_uuid"]}
{"id": "C133", "title": "Optimization levels 0 and 1 do the same", "statement": "A function that is compiled at optimization level 1 (constants folded into operators and `return`, arguments evaluated on the alternative stack) does the same as it does when it is compiled at level 0: a call returns the same reference, throws the same exception or does not return in either case, and leaves the same variables and output; and the same source is accepted. This is false: if an argument of a call in the operand of `catch` throws, the stacks stay swapped and a following `return 5` returns something else. It holds for all source without calls in operands of `catch`.", "quantifier": "all source text that the parser accepts, all functions (native ones being arbitrary), all states outside functions, all arguments, all executions of any length", "why_tests_cant": "programs, inputs and executions are unbounded", "anchors": ["asteria/src/compiler/expression_unit.cpp:Expression_Unit::generate_code", "asteria/src/compiler/statement.cpp:Statement::generate_code", "asteria/src/runtime/air_node.cpp:AIR_Node::solidify", "asteria/src/runtime/air_optimizer.cpp:AIR_Optimizer::reload"]}
{"id": "C134", "title": "What std.zlib compresses, std.zlib decompresses", "statement": "std.zlib.inflate(std.zlib.deflate(data, level)) and std.zlib.gunzip(std.zlib.gzip(data, level)) return data for every level that is not negative; and so do Deflator and Inflator objects however the data and the stream are cut into calls of update, with flush called anywhere. No call loops for ever or throws. This needs zlib to do what zlib.h says, and one thing more that it does not say: having read the last byte of a stream, inflate() has at most 4096 more bytes to output (Inflator::finish takes Z_BUF_ERROR for an error).", "quantifier": "all data, cuts, calls of update and flush, levels, and libraries that do what zlib.h says", "why_tests_cant": "data, cuts and the library's internal buffering are unbounded", "anchors": ["asteria/src/library/zlib.cpp:Deflator::update", "asteria/src/library/zlib.cpp:Deflator::finish", "asteria/src/library/zlib.cpp:Inflator::update", "asteria/src/library/zlib.cpp:Inflator::finish", "asteria/src/library/zlib.cpp:std_zlib_deflate", "asteria/src/library/zlib.cpp:std_zlib_inflate"]}
{"id": "C135", "title": "What a Deflator has flushed, an Inflator outputs", "statement": "When flush of a Deflator has returned, an Inflator which has been passed the output so far, however it is cut, has output all of the data so far when its flush returns.", "quantifier": "all data, cuts, calls of update and flush, levels, and libraries that do what zlib.h says", "why_tests_cant": "data, cuts and the library's internal buffering are unbounded", "anchors": ["asteria/src/library/zlib.cpp:Deflator::flush", "asteria/src/library/zlib.cpp:Inflator::flush"]}
{"id": "C136", "title": "clear makes a Deflator or Inflator as new", "statement": "As documented, clear discards both input and output, and afterwards the object does the same as a new one. (FALSE of the code: the member output is kept, so finish later returns the old output followed by the new stream; witness proved. Proved: after clear, and if output is set to the empty string, the object is as new, even after exceptions; otherwise what is returned is the old output and then a stream of the new data. Between finish and clear, finish returns the same again, and flush and update throw.)", "quantifier": "all data, cuts, calls of update and flush, levels, and libraries that do what zlib.h says", "why_tests_cant": "data, cuts and the library's internal buffering are unbounded", "anchors": ["asteria/src/library/zlib.cpp:Deflator::clear", "asteria/src/library/zlib.cpp:Inflator::clear", "asteria/src/library/zlib.cpp:do_construct_Deflator", "asteria/src/library/zlib.cpp:do_construct_Inflator"]}
{"id": "C137", "title": "std.zlib.Deflator rejects wrong formats and levels", "statement": "As documented, an exception is thrown if and only if the format is not one of deflate, gzip and raw, or the level is not from 0 to 9. (FALSE of the code: a level above 9 is taken for 9; witness proved. Proved: it is thrown if and only if the format is wrong or the level is negative, and otherwise the compressor is set up for that format and the lesser of the level and 9.)", "quantifier": "all formats and levels", "why_tests_cant": "64-bit integers and strings", "anchors": ["asteria/src/library/zlib.cpp:do_wbits", "asteria/src/library/zlib.cpp:do_level", "asteria/src/library/zlib.cpp:std_zlib_Deflator"]}
{"id": "C138", "title": "std.zlib.inflate returns only what a stream stands for", "statement": "std.zlib.inflate and gunzip, for any bytes, either throw or return the data of the stream which the bytes are. (FALSE of the code: bytes after the end of a stream are ignored, and so is a second gzip member; witness proved. Proved: they end for any bytes, and return the data d if and only if the bytes begin with a complete stream of d, so truncated streams are refused.)", "quantifier": "all byte strings, all libraries that do what zlib.h says", "why_tests_cant": "data, cuts and the library's internal buffering are unbounded", "anchors": ["asteria/src/library/zlib.cpp:Inflator::update", "asteria/src/library/zlib.cpp:Inflator::finish", "asteria/src/library/zlib.cpp:std_zlib_inflate", "asteria/src/library/zlib.cpp:std_zlib_gunzip"]}
{"id": "C139", "title": "std.gc does what it says with generations, thresholds and counts", "statement": "Every function of std.gc throws for a generation other than 0, 1 and 2 and for no other reason. set_threshold returns what get_threshold returned; afterwards get_threshold returns the new threshold, capped to the range from 0 to PTRDIFF_MAX; the other thresholds do not change. std.gc.collect returns by how much the sum of count_variables over the generations has fallen. When the collector is finalized, the number that is returned is that of all variables that it held, no tracked variable is initialized, and none is held.", "quantifier": "all integers, all states that a collector can get into, all memory", "why_tests_cant": "64-bit integers and unbounded object graphs", "anchors": ["asteria/src/library/gc.cpp:std_gc_count_variables", "asteria/src/library/gc.cpp:std_gc_get_threshold", "asteria/src/library/gc.cpp:std_gc_set_threshold", "asteria/src/library/gc.cpp:std_gc_collect", "asteria/src/runtime/garbage_collector.cpp:collect_variables", "asteria/src/runtime/garbage_collector.cpp:finalize"]}
{"id": "C140", "title": "Automatic collection keeps the young generations within their thresholds", "statement": "However a program creates variables, collects and changes thresholds: when a variable has been created, the youngest generation has no more variables than its threshold, or just the new one, and the middle one has fewer than its threshold, or none. Nothing is collected while all counters are below their thresholds.", "quantifier": "all sequences of operations and all memory, where the collector holds every variable that is referred to once", "why_tests_cant": "executions are unbounded", "anchors": ["asteria/src/runtime/garbage_collector.cpp:create_variable", "asteria/src/runtime/garbage_collector.cpp:do_collect_generation"]}
{"id": "C141", "title": "With thresholds of zero, or std.gc.collect(), no garbage is left", "statement": "If all thresholds are zero, then creating a variable collects every variable that the program cannot get at, in all generations, also those in cycles across generations; so does std.gc.collect(). (The manual says that a threshold of zero ensures that all unreachable variables are collected immediately: for one generation only that is not so, witness proved; and it is done when the next variable is created.)", "quantifier": "all states, all memory, where references are in the values of tracked variables or of things that the program can get at", "why_tests_cant": "all object graphs", "anchors": ["asteria/src/runtime/garbage_collector.cpp:create_variable", "asteria/src/runtime/garbage_collector.cpp:collect_variables"]}
{"id": "C142", "title": "A variable that the collector hands out is like a new one", "statement": "The variable from create_variable is not initialized and not const, so that a host which initializes a new global variable from Simple_Script::open_global_variable gets one that scripts can modify. (FALSE of the code: a const variable that was collected is still const when it is handed out again; witness proved. Proved: it is not initialized, and it is not const if no variable that the collector held was; and variables that scripts declare are const exactly if declared so, whatever is handed out.)", "quantifier": "all states and memory", "why_tests_cant": "it depends on what was collected before", "anchors": ["asteria/src/runtime/garbage_collector.cpp:create_variable", "asteria/runtime/variable.hpp:uninitialize", "asteria/src/simple_script.cpp:open_global_variable"]}
{"id": "C143", "title": "A variable that the collector hands out is not in use", "statement": "create_variable never returns a variable that the program can get at otherwise. (FALSE of the code, as a consequence of C54: a variable that a function still uses can be handed out, and is then two variables at once; witness proved. Proved: it does not if the collections meet the condition of C54.)", "quantifier": "all states and memory", "why_tests_cant": "all object graphs", "anchors": ["asteria/src/runtime/garbage_collector.cpp:create_variable"]}
{"id": "C144", "title": "get_environment_variable and get_environment_variables agree", "statement": "For every name, std.system.get_environment_variable(name) returns what std.system.get_environment_variables() has as the field with that name, and null if it has none. (FALSE of the code: for a variable that is in the environment twice, one returns the first value and the other has the last; a string without = is a field but not a variable; witness proved. Proved: they agree, and return what is in the environment, if every string is a name, = and a value and names are distinct; otherwise, first and last.)", "quantifier": "all environments, all names", "why_tests_cant": "environments are unbounded, and tests have ordinary ones", "anchors": ["asteria/src/library/system.cpp:std_system_get_environment_variable", "asteria/src/library/system.cpp:std_system_get_environment_variables"]}
{"id": "C145", "title": "std.system.call launches what it is told and returns how it ended", "statement": "std.system.call(cmd, argv, envp) launches the program cmd with exactly the arguments cmd and those of argv, and with exactly the environment envp (empty if not given), if all of these are strings without null characters; otherwise it throws and launches nothing. However often the program is stopped and continued, the result is its exit status, or 128+N if signal N has killed it. It throws if the program cannot be launched or awaited.", "quantifier": "all arguments, all sequences of events", "why_tests_cant": "sequences of events are unbounded", "anchors": ["asteria/src/library/system.cpp:std_system_call"]}
{"id": "C146", "title": "A string stream is a seekable file", "statement": "Every sequence of operations on a tinyfmt_str (seek, tell, getn, getc, putn, putc, set_string, clear_string, extract_string) gives what the same sequence on a file gives that is opened with the same mode: reading is from the position, writing replaces what is at the position (or is at the end, if appending), keeps what precedes and follows, and fills a gap with zeroes; where the file reports an error, it throws. (FALSE of the code: a write that ends before the end cuts off what follows, and an empty write cuts off at the position or fills up to it; witness proved. Proved: it is true of all sequences in which every write reaches the end; exactly those writes do what a file does; no sequence has undefined behaviour.)", "quantifier": "all sequences of operations, all contents, all positions", "why_tests_cant": "sequences and contents are unbounded", "anchors": ["asteria/rocket/tinyfmt_str.hpp:putn", "asteria/rocket/tinyfmt_str.hpp:putc", "asteria/rocket/tinyfmt_str.hpp:seek", "asteria/rocket/tinyfmt_str.hpp:getn"]}
{"id": "C147", "title": "putn_latin1 writes all characters", "statement": "putn_latin1(s, n) on a string stream leaves it exactly as putn with all n extended characters would, or throws if that would throw; if n is zero it does nothing.", "quantifier": "all strings, all states of the stream", "why_tests_cant": "lengths relative to the block size are unbounded", "anchors": ["asteria/rocket/tinyfmt.hpp:putn_latin1"]}
{"id": "C148", "title": "A buffer stream is a queue", "statement": "Reading from a tinyfmt_ln takes from the front, writing puts at the back, and putn_latin1 puts all characters at the back; reading throws if and only if the stream is not readable, writing only if it is not writable or the length limit would be exceeded; tell gives -1 and seek throws.", "quantifier": "all contents, all modes, all arguments", "why_tests_cant": "contents are unbounded", "anchors": ["asteria/rocket/tinyfmt_ln.hpp"]}
{"id": "C149", "title": "Opening a file asks for what the mode says", "statement": "tinyfmt_file::open asks for reading if and only if the mode has open_read, for writing if and only if it has open_write, and for appending, creating and truncating only if it also has open_write; the mode string of the stream is one that POSIX permits with these flags, it fits its array, and it appends if and only if the descriptor does. It throws if neither reading nor writing is named. O_EXCL is passed without O_CREAT if and only if open_exclusive is given without both open_write and open_create.", "quantifier": "all modes", "why_tests_cant": "the combinations are many", "anchors": ["asteria/rocket/tinyfmt_file.hpp:open"]}
{"id": "C150", "title": "Reference counting deletes what nothing points to, once", "statement": "In whatever order threads proceed, programs that use only variables and members of objects that something points to have no undefined behaviour: an object that something points to exists, no object is deleted twice, no assertion about a counter fails, deletions that have been begun end, and every step does to the pointers what it says (copying and moving a pointer to itself changes nothing) and to no other pointer anything. When nothing that has been begun is left to be done, an object exists if and only if something points to it, use_count is the number of pointers to it, and, if no variable points to anything and there is no circle of objects, nothing exists. A circle is never deleted.", "quantifier": "all programs, all interleavings, all numbers of objects, pointers and members", "why_tests_cant": "programs, interleavings and objects are unbounded", "anchors": ["asteria/rocket/refcnt_ptr.hpp", "asteria/rocket/details/refcnt_ptr.ipp:stored_pointer", "asteria/rocket/reference_counter.hpp"]}
{"id": "C151", "title": "Sharing storages between threads is no data race", "statement": "Whatever threads do with strings, vectors and maps that share a storage, each through references of its own (read, copy, drop, mutate, hand over to another thread with synchronization), is no data race, in whatever order they proceed and whatever values atomic loads may read; no storage is accessed after it has been destroyed; it is destroyed exactly when the last reference is dropped; and unique() is never true for an owner that is not the only one. (FALSE of the code as to mutation: unique() loads the counter with memory_order_relaxed, so what a former owner read before it dropped its reference does not happen before what is written thereafter, which is a data race by the rules of C++; witness proved. Proved: the rest; mutation is no data race if every drop by other threads happens before it, or if there is one thread; and nothing would be if the load had memory_order_acquire.)", "quantifier": "all programs, all numbers of threads, all executions the memory model permits", "why_tests_cant": "executions that reorder relaxed accesses do not occur on the machine of the tests", "anchors": ["asteria/rocket/reference_counter.hpp:unique", "asteria/rocket/reference_counter.hpp:increment", "asteria/rocket/reference_counter.hpp:decrement", "asteria/rocket/details/cow_string.ipp:mut_data_opt", "asteria/rocket/details/cow_vector.ipp:mut_data_opt", "asteria/rocket/details/cow_hashmap.ipp:mut_buckets_opt"]}
{"id": "C152", "title": "Destroying a value needs no recursion and destroys exactly what nothing else refers to", "statement": "Destroying a value, however deeply arrays and objects are nested in it and however much of it is shared with other values, is defined, ends, and never calls the destructor of a value from within itself. Thereafter exactly those arrays and objects exist that can be got at from other values, and they are unchanged; each of the others has been deallocated once, and each string, opaque object and function in them has been destroyed once. If memory for the explicit stack cannot be allocated, the rest is leaked, but nothing is destroyed twice and nothing that other values refer to is changed.", "quantifier": "all values, all nestings and sharing, all points of failure of memory allocation", "why_tests_cant": "depths and shapes of nesting have no bound; allocation failures inside a destructor cannot be provoked by scripts", "anchors": ["asteria/src/value.cpp:do_destroy_variant_slow", "asteria/value.hpp:~Value", "asteria/rocket/details/cow_vector.ipp:do_reset", "asteria/rocket/details/cow_vector.ipp:do_destroy_storage"]}
{"id": "C153", "title": "A variant always has one object of the type its index tells", "statement": "Whatever is done with variants (construction, copying, moving, assignment of values and of variants, also to themselves, swapping, emplacement, destruction), and whichever copy constructors throw: every variant has exactly one object of the alternative type that its index tells (or, after it has been moved away from, is its first alternative if that is trivial), no object is destroyed twice or leaked, each operation has its effect on the variants it names and on no others, and if an operation throws, nothing has changed unless an assignment operator of an alternative type has thrown. (FALSE of the code for an argument that the present alternative owns: without a backup, the old alternative is destroyed before the argument is read, as in `value = value.as_array()[0]`; witness proved. Proved: all the rest, also with such arguments if the type is the same or a backup is made.)", "quantifier": "all alternative types, all programs, all points of failure", "why_tests_cant": "exceptions from copy constructors are hard to provoke; leaked objects and reads of destroyed ones go unnoticed", "anchors": ["asteria/rocket/variant.hpp:operator=", "asteria/rocket/variant.hpp:swap", "asteria/rocket/variant.hpp:emplace", "asteria/rocket/details/variant.ipp:dispatch_move_then_destroy", "asteria/value.hpp:operator="]}
{"id": "C154", "title": "A static_vector is a list of at most as many elements as its capacity", "statement": "Whatever calls are made on a static_vector (append, push_back, insert, erase, pop_back, clear, resize, reserve, assign, element access, copying, moving, swapping, destruction), it has exactly the elements that the same calls make of a list; a call throws exactly if there is no such position or no room, and then the elements are unchanged (assign leaves none); every object is constructed and destroyed once, and nothing outside of the storage is touched. (FALSE of the code: (1) with a capacity of 256, 65536 or 2^32, adding the last element makes the size zero, because the type of the counter is chosen for the capacity minus one; (2) ranges of input iterators are not checked for room. Witnesses proved; partial theorems for all the rest.)", "quantifier": "all capacities, all sequences of calls, all elements", "why_tests_cant": "the capacities in use are 1, 24 and 128; lifetimes of objects are not observed", "anchors": ["asteria/rocket/static_vector.hpp", "asteria/rocket/details/static_vector.ipp:nelem_type", "asteria/rocket/details/static_vector.ipp:emplace_back_unchecked", "asteria/rocket/details/static_vector.ipp:exchange_with"]}
{"id": "C155", "title": "An optional is a value or none", "statement": "Construction, assignment (of nothing, of values, of optional values of the same or of other types, copied or moved), emplacement, swapping, observers and comparison of optional do what they do for a value that may be missing; value() throws if there is none. (FALSE of the code for construction from an lvalue of another optional type: the test is the wrong way round, so a value is lost, and none fails an assertion; witness proved for all values; partial theorem otherwise.)", "quantifier": "all states, all values, all conversions", "why_tests_cant": "the converting constructor is a template that no test instantiates", "anchors": ["asteria/rocket/optional.hpp:optional", "asteria/rocket/optional.hpp:operator=", "asteria/rocket/optional.hpp:value_or_emplace", "asteria/rocket/optional.hpp:operator=="]}
{"id": "C156", "title": "Wide characters are read from files and written to them unchanged", "statement": "In a UTF-8 locale, xfgetn and xfgetc deliver the characters of a file of UTF-8 as UTF-32 or UTF-16, wherever the calls stop; xfputn writes UTF-32 and UTF-16 as UTF-8, also if a pair of surrogates is in two calls, writes a question mark for what is not a character, and returns the number of bytes; what is written is read again; xfgetn for bytes stops after the first newline and loses nothing; putmbn puts a string of UTF-8 into a wide formatter as its characters, at most 128 at a time. (FALSE of the code: (1) xfgetn for char16_t drops the byte after each character outside of the basic plane, and at the end of the file does not deliver the trailing surrogate; xfgetc is right. (2) If the file ends in the middle of a character, the call after the one that reports the end delivers a null character. (3) putmbn into a char16_t formatter does not put the trailing surrogate of the last character. All three proved for all such characters; partial theorems otherwise.)", "quantifier": "all lists of characters, all numbers of characters per call, all ways of cutting the units into calls, every C library that reads and writes UTF-8", "why_tests_cant": "tests of files use narrow characters and the basic plane", "anchors": ["asteria/src/rocket/xuchar.cpp:do_xfgetn_common", "asteria/src/rocket/xuchar.cpp:do_xfputn_common", "asteria/src/rocket/tinyfmt.cpp:do_putmbn_common"]}
{"id": "C157", "title": "Exceptions have complete backtraces", "statement": "An exception has a frame for where it was thrown and one for each expression, function, try block, catch clause and deferred statement that it leaves, in order; if it was thrown while another exception was being handled, the frames of that one, in order, are in the place where its handling ends, and none is lost, also if deferred expressions throw while a scope is left. The message of the exception is at all times that of the present frames: their numbers are aligned on the right, and printed values of more than 80 bytes are cut after 60 with the number of omitted bytes. __backtrace in a catch clause has the same frames with type, file, line, column and value. No call throws or writes outside of its buffer.", "quantifier": "all values, all sequences of events, all exceptions being handled, all numbers of frames below 2^64", "why_tests_cant": "tests do not nest exceptions in deferred expressions and catch clauses, and have fewer than ten frames", "anchors": ["asteria/runtime/runtime_error.hpp:Runtime_Error", "asteria/src/runtime/runtime_error.cpp:do_insert_frame", "asteria/src/runtime/executive_context.cpp:do_on_scope_exit_exceptional_slow", "asteria/src/runtime/air_node.cpp:S_try_statement"]}
{"id": "C158", "title": "Values are printed and dumped completely", "statement": "Value::print_to, which messages and backtraces use, writes a value in one line, with all elements of arrays and members of objects in order, strings and keys escaped, and only printable characters whatever they contain; Value::dump and std.debug.dump write types and sizes, and each element in a line of its own that is indented by its depth, or all in one line if the indention is zero; the indention of std.debug.dump is 2 unless given and clamped to 0 and 40. Both end, whatever the depth, without recursion and without touching an element that does not exist.", "quantifier": "all values of any depth and size, all indentions", "why_tests_cant": "tests compare few values of depth two at most", "anchors": ["asteria/src/value.cpp:Value::print_to", "asteria/src/value.cpp:Value::dump", "asteria/src/library/debug.cpp:std_debug_dump"]}
{"id": "C159", "title": "Directories, links and files are created, removed and moved as documented", "statement": "std.filesystem.create_directory makes an empty directory and returns 1, or returns 0 if the path leads to a directory, also if another process makes it at the same time; remove_directory and remove take away an empty directory, or a file or link itself, and return 1, or 0 if there is nothing; symlink makes a link where nothing has been; move puts what is at the old path, with all below it, at the new path. Nothing else changes, and nothing changes if there is an exception.", "quantifier": "all trees, all paths with links, all failures and concurrent changes", "why_tests_cant": "depends on what other processes do between the calls", "anchors": ["asteria/src/library/filesystem.cpp:std_filesystem_create_directory", "asteria/src/library/filesystem.cpp:std_filesystem_remove_directory", "asteria/src/library/filesystem.cpp:std_filesystem_remove", "asteria/src/library/filesystem.cpp:std_filesystem_symlink", "asteria/src/library/filesystem.cpp:std_filesystem_move"]}
{"id": "C160", "title": "Directories are listed completely and properties of files are right", "statement": "std.filesystem.list returns all entries of a directory except . and .. with their numbers and types, or throws an exception if something fails; null if the path does not exist. std.filesystem.get_properties returns the documented fields, with types from the mode, sizes in bytes and times in milliseconds rounded down, and is defined for all files.", "quantifier": "all directories, all orders and kinds of entries, all failures; all values of struct stat", "why_tests_cant": "failures of readdir() and times far away do not occur in tests", "anchors": ["asteria/src/library/filesystem.cpp:std_filesystem_list", "asteria/src/library/filesystem.cpp:std_filesystem_get_properties"]}
{"id": "C161", "title": "Recursion is stopped before the stack overflows", "statement": "Copying a Recursion_Sentry throws exactly if the copy is 1 MiB or more below its base (or more than 1 MiB above it); hence calls within calls which do not throw use less than 1 MiB of the stack, and n calls that use at least f bytes each end with an exception once n * f reaches 1 MiB.", "quantifier": "all 64-bit addresses below 2^63, all depths and sizes of frames", "why_tests_cant": "depends on where objects are on the stack", "anchors": ["asteria/recursion_sentry.hpp:Recursion_Sentry", "asteria/src/simple_script.cpp:Simple_Script::execute"]}
{"id": "C162", "title": "The standard library has the version that is requested", "statement": "For every requested API version, Global_Context has exactly those modules in std which are not newer, and std.version.major and std.version.minor are the version of the newest of them; the binary search stays within the table; max_api_version is 2.0.", "quantifier": "all requested versions; all sorted tables of modules", "why_tests_cant": "tests request one version", "anchors": ["asteria/src/runtime/global_context.cpp:Global_Context::Global_Context", "asteria/src/library/version.cpp:create_bindings_version"]}
{"id": "C163", "title": "Global variables of scripts are found, created and erased by name", "statement": "Simple_Script::open_global_variable returns a variable that get_global_variable_opt and opening it again return from then on, and that is new exactly if there was none; erase_global_variable tells whether the name existed, which then it does not; no other name is affected.", "quantifier": "all tables of names and all names", "why_tests_cant": "tests open few names", "anchors": ["asteria/src/simple_script.cpp:Simple_Script::open_global_variable", "asteria/src/simple_script.cpp:Simple_Script::erase_global_variable"]}
{"id": "C164", "title": "Messages on standard error cannot be forged", "statement": "Whatever message is passed to write_log_to_stderr (by std.debug.logf, for example), the bytes written are one line whose only line feed is its last byte and which has no control characters except tabs and ESC E. A message of plain lines is written line by line after the date and time, function, file and line. Control characters other than tab, line feed and carriage return are written as distinct names in brackets.", "quantifier": "all messages, valid local times of years 1000 to 9999, plain names of files and functions, and line numbers", "why_tests_cant": "tests log few messages, and do not look at standard error", "anchors": ["asteria/src/utils.cpp:write_log_to_stderr", "asteria/src/library/debug.cpp:std_debug_logf"]}
{"id": "C165", "title": "Exceptions of native code have the whole message", "statement": "The text of an exception thrown by throw_runtime_error is the message without blanks at its end, followed by the function, file and line where it was thrown.", "quantifier": "all messages with a byte that is not blank, plain names of files and functions, all line numbers", "why_tests_cant": "depends on bytes in the message", "anchors": ["asteria/src/utils.cpp:throw_runtime_error"]}
{"id": "C166", "title": "std.debug.logf writes one line with the formatted message", "statement": "std.debug.logf throws exactly if the template has null bytes or is no valid format string. Otherwise it passes to write() one line, with the message that std.string.format composes (strings as they are, other values as printed), without line feeds before its end and without control characters except tabs and ESC E, and returns what write() returns, or null if that is negative.", "quantifier": "all templates, all lists of fewer than 2^32 - 1 values, all results of write()", "why_tests_cant": "tests do not read standard error", "anchors": ["asteria/src/library/debug.cpp:std_debug_logf", "asteria/src/utils.cpp:write_log_to_stderr"]}
