import Verif.Props.ArgReader
import Verif.Props.Args
import Verif.Props.ArrayLib
import Verif.Props.Backtrace
import Verif.Props.Checksum
import Verif.Props.Chrono
import Verif.Props.Codec
import Verif.Props.CodecExact
import Verif.Props.Compare
import Verif.Props.Compound
import Verif.Props.Conf
import Verif.Props.CowHashMap
import Verif.Props.CowString
import Verif.Props.CowVector
import Verif.Props.Csv
import Verif.Props.Dictionary
import Verif.Props.Dirs
import Verif.Props.Env
import Verif.Props.ExecCalls
import Verif.Props.ExecCode
import Verif.Props.ExecDefer
import Verif.Props.ExecEach
import Verif.Props.ExecExpr
import Verif.Props.ExecFlow
import Verif.Props.Files
import Verif.Props.Format
import Verif.Props.Gc
import Verif.Props.GcAuto
import Verif.Props.Globals
import Verif.Props.Ini
import Verif.Props.IniText
import Verif.Props.IntOps
import Verif.Props.Io
import Verif.Props.Json
import Verif.Props.JsonExact
import Verif.Props.Jump
import Verif.Props.LexExact
import Verif.Props.Lexer
import Verif.Props.LinearBuffer
import Verif.Props.Log
import Verif.Props.Logf
import Verif.Props.MemPool
import Verif.Props.Modules
import Verif.Props.NumExp
import Verif.Props.NumText
import Verif.Props.Numeric
import Verif.Props.Operators
import Verif.Props.Opt
import Verif.Props.Optional
import Verif.Props.Order
import Verif.Props.Parser
import Verif.Props.Pipe
import Verif.Props.Print
import Verif.Props.Random
import Verif.Props.RealLiteral
import Verif.Props.RealText
import Verif.Props.Refcnt
import Verif.Props.Remove
import Verif.Props.Rod
import Verif.Props.Safe
import Verif.Props.Scope
import Verif.Props.Script
import Verif.Props.SeqOps
import Verif.Props.Slice
import Verif.Props.Source
import Verif.Props.StaticVector
import Verif.Props.StrFind
import Verif.Props.StrMap
import Verif.Props.StrSearch
import Verif.Props.Stream
import Verif.Props.Subscript
import Verif.Props.Syntax
import Verif.Props.Teardown
import Verif.Props.Uchar
import Verif.Props.Utf
import Verif.Props.Uuid
import Verif.Props.Variant
import Verif.Props.Zlib

/-! The axioms of every theorem named in MANIFEST.json.  Written by tools/audit.py. -/

#print axioms Asteria.Codec.C01_hex_round_trip
#print axioms Asteria.Codec.C80_hex
#print axioms Asteria.Codec.C02_base32_round_trip
#print axioms Asteria.Codec.C02_base32_case_insensitive
#print axioms Asteria.Codec.C80_base32
#print axioms Asteria.Codec.C03_base64_round_trip
#print axioms Asteria.Codec.C80_base64
#print axioms Asteria.Codec.C04_url_round_trip
#print axioms Asteria.Codec.C04_url_encode_safe
#print axioms Asteria.Codec.C05_url_query_round_trip
#print axioms Asteria.Codec.C80_url_query
#print axioms Asteria.Codec.C06_hex_decode_iff
#print axioms Asteria.Codec.C06_hex_decode_sound
#print axioms Asteria.Codec.C06_hex_decode_complete
#print axioms Asteria.Utf.C07_encode_domain
#print axioms Asteria.Utf.C07_encode_well_formed
#print axioms Asteria.Utf.C07_round_trip
#print axioms Asteria.Utf.C07_string_round_trip
#print axioms Asteria.Utf.C07_encode_invalid
#print axioms Asteria.Utf.C08_counterexample
#print axioms Asteria.Utf.C08_validate_partial
#print axioms Asteria.Utf.C08_accepts_well_formed
#print axioms Asteria.Utf.C08_decode_total
#print axioms Asteria.Utf.C08_validate_total
#print axioms Asteria.Utf.C09_encode_domain
#print axioms Asteria.Utf.C09_round_trip
#print axioms Asteria.Utf.C09_validate
#print axioms Asteria.Slice.C10_slice_range
#print axioms Asteria.Slice.C10_slice_bounds
#print axioms Asteria.Slice.C10_slice
#print axioms Asteria.StrSearch.C11_find
#print axioms Asteria.StrSearch.C11_rfind
#print axioms Asteria.StrSearch.C12_replace
#print axioms Asteria.StrSearch.C12_subst_functional
#print axioms Asteria.StrSearch.C12_replace_self
#print axioms Asteria.StrSearch.C12_replace_empty
#print axioms Asteria.StrSearch.C12_replace_empty_range
#print axioms Asteria.StrSearch.C13_implode_explode
#print axioms Asteria.StrSearch.C13_segments
#print axioms Asteria.StrSearch.C13_bytes
#print axioms Asteria.StrSearch.C13_edge
#print axioms Asteria.StrSearch.C14_triml
#print axioms Asteria.StrSearch.C14_trimr
#print axioms Asteria.StrSearch.C14_trim
#print axioms Asteria.StrSearch.C14_leading_unique
#print axioms Asteria.StrSearch.C14_idempotent
#print axioms Asteria.StrSearch.C15_padl
#print axioms Asteria.StrSearch.C15_padr
#print axioms Asteria.StrSearch.C15_empty
#print axioms Asteria.StrSearch.C16_find_of
#print axioms Asteria.StrSearch.C16_rfind_of
#print axioms Asteria.Slice.C17_replace_slice
#print axioms Asteria.Slice.C17_array_agrees
#print axioms Asteria.ArrayLib.C18_sort
#print axioms Asteria.ArrayLib.C18_permutation
#print axioms Asteria.ArrayLib.C18_ksort
#print axioms Asteria.ArrayLib.C19_usort
#print axioms Asteria.ArrayLib.C19_members
#print axioms Asteria.ArrayLib.C19_any
#print axioms Asteria.ArrayLib.C20_lower_bound
#print axioms Asteria.ArrayLib.C20_upper_bound
#print axioms Asteria.ArrayLib.C20_equal_range
#print axioms Asteria.ArrayLib.C20_binary_search
#print axioms Asteria.ArrayLib.C20_no_ub
#print axioms Asteria.ArrayLib.C21_shuffle
#print axioms Asteria.ArrayLib.C21_determined
#print axioms Asteria.ArrayLib.C22_rotate
#print axioms Asteria.ArrayLib.C22_inverse
#print axioms Asteria.ArrayLib.C23_find
#print axioms Asteria.ArrayLib.C23_rfind
#print axioms Asteria.ArrayLib.C23_count
#print axioms Asteria.ArrayLib.C23_exclude
#print axioms Asteria.ArrayLib.C23_max_of
#print axioms Asteria.ArrayLib.C23_min_of
#print axioms Asteria.IntOps.C24_add
#print axioms Asteria.IntOps.C24_sub
#print axioms Asteria.IntOps.C24_mul
#print axioms Asteria.IntOps.C24_inc
#print axioms Asteria.IntOps.C24_dec
#print axioms Asteria.IntOps.C24_neg
#print axioms Asteria.IntOps.C24_abs
#print axioms Asteria.IntOps.C24_div
#print axioms Asteria.IntOps.C24_mod
#print axioms Asteria.IntOps.C25_addm
#print axioms Asteria.IntOps.C25_subm
#print axioms Asteria.IntOps.C25_mulm
#print axioms Asteria.IntOps.C25_unique
#print axioms Asteria.IntOps.C26_adds
#print axioms Asteria.IntOps.C26_subs
#print axioms Asteria.IntOps.C26_muls
#print axioms Asteria.IntOps.C27_negative_count
#print axioms Asteria.IntOps.C27_sll
#print axioms Asteria.IntOps.C27_srl
#print axioms Asteria.IntOps.C27_sra
#print axioms Asteria.IntOps.C27_sla
#print axioms Asteria.IntOps.C28_lzcnt
#print axioms Asteria.IntOps.C28_tzcnt
#print axioms Asteria.IntOps.C28_popcnt
#print axioms Asteria.Numeric.C29_round_trip
#print axioms Asteria.Numeric.C29_in_range
#print axioms Asteria.Numeric.C29_length
#print axioms Asteria.Numeric.C29_orders
#print axioms Asteria.Numeric.C29_digits
#print axioms Asteria.Numeric.C30_rotl
#print axioms Asteria.Numeric.C30_rotr
#print axioms Asteria.Numeric.C30_inverse
#print axioms Asteria.Numeric.C30_other
#print axioms Asteria.Numeric.C31_bump
#print axioms Asteria.Numeric.C31_unit
#print axioms Asteria.Numeric.C31_onto
#print axioms Asteria.NumText.C32_round_trip
#print axioms Asteria.NumText.C32_round_trip_exponent
#print axioms Asteria.NumText.C32_format
#print axioms Asteria.NumText.C32_bases
#print axioms Asteria.NumText.C32_digits
#print axioms Asteria.SeqOps.C33_and
#print axioms Asteria.SeqOps.C33_or
#print axioms Asteria.SeqOps.C33_xor
#print axioms Asteria.SeqOps.C33_not
#print axioms Asteria.SeqOps.C33_negative_count
#print axioms Asteria.SeqOps.C33_sll
#print axioms Asteria.SeqOps.C33_srl
#print axioms Asteria.SeqOps.C33_sla
#print axioms Asteria.SeqOps.C33_sra
#print axioms Asteria.SeqOps.C33_sla_sra
#print axioms Asteria.SeqOps.C33_duplicate
#print axioms Asteria.Hash.C34_refines
#print axioms Asteria.Hash.C34_total
#print axioms Asteria.Hash.C34_spec_put
#print axioms Asteria.Hash.C34_spec_del
#print axioms Asteria.Hash.C35_insert
#print axioms Asteria.Hash.C35_erase
#print axioms Asteria.Hash.C35_merge
#print axioms Asteria.Hash.C35_extract
#print axioms Asteria.Hash.C35_empty
#print axioms Asteria.LinearBuffer.C36_step
#print axioms Asteria.LinearBuffer.C36_pre
#print axioms Asteria.LinearBuffer.C36_history
#print axioms Asteria.LinearBuffer.C36_fifo
#print axioms Asteria.LinearBuffer.C36_copy
#print axioms Asteria.CowVector.C37_step
#print axioms Asteria.CowVector.C37_read
#print axioms Asteria.CowVector.C37_history
#print axioms Asteria.CowVector.C37_no_leak
#print axioms Asteria.HashMap.C38_step
#print axioms Asteria.HashMap.C38_history
#print axioms Asteria.HashMap.C38_erase_range
#print axioms Asteria.HashMap.C38_spec_add
#print axioms Asteria.C39_recursive
#print axioms Asteria.C39_converse
#print axioms Asteria.C39_transitive
#print axioms Asteria.C39_reflexive
#print axioms Asteria.C39_mixed
#print axioms Asteria.C39_total
#print axioms Asteria.C40_exact
#print axioms Asteria.C40_infinite
#print axioms Asteria.C40_nan
#print axioms Asteria.Subscript.C41_partial
#print axioms Asteria.Subscript.C41_false
#print axioms Asteria.Subscript.C41_read
#print axioms Asteria.Subscript.C42_read_after_write
#print axioms Asteria.Subscript.C42_frame
#print axioms Asteria.Subscript.C42_array
#print axioms Asteria.Subscript.C42_object
#print axioms Asteria.Subscript.C42_reference
#print axioms Asteria.Subscript.C43_result
#print axioms Asteria.Subscript.C43_absent
#print axioms Asteria.Subscript.C43_present
#print axioms Asteria.Subscript.C43_frame
#print axioms Asteria.Subscript.C44_locate
#print axioms Asteria.Subscript.C44_copy
#print axioms Asteria.Subscript.C44_throw
#print axioms Asteria.Exec.C45_while
#print axioms Asteria.Exec.C45_do
#print axioms Asteria.Exec.C45_for
#print axioms Asteria.Exec.C45_for_init
#print axioms Asteria.Exec.C45_each
#print axioms Asteria.Exec.C45_switch
#print axioms Asteria.Exec.C45_clauses
#print axioms Asteria.Exec.C45_stop
#print axioms Asteria.Exec.C45_stop_exc
#print axioms Asteria.Exec.C45_then
#print axioms Asteria.Exec.C45_if
#print axioms Asteria.Exec.C45_function
#print axioms Asteria.Exec.C46_accepted
#print axioms Asteria.Exec.C46_block
#print axioms Asteria.Exec.C46_once
#print axioms Asteria.Exec.C46_at_most_once
#print axioms Asteria.Exec.C46_after_registration
#print axioms Asteria.Exec.C46_result
#print axioms Asteria.Exec.C46_exception
#print axioms Asteria.Exec.C47_false
#print axioms Asteria.Exec.C47_partial
#print axioms Asteria.Exec.C47_use_partial
#print axioms Asteria.Operators.C48_values
#print axioms Asteria.Operators.C48_nodes
#print axioms Asteria.Exec.C49_terminator
#print axioms Asteria.Exec.C49_code
#print axioms Asteria.Exec.C49_drop
#print axioms Asteria.Exec.C49_generate
#print axioms Asteria.Exec.C50_caught
#print axioms Asteria.Exec.C50_caught_tail_call
#print axioms Asteria.Exec.C50_sees
#print axioms Asteria.Exec.C50_throw
#print axioms Asteria.Exec.C50_no_exception
#print axioms Asteria.Exec.C50_scope
#print axioms Asteria.Exec.C51_binding
#print axioms Asteria.Exec.C51_varg
#print axioms Asteria.Exec.C51_varg_null
#print axioms Asteria.Exec.C51_bindArgs
#print axioms Asteria.Exec.C52_array
#print axioms Asteria.Exec.C52_object
#print axioms Asteria.Exec.C53_short_circuit
#print axioms Asteria.Exec.C53_result
#print axioms Asteria.Exec.C53_assign
#print axioms Asteria.Gc.C54_exact
#print axioms Asteria.Gc.C54_partial
#print axioms Asteria.Gc.C54_false
#print axioms Asteria.Gc.C54_false_call
#print axioms Asteria.Gc.C54_false_foreign
#print axioms Asteria.Gc.C54_assertion_fails
#print axioms Asteria.Gc.C55_reclaims
#print axioms Asteria.Gc.C55_no_garbage
#print axioms Asteria.Gc.C55_survivors
#print axioms Asteria.Gc.C55_held
#print axioms Asteria.Gc.C55_terminates
#print axioms Asteria.Json.C56_text
#print axioms Asteria.Json.C56_round_trip
#print axioms Asteria.Json.C56_round_trip_spaces
#print axioms Asteria.Json.C56_reparse
#print axioms Asteria.Json.C57_false
#print axioms Asteria.Json.C57_false_string
#print axioms Asteria.Json.C57_partial
#print axioms Asteria.Csv.C58_partial
#print axioms Asteria.Csv.C58_image
#print axioms Asteria.Csv.C58_row_partial
#print axioms Asteria.Csv.C58_second_row
#print axioms Asteria.Csv.C58_false
#print axioms Asteria.Csv.C58_false_backslash
#print axioms Asteria.Csv.C58_false_break
#print axioms Asteria.Csv.C58_false_break2
#print axioms Asteria.Csv.C58_false_cr
#print axioms Asteria.Ini.C59_partial
#print axioms Asteria.Ini.C59_accept
#print axioms Asteria.Ini.C59_false
#print axioms Asteria.Ini.C59_false_bom
#print axioms Asteria.Json.C60_stack
#print axioms Asteria.Json.C60_height
#print axioms Asteria.Json.C60_throws
#print axioms Asteria.Lexer.C61_longest
#print axioms Asteria.Lexer.C61_none
#print axioms Asteria.Lexer.C61_distinct
#print axioms Asteria.Lexer.C61_lex
#print axioms Asteria.Lexer.C62_false
#print axioms Asteria.Lexer.C62_skip_partial
#print axioms Asteria.Lexer.C62_lines_partial
#print axioms Asteria.Lexer.C63_quote
#print axioms Asteria.Lexer.C63_printable
#print axioms Asteria.Lexer.C63_reload
#print axioms Asteria.Parser.C64_sound
#print axioms Asteria.Parser.C64_complete
#print axioms Asteria.Parser.C64_parser
#print axioms Asteria.Parser.C64_unambiguous
#print axioms Asteria.Parser.C64_left
#print axioms Asteria.Parser.C64_tighter
#print axioms Asteria.Parser.C64_right
#print axioms Asteria.Checksum.C65_history
#print axioms Asteria.Checksum.C65_openssl
#print axioms Asteria.Checksum.C65_file
#print axioms Asteria.Checksum.C65_fnv
#print axioms Asteria.Checksum.C65_hex
#print axioms Asteria.Chrono.C66
#print axioms Asteria.Chrono.C66_text
#print axioms Asteria.Chrono.C66_calendar
#print axioms Asteria.Chrono.C66_range
#print axioms Asteria.Chrono.C66_local_partial
#print axioms Asteria.Chrono.C66_local_false
#print axioms Asteria.Modules.C67_partial
#print axioms Asteria.Modules.C67_all_partial
#print axioms Asteria.Modules.C67_key
#print axioms Asteria.Modules.C67_false
#print axioms Asteria.Modules.C67_false_denied
#print axioms Asteria.Format.C68_format
#print axioms Asteria.Format.C68_error
#print axioms Asteria.Format.C68_plain
#print axioms Asteria.Format.C68_doubled
#print axioms Asteria.Compound.C69_partial
#print axioms Asteria.Compound.C69_false_ub
#print axioms Asteria.Compound.C69_false_value
#print axioms Asteria.Subscript.C70_partial
#print axioms Asteria.Subscript.C70_false
#print axioms Asteria.Subscript.C70_false_null
#print axioms Asteria.Subscript.C70_immutable
#print axioms Asteria.C71_safe_double_to_int64
#print axioms Asteria.C71_otherwise
#print axioms Asteria.Exec.C72_false
#print axioms Asteria.Exec.C72_partial
#print axioms Asteria.Exec.C72_rod_partial
#print axioms Asteria.ArrayLib.C73_counterexample
#print axioms Asteria.ArrayLib.C73_ignore_unordered_partial
#print axioms Asteria.ArrayLib.C74_is_sorted
#print axioms Asteria.ArrayLib.C74_counterexample
#print axioms Asteria.ArrayLib.C75_counterexample
#print axioms Asteria.ArrayLib.C75_first_partial
#print axioms Asteria.Random.C76_partial
#print axioms Asteria.Random.C76_default
#print axioms Asteria.Random.C76_throw
#print axioms Asteria.Random.C76_false
#print axioms Asteria.Random.C76_subnormal
#print axioms Asteria.HashMap.C77_partial
#print axioms Asteria.HashMap.C77_false
#print axioms Asteria.HashMap.C77_erase_empty
#print axioms Asteria.Exec.C78_false
#print axioms Asteria.Exec.C78_partial
#print axioms Asteria.Exec.C79_operands
#print axioms Asteria.Exec.C79_false
#print axioms Asteria.Exec.C79_partial
#print axioms Asteria.Codec.C80_url
#print axioms Asteria.Lexer.C81_word
#print axioms Asteria.Lexer.C82_false
#print axioms Asteria.Lexer.C82_operator_partial
#print axioms Asteria.Lexer.C83_false
#print axioms Asteria.Lexer.C83_no_ub_partial
#print axioms Asteria.Lexer.C84_integer
#print axioms Asteria.Lexer.C85_reload
#print axioms Asteria.Lexer.C85_line
#print axioms Asteria.Lexer.C85_unambiguous
#print axioms Asteria.Lexer.C85_bom
#print axioms Asteria.Lexer.C85_shebang
#print axioms Asteria.Lexer.C86_quoted
#print axioms Asteria.Lexer.C86_raw
#print axioms Asteria.Json.C87_good
#print axioms Asteria.Json.C87_norm
#print axioms Asteria.NumText.C88_partial
#print axioms Asteria.NumText.C88_false
#print axioms Asteria.NumText.C88_false_neg
#print axioms Asteria.RealText.C89
#print axioms Asteria.Csv.C90_csv
#print axioms Asteria.Ini.C91_partial
#print axioms Asteria.Ini.C91_false
#print axioms Asteria.Chrono.C92_partial
#print axioms Asteria.Chrono.C92_false
#print axioms Asteria.Operators.C93_generate
#print axioms Asteria.RealText.C94_partial
#print axioms Asteria.RealText.C94_zero
#print axioms Asteria.RealText.C94_digits
#print axioms Asteria.RealText.C94_false
#print axioms Asteria.RealText.C94_false_odd
#print axioms Asteria.ArgReader.C95
#print axioms Asteria.ArgReader.C95_unique
#print axioms Asteria.ArgReader.C96
#print axioms Asteria.Exec.C97_locals_found
#print axioms Asteria.Exec.C97_locals_found_ptc
#print axioms Asteria.Exec.C98_partial
#print axioms Asteria.Exec.EachDemo.C98_false
#print axioms Asteria.Exec.C99_no_assertion_fails_partial
#print axioms Asteria.Exec.C99_calls_balanced_partial
#print axioms Asteria.Exec.C99_enter_no_assertion_fails_partial
#print axioms Asteria.Exec.C99_undefined_is_a_reference_partial
#print axioms Asteria.Syntax.C100_script_well_formed
#print axioms Asteria.Syntax.C100_expression_well_formed
#print axioms Asteria.Syntax.C100_one_result
#print axioms Asteria.Exec.C100_scripts_run_partial
#print axioms Asteria.Syntax.C101_jumps_have_targets
#print axioms Asteria.Syntax.C101_expression_jumps_have_targets
#print axioms Asteria.Syntax.C102_parser_ends
#print axioms Asteria.Syntax.C102_bound_irrelevant
#print axioms Asteria.Exec.C103_no_stray_jumps
#print axioms Asteria.Exec.C103_no_stray_jumps_ptc
#print axioms Asteria.Exec.C103_scripts
#print axioms Asteria.Script.C104_sound
#print axioms Asteria.Script.C104_scripts
#print axioms Asteria.Script.C104_expressions
#print axioms Asteria.Script.C104_unambiguous
#print axioms Asteria.Script.C104_rejects
#print axioms Asteria.Ini.C105_lines
#print axioms Asteria.Ini.C105_unambiguous
#print axioms Asteria.Ini.C105_determined
#print axioms Asteria.Ini.C105_reads
#print axioms Asteria.Ini.C105_throws
#print axioms Asteria.Ini.C105_asserts
#print axioms Asteria.Ini.C105_mark
#print axioms Asteria.MemPool.C106_safe_partial
#print axioms Asteria.MemPool.C106_partition
#print axioms Asteria.MemPool.C106_size
#print axioms Asteria.MemPool.C106_alloc
#print axioms Asteria.MemPool.C106_same_pool
#print axioms Asteria.MemPool.C106_clean
#print axioms Asteria.MemPool.C106_false
#print axioms Asteria.Avm.C107_lists
#print axioms Asteria.Avm.C107_no_leak
#print axioms Asteria.Avm.C107_throws
#print axioms Asteria.Avm.C108_safe
#print axioms Asteria.Avm.C108_contents
#print axioms Asteria.Avm.C108_throws
#print axioms Asteria.Lexer.C109_source
#print axioms Asteria.Lexer.C109_rejects
#print axioms Asteria.Lexer.C109_unambiguous
#print axioms Asteria.Lexer.C109_token
#print axioms Asteria.Lexer.C109_conversion
#print axioms Asteria.Lexer.C109_underscore
#print axioms Asteria.Lexer.C109_separator
#print axioms Asteria.Lexer.C109_inexact
#print axioms Asteria.Source.C110_scripts
#print axioms Asteria.Source.C110_expressions
#print axioms Asteria.Source.C110_rejects
#print axioms Asteria.Source.C110_well_formed
#print axioms Asteria.Lexer.C111
#print axioms Asteria.Lexer.C111_range
#print axioms Asteria.Lexer.C111_exact
#print axioms Asteria.Lexer.C111_no_ub
#print axioms Asteria.Lexer.C111_nearest
#print axioms Asteria.Lexer.C111_decimal_false
#print axioms Asteria.Lexer.C111_underflow_false
#print axioms Asteria.Json.C113_exact
#print axioms Asteria.Json.C113_rejects
#print axioms Asteria.Json.C113_unambiguous
#print axioms Asteria.Json.C113_value
#print axioms Asteria.Json.C113_range
#print axioms Asteria.Json.C114_partial
#print axioms Asteria.Json.C114_false
#print axioms Asteria.Json.C114_number_false
#print axioms Asteria.CowString.C115_step_partial
#print axioms Asteria.CowString.C115_text
#print axioms Asteria.CowString.C115_no_leak
#print axioms Asteria.CowString.C115_history_partial
#print axioms Asteria.CowString.C115_false
#print axioms Asteria.CowString.C115_shallow_false
#print axioms Asteria.StrFind.C116_find_partial
#print axioms Asteria.StrFind.C116_find_zero
#print axioms Asteria.StrFind.C116_false
#print axioms Asteria.StrFind.C116_rfind
#print axioms Asteria.StrFind.C116_find_of
#print axioms Asteria.StrFind.C116_find_not_of
#print axioms Asteria.StrFind.C116_rfind_of
#print axioms Asteria.StrFind.C116_rfind_not_of
#print axioms Asteria.StrFind.C116_char
#print axioms Asteria.StrMap.C117_to_upper
#print axioms Asteria.StrMap.C117_to_lower
#print axioms Asteria.StrMap.C117_translate
#print axioms Asteria.Conf.C118_false
#print axioms Asteria.Conf.C118_false_sample
#print axioms Asteria.Conf.C118_false_escape
#print axioms Asteria.Conf.C118_partial
#print axioms Asteria.Conf.C118_exact_partial
#print axioms Asteria.Conf.C118_unambiguous
#print axioms Asteria.Conf.C119_false
#print axioms Asteria.Conf.C119_false_truncated
#print axioms Asteria.Conf.C119_false_delimited
#print axioms Asteria.Conf.C119_partial
#print axioms Asteria.Conf.C120_false
#print axioms Asteria.Conf.C120_false_wide
#print axioms Asteria.Conf.C120_false_prefix
#print axioms Asteria.Conf.C120_false_utf8
#print axioms Asteria.Conf.C120_partial
#print axioms Asteria.Conf.C120_invalid_partial
#print axioms Asteria.Files.C121_read
#print axioms Asteria.Files.C122_stream
#print axioms Asteria.Files.C123_write
#print axioms Asteria.Files.C123_append
#print axioms Asteria.Files.C124_false
#print axioms Asteria.Files.C124_false_self
#print axioms Asteria.Files.C124_partial
#print axioms Asteria.Remove.C125_false
#print axioms Asteria.Remove.C125_partial
#print axioms Asteria.Remove.C125_direct_partial
#print axioms Asteria.Remove.C125_absent
#print axioms Asteria.Remove.C126_false
#print axioms Asteria.Remove.C126_partial
#print axioms Asteria.Io.C127_false
#print axioms Asteria.Io.C127_partial
#print axioms Asteria.Io.C127_stuck
#print axioms Asteria.Io.C128_false
#print axioms Asteria.Io.C128_false_regular
#print axioms Asteria.Io.C128_getc_partial
#print axioms Asteria.Io.C128_getln_partial
#print axioms Asteria.Io.C128_lines_partial
#print axioms Asteria.Io.C128_read_partial
#print axioms Asteria.Io.C129_false
#print axioms Asteria.Io.C129_false_mixed
#print axioms Asteria.Io.C129_puts_partial
#print axioms Asteria.Io.C129_putln_partial
#print axioms Asteria.Io.C129_putc
#print axioms Asteria.Io.C129_write_partial
#print axioms Asteria.Io.C129_round_trip_partial
#print axioms Asteria.Pipe.C130_false
#print axioms Asteria.Pipe.C130_deadlock
#print axioms Asteria.Pipe.C130_partial
#print axioms Asteria.Pipe.C130_short_partial
#print axioms Asteria.Pipe.C130_steps
#print axioms Asteria.Pipe.C131_false
#print axioms Asteria.Pipe.C131_false_ignored
#print axioms Asteria.Pipe.C131_partial
#print axioms Asteria.Uuid.C132_form
#print axioms Asteria.Uuid.C132_uniform
#print axioms Asteria.Exec.C133_optimization_is_transparent_partial
#print axioms Asteria.Exec.C133_same_sources_compile
#print axioms Asteria.Exec.OptExample.C133_false
#print axioms Asteria.Zlib.C134_compressed
#print axioms Asteria.Zlib.C134_decompressed
#print axioms Asteria.Zlib.C134_round_trip
#print axioms Asteria.Zlib.C134_needs_prompt
#print axioms Asteria.Zlib.C135_flushed
#print axioms Asteria.Zlib.C136_clear_partial
#print axioms Asteria.Zlib.C136_kept
#print axioms Asteria.Zlib.C136_finished
#print axioms Asteria.Zlib.C136_false
#print axioms Asteria.Zlib.C137_arguments_partial
#print axioms Asteria.Zlib.C137_false
#print axioms Asteria.Zlib.C138_decompressed_partial
#print axioms Asteria.Zlib.C138_exactly
#print axioms Asteria.Zlib.C138_false
#print axioms Asteria.Gc.C139_generations
#print axioms Asteria.Gc.C139_thresholds
#print axioms Asteria.Gc.C139_collected
#print axioms Asteria.Gc.C139_finalize
#print axioms Asteria.Gc.C140_bounded
#print axioms Asteria.Gc.C140_not_before
#print axioms Asteria.Gc.C141_zero
#print axioms Asteria.Gc.C141_collect
#print axioms Asteria.Gc.C141_one_is_not_enough
#print axioms Asteria.Gc.C142_new_partial
#print axioms Asteria.Gc.C142_declared
#print axioms Asteria.Gc.C142_false
#print axioms Asteria.Gc.C143_unused_partial
#print axioms Asteria.Gc.C143_false
#print axioms Asteria.Env.C144_agree_partial
#print axioms Asteria.Env.C144_first_and_last
#print axioms Asteria.Env.C144_names
#print axioms Asteria.Env.C144_false
#print axioms Asteria.Env.C145_launched
#print axioms Asteria.Env.C145_status
#print axioms Asteria.Env.C145_failures
#print axioms Asteria.Stream.C146_partial
#print axioms Asteria.Stream.C146_step_partial
#print axioms Asteria.Stream.C146_write
#print axioms Asteria.Stream.C146_truncates
#print axioms Asteria.Stream.C146_defined
#print axioms Asteria.Stream.C146_moved
#print axioms Asteria.Stream.C146_false
#print axioms Asteria.Stream.C147_string
#print axioms Asteria.Stream.C148_queue
#print axioms Asteria.Stream.C148_latin1
#print axioms Asteria.Stream.C149_open
#print axioms Asteria.Stream.C149_exclusive
#print axioms Asteria.Refcnt.C150_defined
#print axioms Asteria.Refcnt.C150_effect
#print axioms Asteria.Refcnt.C150_alive
#print axioms Asteria.Refcnt.C150_once
#print axioms Asteria.Refcnt.C150_exact
#print axioms Asteria.Refcnt.C150_count
#print axioms Asteria.Refcnt.C150_members
#print axioms Asteria.Refcnt.C150_no_leak
#print axioms Asteria.Refcnt.C150_ends
#print axioms Asteria.Refcnt.C150_circle
#print axioms Asteria.Order.C151_partial
#print axioms Asteria.Order.C151_last
#print axioms Asteria.Order.C151_unique
#print axioms Asteria.Order.C151_mutate_partial
#print axioms Asteria.Order.C151_acquire
#print axioms Asteria.Order.C151_alone
#print axioms Asteria.Order.C151_false
#print axioms Asteria.Teardown.C152_no_recursion
#print axioms Asteria.Teardown.C152_others
#print axioms Asteria.Teardown.C152_exact
#print axioms Asteria.Teardown.C152_once
#print axioms Asteria.Teardown.C152_leaks
#print axioms Asteria.Variant.C153_partial
#print axioms Asteria.Variant.C153_good
#print axioms Asteria.Variant.C153_strong
#print axioms Asteria.Variant.C153_get
#print axioms Asteria.Variant.C153_false
#print axioms Asteria.Variant.C153_witness_false
#print axioms Asteria.StaticVector.C154_step_partial
#print axioms Asteria.StaticVector.C154_run_partial
#print axioms Asteria.StaticVector.C154_new
#print axioms Asteria.StaticVector.C154_read
#print axioms Asteria.StaticVector.C154_take
#print axioms Asteria.StaticVector.C154_swap
#print axioms Asteria.StaticVector.C154_destroy
#print axioms Asteria.StaticVector.C154_pop
#print axioms Asteria.StaticVector.C154_false
#print axioms Asteria.StaticVector.C154_input_false
#print axioms Asteria.Optional.C155_construct_partial
#print axioms Asteria.Optional.C155_assign
#print axioms Asteria.Optional.C155_observe
#print axioms Asteria.Optional.C155_compare
#print axioms Asteria.Optional.C155_false
#print axioms Asteria.Uchar.C156_read32
#print axioms Asteria.Uchar.C156_read16_partial
#print axioms Asteria.Uchar.C156_read16_single
#print axioms Asteria.Uchar.C156_read16_false
#print axioms Asteria.Uchar.C156_eof_false
#print axioms Asteria.Uchar.C156_bytes
#print axioms Asteria.Uchar.C156_write16
#print axioms Asteria.Uchar.C156_write32
#print axioms Asteria.Uchar.C156_round
#print axioms Asteria.Uchar.C156_putmb32
#print axioms Asteria.Uchar.C156_putmb16_partial
#print axioms Asteria.Uchar.C156_putmb16_false
#print axioms Asteria.Uchar.C156_putmb_short
#print axioms Asteria.Backtrace.C157_throw
#print axioms Asteria.Backtrace.C157_assert
#print axioms Asteria.Backtrace.C157_native
#print axioms Asteria.Backtrace.C157_order
#print axioms Asteria.Backtrace.C157_kept
#print axioms Asteria.Backtrace.C157_replaced
#print axioms Asteria.Backtrace.C157_backtrace
#print axioms Asteria.Print.C158_print
#print axioms Asteria.Print.C158_dump
#print axioms Asteria.Print.C158_debug
#print axioms Asteria.Print.C158_printable
#print axioms Asteria.Dirs.C159_create
#print axioms Asteria.Dirs.C159_create_any
#print axioms Asteria.Dirs.C159_remove
#print axioms Asteria.Dirs.C159_remove_error
#print axioms Asteria.Dirs.C159_symlink
#print axioms Asteria.Dirs.C159_move
#print axioms Asteria.Dirs.C160_false
#print axioms Asteria.Dirs.C160_list_partial
#print axioms Asteria.Dirs.C160_list_absent
#print axioms Asteria.Dirs.C160_properties_false
#print axioms Asteria.Dirs.C160_properties_partial
#print axioms Asteria.Globals.C161_sentry
#print axioms Asteria.Globals.C161_recursion
#print axioms Asteria.Globals.C161_false
#print axioms Asteria.Globals.C161_partial
#print axioms Asteria.Globals.C162_table
#print axioms Asteria.Globals.C162_library
#print axioms Asteria.Globals.C162_max
#print axioms Asteria.Globals.C163_globals
#print axioms Asteria.Globals.C163_temporary
#print axioms Asteria.Log.C164_safe
#print axioms Asteria.Log.C164_contents
#print axioms Asteria.Log.C164_controls
#print axioms Asteria.Log.C165_false
#print axioms Asteria.Log.C165_partial
#print axioms Asteria.Logf.C166_error
#print axioms Asteria.Logf.C166_contents
