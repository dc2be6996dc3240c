# Formal model of asteria: design

## Trusted base

* **Kernel.** Lean 4.33.0. Every theorem named in `MANIFEST.json` is accepted by the kernel. `decide +kernel` is used for closed
  facts over whole finite tables and for witnesses; it is evaluated by the kernel, not by compiled code.
* **Axioms.** Theorems depend on at most `propext`, `Classical.choice` and `Quot.sound`. `lean/Verif/Audit.lean` (generated by
  `tools/audit.py`) prints the axioms of every theorem in `MANIFEST.json`. No axiom, `sorry`, `native_decide`, `bv_decide`,
  `implemented_by` or `unsafe` is used.
* **The model.** Every definition in `lean/Verif/Model` is a transcription by hand of the C++ lines that are cited in its comment.
  That it corresponds to the C++ is established by reading, not by machine. The two tables of `NumTables.lean` have been copied by a script.
* **The specifications.** `lean/Verif/Spec` and the definitions at the top of each file in `lean/Verif/Props`.
* **C++ semantics.** `int64_t` is `BitVec 64`, or `Int` with explicit range checks. Unsigned registers are `Nat` reduced modulo `2^w`.
  Bytes are `UInt8`. Undefined behaviour is a separate outcome `Res.ub` wherever the modelled code could run into it: signed overflow,
  out-of-bounds access, dangling reference, read of a moved-from object, and an `ASTERIA_ASSERT` that is false (in release builds it is
  an assumption). A script-visible exception is `Res.throw`; its message is not represented.
* **Outside.** The C library, OpenSSL, zlib, PCRE2, iconv, the operating system and the memory allocator are not modelled. Where a function of
  theirs matters it is a parameter, or, as for `crc32_z`, `adler32_z`, `gmtime_r` and `timegm`, modelled from its documentation, which the comment says.
  Exhaustion of memory, concurrency and the recursion limit are not modelled. `max_size()` of containers is modelled where a comment says so.

## Conventions

* `Model/` are the models, `Spec/` the specifications, `Proof/` the lemmas, `Props/` the theorems for the properties. A concrete instance of the
  hypotheses stands beside each theorem.
* A property that is false of the code has a theorem `..._false` or `..._counterexample`, which proves the negation at a witness, and a theorem with the
  suffix `_partial` for what holds. The full statement is in `properties.jsonl`.
* `seeded/LOG.jsonl` records wrong programs: a definition of the model was changed as a bug would change it, in a copy, and the theorems which then
  failed were noted. `tools/seed.py` does this. How to read it:
  * `theorems_failed` are theorems of the property whose proofs no longer check, directly or because a lemma that they use does not. That a proof
    breaks does not show that the statement has become false; it was not proved false after each edit.
  * The search stops at the first failure, so theorems that are not listed may fail too.
  * `caught: false` lines are attempts that no theorem noticed. Those with `theorems_tightened` were followed by a stronger theorem; others were
    repeated later under the same name, or broke no claim (`promote`, `clampCodePoint`, `wrap` for C44), or did not compile (`note`).
  * No line names these properties as caught, so their theorems have not been tested against wrong programs on their own: C13, C15, C32, C37, C38, C39, C40, C45, C46, C47, C48, C49, C50, C51, C52, C53, C56, C57, C60, C61, C62, C63, C64, C69, C71, C73, C75, C77, C78, C79, C80, C81, C82, C83, C84, C85, C86, C87, C88, C89, C92, C93, C94, C97, C98, C102, C109, C110, C111, C112, C113, C114.
    Some of them are used by theorems of other properties that have been.
  * Most batches were written after the theorems by the same hand, so the share that is caught says little about bugs of other kinds.

## What is modelled

| Model | C++ | Properties | Left out |
|---|---|---|---|
| `Codec` | library/string.cpp: hex, base32, base64, URL codecs | C01-C06, C80 | |
| `Utf` | utils.cpp, library/string.cpp: UTF-8, UTF-16 | C07-C09 | the permissive mode beyond what C08 says |
| `Slice` | library/string.cpp, array.cpp: `do_slice`, `replace_slice` | C10, C17 | |
| `StrSearch` | library/string.cpp: find, replace, explode, implode, trim, pad, sets | C11-C16 | regular expressions, case conversion |
| `ArrayLib` | library/array.cpp | C18-C23, C73-C75 | comparators with side effects; `generate`, `copy_keys` |
| `IntOps`, `SeqOps` | runtime/air_node.cpp: operators on integers, strings, arrays | C24-C28, C33 | |
| `Numeric`, `Random` | library/numeric.cpp, random_engine.hpp | C29-C31, C76 | the ISAAC generator itself is a source of 32-bit words |
| `NumText`, `NumExp`, `RealText`, `NumTables` | rocket/ascii_numput.cpp, ascii_numget.cpp, library/numeric.cpp | C32, C84, C88, C89, C94, C111, C112 | `float`, hexadecimal and binary reals, `put_DED` |
| `HashTable`, `Dictionary`, `CowHashMap` | llds/reference_dictionary, variable_hashmap, rocket/cow_hashmap | C34, C35, C38, C77 | |
| `CowVector` | rocket/cow_vector.hpp, details | C37 | throwing element constructors, concurrency |
| `CowString` | rocket/cow_string.hpp, details | C115 | `c_str`, iterators and the like only read; concurrency |
| `StrFind` | rocket/cow_string.hpp, details (`find`, `rfind`, `find_of`, `find_not_of`, …) | C116 | `wchar_t` and the like, for which the bitmap has an overflow flag; `xmemchr` is the C library's |
| `StrMap` | library/string.cpp (`to_upper`, `to_lower`, `translate`), rocket/xascii.hpp | C117 | strings are those of `CowString` |
| `Conf` | library/system.cpp (`std_system_load_conf`, with `do_load_next`, `do_token` and the parser), rocket/ascii_numget.cpp (`parse_I`) | C118-C120 | the file is its bytes; opening it, reading errors, messages, lines and columns are left out; the numbers are those of `NumText` and `RealText` |
| `Files` | library/filesystem.cpp (`std_filesystem_read`, `stream`, `write`, `append`, `copy`, `do_write_loop`) | C121-C124 | the system is an argument: any call may fail, any transfer may be short but moves at least one byte if it can; no other process changes the files; names lead to files, several to the same; directories, pipes and devices, the maximum size of strings are left out |
| `Remove` | library/filesystem.cpp (`std_filesystem_remove_recursive`) | C125, C126 | a tree of files, links with absolute targets and directories, path resolution with at most 40 links; other processes may change the tree between calls; paths are lists of components without `.` and `..`; a directory is listed at once; permissions only as calls that fail |
| `Io` | library/io.cpp except `std_io_flush` | C127-C129 | streams of the C library: contents, position, how much has been read ahead, orientation, indicators, lock count; a UTF-8 locale; any call may fail; output is not buffered; `putf` and `putfln` from the formatted text on |
| `Pipe` | library/system.cpp (`std_system_pipe`, from the start of the program on) | C130, C131 | two processes with two pipes that hold `cap` bytes, any interleaving; any program that reads, writes, closes and exits; no system call fails except `write` to a closed pipe; the time limit of `poll` and interrupted calls are left out |
| `Env` | library/system.cpp (`get_environment_variable`, `get_environment_variables`, `call`) | C144, C145 | `getenv` as its manual says; the operating system is a parameter; messages |
| `Stream` | rocket/tinyfmt_str.hpp, tinyfmt_ln.hpp, tinyfmt.hpp (`putn_latin1`), tinyfmt_file.hpp (`open`, up to the system call) | C146–C149 | contents of a string are a list; allocation failures; messages |
| `Refcnt` | rocket/refcnt_ptr.hpp, details/refcnt_ptr.ipp, reference_counter.hpp (`increment`, `decrement`, `get`) | C150 | steps of threads are interleaved; the counter does not overflow; casts and `share_this` are not modelled |
| `Order` | rocket/reference_counter.hpp with its memory orders; `mut_data_opt` of cow_string, cow_vector, `mut_buckets_opt` of cow_hashmap | C151 | one storage; happens-before is tracked by vector clocks, release sequences go on through read-modify-write operations, loads read any value that coherence permits; consume and sequentially consistent order are not needed |
| `Teardown` | src/value.cpp `do_destroy_variant_slow`; `~Value`; `~storage_handle` of cow_vector and cow_hashmap | C152 | one thread (if two threads drop the last two references to a storage at once, both may find it shared, and the elements are then destroyed by `~basic_storage`, one level deeper); kinds of `ext` values, keys of objects and the debug fill are left out |
| `Variant` | rocket/variant.hpp, details/variant.ipp but for `visit`, `type` and `ptr` | C153 | objects are a type and a number; triviality is one trait; whether a copy constructor throws is an argument of each operation; bytes left by `memcpy` are no object; constructing over an object that has a destructor counts as undefined behaviour |
| `StaticVector` | rocket/static_vector.hpp, details/static_vector.ipp, `lowest_unsigned`, `estimate_distance` | C154 | cells have an object or none; elements are copied without exceptions; arguments are not elements of the vector; the two vectors of a copy or swap are different; iterators are positions; constructing over an object counts as undefined behaviour |
| `Optional` | rocket/optional.hpp but for `value_ptr`, `operator<<` and comparison with `nullopt` | C155 | as for `StaticVector` |
| `Uchar` | src/rocket/xuchar.cpp, `do_putmbn_common` of src/rocket/tinyfmt.cpp | C156 | the multibyte functions of the C library are modelled after C11 with the locale as a parameter; the theorems assume that it reads (`Reads8`) and writes (`Writes8`) UTF-8; reading and writing do not fail |
| `Backtrace` | runtime/runtime_error.hpp, src/runtime/runtime_error.cpp, `describe_frame_type` of src/fwd.cpp, src/source_location.cpp, `__backtrace` in src/runtime/air_node.cpp, `do_on_scope_exit_exceptional_slow` of src/runtime/executive_context.cpp | C157 | values are a parameter (which are strings, and how they print); the exception that is being handled (`std::current_exception`) is an argument of constructors; what deferred expressions do is a parameter |
| `Print` | src/value.cpp (`print_to`, `dump`, `do_break_line`), `std_debug_dump` of src/library/debug.cpp without the output | C158 | reals, opaque values and functions have texts that are parameters; the common control flow of both functions is modelled once, with what is written as a parameter |
| `Dirs` | library/filesystem.cpp (`std_filesystem_get_properties`, `move`, `list`, `create_directory`, `remove_directory`, `symlink`, `remove`) | C159, C160 | the tree and the paths of `Remove`; `rename()` does not know hard links or devices; what `readdir()` returns is a parameter; the order of objects is that of insertion; null bytes in paths, which `safe_c_str()` rejects, are left out |
| `Globals` | recursion_sentry.hpp, the constructor and `max_api_version` of src/runtime/global_context.cpp, src/library/version.cpp, `execute` (the base only), `get_global_variable_opt`, `open_global_variable` and `erase_global_variable` of src/simple_script.cpp | C161-C163 | addresses are 64-bit numbers; `std::upper_bound` as in libstdc++; the contents of modules are left out; the table of names is a function |
| `Log` | `write_log_to_stderr` and `throw_runtime_error` of src/utils.cpp | C164, C165 | the local time is an input; the result of `write` is left out (it may write fewer bytes); names of files and functions have no null bytes |
| `Logf` | `std_debug_logf` of src/library/debug.cpp | C166 | values are printed before the template is read; `write` is any function from bytes to its result |
| `Uuid` | library/system.cpp (`std_system_random_uuid`) | C132 | a function of the 16 bytes that `RAND_bytes` gives; its result, which the code ignores, is left out |
| `LinearBuffer` | rocket/linear_buffer.hpp | C36 | |
| `MemPool` | rocket/xmemory.cpp | C106 | weak memory: atomic operations take place one after another; filling blocks, as in debug builds, counts as an access to the whole block |
| `Rod` | llds/avm_rod.hpp/.cpp, llds/reference_stack.hpp/.cpp | C107, C108 | a block is a list of cells of 16 bytes (`sizeof(Header)`); an object in `sparam` is its parts in consecutive cells, and moves with its bytes; the functions of nodes are numbers, and what executors do is a parameter; `finalize` does nothing |
| `Double`, `Value` | value.hpp, value.cpp, rocket/fwd.hpp | C39, C40, C71 | opaque objects are compared by an abstract function |
| `Subscript`, `Compound` | runtime/subscript.cpp, reference.cpp, utils.hpp | C41-C44, C69, C70 | |
| `Exec`, `ExecCode`, `Args`, `Branch` | runtime/air_node.cpp, llds/avm_rod.cpp, executive_context.cpp, instantiated_function.cpp, variadic_arguer.cpp, compiler/infix_element.cpp | C45-C47, C49-C53, C72, C78, C79, C98 | nodes that only act on the stack are one node with a meaning as a parameter; hooks, backtraces, the recursion limit |
| `Compile` | compiler/statement.cpp, expression_unit.cpp, runtime/air_optimizer.cpp, analytic_context.cpp | C97, C99, C103, C133 | `__this`, `__func`, `__varg`, `__backtrace`; variadic and import calls; nodes that only act on the stack are parameters |
| `Operators` | runtime/air_node.cpp: binary operators and their constant forms, compiler/expression_unit.cpp | C48, C93 | unary operators other than `+` and `~`; `__fma` |
| `Gc` | runtime/garbage_collector.cpp, value.cpp, reference.cpp | C54, C55 | (the rest is in `GcAuto`) |
| `GcAuto` | runtime/garbage_collector.{hpp,cpp} (the rest), library/gc.cpp, flags of runtime/variable.hpp | C139-C143 | memory during each collection is a parameter; recursive collection; out of memory |
| `Parser` | compiler/statement_sequence.cpp: infix expressions, compiler/infix_element.cpp | C64 | primary expressions and statements |
| `Syntax` | compiler/statement_sequence.cpp, compiler/infix_element.cpp: all statements and expressions | C100-C102, C104 | source locations, kinds of errors, messages, names of functions; `__vcall` and `import` are an outcome of their own; recursion sentries are a bound for the recursion |
| `Lexer` | compiler/token_stream.cpp, utils.cpp, cow_string.hpp | C61-C63, C81-C86, C109 | positions of tokens |
| `Source` | simple_script.cpp (`reload`, `reload_oneline` up to the statements) | C110 | |
| `Json`, `Csv`, `Ini` | library/json.cpp, csv.cpp, ini.cpp | C56-C60, C87, C90, C91, C105, C113, C114 | sources other than strings; conversion of reals is a parameter |
| `Checksum` | library/checksum.cpp | C65 | cloning of shared hashers |
| `Chrono` | library/chrono.cpp | C66, C92 | `hires_now`, `steady_now` |
| `ArgReader` | runtime/argument_reader.cpp | C95, C96 | the wording of parameter types in messages other than their names; the conversion of arguments to references |
| `Modules` | runtime/module_loader.cpp, air_node.cpp | C67 | |
| `Format` | rocket/tinyfmt.hpp, library/string.cpp | C68 | |
| `Zlib` | library/zlib.cpp | C134-C138 | zlib itself is a parameter (`Lib`), of which `Verif.Spec.Zlib` states what zlib.h says; that initialization and copying fail; messages; `Z_NEED_DICT` is one of the other codes |

Not modelled at all: `std.filesystem.get_real_path` and `glob`, `std.io.flush`, math, rsa, the rest of system; runtime/binding_generator, the rest of global_context;
the rest of tinyfmt_file; the rest of simple_script.cpp.

## Findings

Properties that are false of the code, each with a proved witness.

| Property | What happens |
|---|---|
| C08 | `utf8_decode` does not check that trailing bytes are trailing bytes (utils.cpp:273): `C3 41` is accepted. |
| C41 | `Wrapped_Index` overflows for `INT64_MAX` and `INT64_MIN` on an empty array. |
| C47 | Two nested proper tail calls that both carry deferred expressions run them in the wrong order. |
| C54 | The collector wipes reachable variables: those used by a function object that is shared with an older variable or a call in progress. After `std.gc.collect(0)` an assertion can fail. |
| C57 | A lead byte from 0xFC on makes the JSON reader write past a buffer of four bytes. |
| C58 | CSV texts with backslashes, line breaks or carriage returns in cells are not read back. |
| C59 | INI values with line breaks are not read back; nor is a leading byte order mark in a key. |
| C62 | A block comment `/* * */` on one line is not closed: only the first asterisk of the rest of a line is examined. |
| C66 | With a local offset that is not a whole number of minutes, a timestamp is not read back. |
| C67 | When `flock` fails, a file stays marked as being imported, and can never be imported again. |
| C69 | A compound assignment whose target makes an array grow uses a dangling reference to its other operand. |
| C70 | A failed assignment may have created elements, or replaced null. |
| C72 | The collector does not visit the initializer and step of a `for` statement. |
| C73-C75 | `max_of`, `is_sorted`, `binary_search` differ from their documentation for unordered elements, and for equal elements. |
| C76 | `std.numeric.random(limit)` may return `limit` if it is subnormal. |
| C77 | Insertion of more than 17 elements from a single-pass range into a hash map drops elements; `erase` of an empty range of a map without storage has undefined behaviour. |
| C78 | The result of a discarded call at the end of a chain of tail calls is not discarded. |
| C79 | If the operand of a catch expression throws while arguments are evaluated on the alternative stack, the stacks stay swapped. |
| C82 | After `[?]` a sign is taken to be part of a number. |
| C83 | Incomplete UTF-8 sequences make an assertion in the lexer fail. |
| C88 | The exponent of a number may wrap around, and signed subtraction then overflows. |
| C91 | An INI section with the name of an earlier property makes an assertion fail. |
| C105 | Names of INI sections are not trimmed, although the comment at ini.cpp:169 says so: `[ s ]` opens the section `" s "`. |
| C109 | Not errors of a theorem, but surprising members of the language: `0`x1` is 1 (a separator inside the prefix is accepted); `1_000` is the number 1 followed by the name `_000`; the integer `0x10000000000000008p-3`, which is 2^61 + 1, is rejected as inexact because its 17th digit is dropped before the exponent is applied. |
| C112 | The literal `468070599835588.7813` is read as 468070599835588.75 though 468070599835588.8125 is nearer (`C111_decimal_false`): the 128-bit product with the table is truncated to 64 bits, and what is cut off is not part of the rounding. Hexadecimal literals are rounded correctly, with one exception: `0x1.0000000000000001p-1075` is rejected as an underflow though it is nearer to the least positive double than to zero, because the special case `exp == -52` looks at the 64 bits that are kept and not at `m_more` (`C111_underflow_false`). |
| C114 | A JSON string with the character U+007F is rejected, though RFC 8259 lets it stand for itself. Not documented: numbers with a plus sign or leading zeroes are accepted. |
| C115 | `substr()` of a proper end of a string points into the middle of the block; `append`, `pop_back` and `resize` on it, when nothing else refers to the block, continue the characters at the beginning of the block: `s = "hello world"; s = s.substr(6); s += "!";` gives `"hello!"`. In scripts: `s = std.string.triml(s); s += "!";`, for a string made at run time with blanks in front (string.cpp:907, 925; air_node.cpp:3299). `operator=(shallow_type)` leaves the old block in place, with the same effect; if the literal is longer than the block, `append` writes out of bounds. |
| C116 | `cow_string::find(from, pattern)` searches from `data() + from` and returns the position relative to there: `find(1, "lo")` in `hello` gives 2, not 3. Nothing in the repository calls it with a pattern and `from` > 0. |
| C118 | `load_conf`: a block comment ending in `**/` (also `/***/`) is not ended; `\U10FFFF` is rejected; `infinity` and `nan` are rejected, so doc/sample.conf can't be read. |
| C119 | `load_conf`: characters in single-quoted strings are truncated to bytes; integers with negative exponents are truncated (`5e-1` is 0); `5b:6` is a number and a key. |
| C120 | `load_conf`: a number at the end of the file (`a=5`) or before a character from U+0100 on reads outside of `valid_digits`; `0x` without digits fails an assertion; lead bytes from 0xFC on overflow a buffer. |
| C92 | `std.chrono.parse` reads beyond the end of a string that is cut short. |
| C94 | Some reals do not read back as themselves: 253 of the powers of two, and about one odd mantissa in several thousands (counts by simulation, witnesses proved). Entry 314 of the table in ascii_numput.cpp (10^-10) is one too large. |
| C98 | `for(each k, k -> x)` is accepted; the key and the mapped element are then the same reference, so `x` itself is overwritten with the first key, even if it is a constant. |
| C106 | `xmemalloc` for more than 2^63 bytes, when the product does not overflow, shifts by 64 and accesses `s_pools[64]` (xmemory.cpp:34-40) instead of throwing `bad_alloc`. |
| C124 | `std.filesystem.copy` to another name of the same file empties it and returns normally. |
| C125 | `remove_recursive` with a path through a link below the directory itself returns normally and leaves the directory. |
| C126 | `remove_recursive` follows a link that has been put in place of a subdirectory, and removes files elsewhere. |
| C127 | `IOF_Sentry` locks a stream and then throws if its error indicator is set: the stream stays locked, and every later call throws and locks it once more. |
| C128 | Mixing `std.io.getc` or `getln` with `std.io.read` loses input from pipes, and restarts regular files. |
| C129 | `std.io.putc` and `putln` write some strings that are not UTF-8 as something else (`C3 41` as `C3 81`); mixing them with `std.io.write` truncates a regular file. |
| C130 | `std.system.pipe` hangs for ever if input and output are large: it writes all of the input before it reads any output (for example `cat` with more than two pipes of input). |
| C131 | `std.system.pipe` kills the calling process by `SIGPIPE` (or throws) if the program closes its standard input before it has read all of the input. |
| C133 | `func() { catch( g(boom(7)) ); return 5; }` returns 5 at optimization level 0 and the function `g` at level 1 (a consequence of C79) |
| C134 | Not an error with the zlib that exists, but nothing in zlib.h rules it out: `Inflator::finish` passes `Z_FINISH` with room for 4096 bytes and takes `Z_BUF_ERROR` for an error, so it throws if more is pending. |
| C136 | `clear()` of `std.zlib.Deflator` and `Inflator` does not discard the output, though it is documented to; `finish()` then returns the old output and the new stream. |
| C137 | A compression level above 9 is accepted, though it is documented that an exception is thrown. |
| C138 | `std.zlib.inflate` and `gunzip` ignore what comes after the first complete stream. |
| C141 | The manual says that `std.gc.set_threshold(g, 0)` ensures that all unreachable variables are collected immediately; they are when the next variable is created, and only if all thresholds are 0. |
| C142 | `Variable::uninitialize` does not reset `m_immutable`, so a collected `const` variable that is handed out again by `Simple_Script::open_global_variable` cannot be modified by scripts. |
| C143 | As a consequence of C54, `create_variable` may hand out a variable that a function still uses. |
| C144 | If a variable is in the environment twice, `get_environment_variable` returns the first value and `get_environment_variables` the last one. |
| C145 | (Not modelled: `posix_spawnp` returns an error number and need not set `errno`, which the message shows.) |
| C146 | `tinyfmt_str::putn` and `putc` resize the string to where the write ends, so a write in the middle cuts off what follows it: after `abc`, seeking to 0 and writing `x` leaves `x`; writing an empty string there leaves nothing. A file keeps what follows. |
| C146 | (Read, not modelled: the move assignment of `tinyfmt_str` and `tinyfmt_ln` is declared as `operator=(basic_tinyfmt_str& other) &&`; for `a = move(b)` it is not viable, so `b` is copied.) |
| C149 | `open_exclusive` without `open_write` and `open_create` passes `O_EXCL` without `O_CREAT`, which POSIX leaves undefined. |
| C151 | `reference_counter::unique` loads with `memory_order_relaxed`. A thread that is told that it is the only owner writes to the storage, but what another thread read before it dropped its reference does not happen before that: a data race by the rules of C++ (with `memory_order_acquire` there is none, `C151_acquire`). |
| C153 | `variant::operator=` and `emplace` destroy the old alternative before they read the argument, if the new one is copied without exceptions. An argument that belongs to the old alternative is then read after it has been destroyed: `value = value.as_array()[0]` with `Value value`, through the C++ interface. Scripts are not affected: the interpreter copies a value before it assigns it (src/runtime/air_node.cpp:2301-2312). |
| C154 | `nelem_type` of `static_vector` is `lowest_unsigned<capacityT - 1>`, which cannot represent the capacity if that is 256, 65536 or 2^32: a full vector appears empty, and its elements are never destroyed. (No such capacity is in use.) |
| C154 | `static_vector::append` of a range of input iterators takes its length to be zero, so the check for room passes; the assertion in `emplace_back_unchecked` fails, or objects are constructed beyond the storage. |
| C155 | `optional(const optional<yvalueT>&)` tests `other.m_stor.empty()` where `!` is missing (optional.hpp:66): a value is lost; from an empty one, `front()` of an empty vector is read. |
| C156 | `do_xfgetn_common` sets `wants_more_input = 1` after a leading surrogate (xuchar.cpp:72-76) although `mbsinit` is false: the next byte of the file is read and dropped when the trailing surrogate is delivered. (`case -3` does use `mbsinit`.) |
| C156 | `do_xfgetn_common` takes a state that is not initial for a pending surrogate (xuchar.cpp:32). If the file ended in the middle of a character, the next call feeds a null byte which is not in the file, and delivers a null character. |
| C156 | `do_putmbn_common` stops at the null byte (tinyfmt.cpp:27) even if a trailing surrogate is pending: it is not put. |
| C160 | `std.filesystem.list` takes a failure of `readdir()` for the end of the directory, and returns some of the entries without an exception. |
| C160 | `std.filesystem.get_properties` computes milliseconds in `int64_t`; times more than 292 million years from 1970, which some file systems can store, overflow, which is undefined. |
| C161 | `Simple_Script::execute` sets the base of the recursion sentry and does not restore it: each call of it by a function that a script calls allows another 1 MiB of stack. |
| C163 | `open_global_variable("std")` replaces the standard library with a new variable, since `std` is a temporary (as `C163_temporary` says; not stated otherwise anywhere). |
| C165 | `throw_runtime_error` passes `data.c_str()` to `std::runtime_error`, so the message is cut off at its first null byte, and the place where it was thrown is lost. |

## Plan per property

* **C01 hex round trip** — `Codec.lean`: encode/decode loops over `List UInt8`; round trip by induction on the input.
* **C02 base32 round trip** — `Codec.lean`: 5-byte group arithmetic; induction on groups, tail cases 1..4.
* **C03 base64 round trip** — `Codec.lean`: 3-byte group arithmetic; induction on groups, tail cases 1..2.
* **C04 URL component round trip and safety** — `Url.lean`: per-byte case split, induction.
* **C05 URL query round trip** — `Url.lean`: as C04 with '+' for blank.
* **C06 decoders accept exactly the documented language** — `Codec.lean`: independent grammar relation; decoder sound and complete for it.
* **C07 UTF-8 encode/decode round trip** — `Utf8.lean`: Nat/BitVec arithmetic with case split on code point range; list induction.
* **C08 UTF-8 validation accepts only well-formed text** — `Utf8.lean`: Unicode table 3-7 as separate spec; negation by witness, partial theorem with the hypothesis that continuation bytes are continuation bytes.
* **C09 UTF-16 encode/decode round trip and validation** — `Utf16.lean`: case split, list induction; spec = alternate definition of well-formed sequences.
* **C10 string slice is interval intersection** — `Slice.lean`: model with explicit int64 UB outcome; spec via filter on indices.
* **C11 find returns the first match** — `Search.lean`: BMH loop with fuel-free well-founded recursion; invariant: no match before the cursor.
* **C12 replace substitutes leftmost non-overlapping matches** — `Search.lean`: refinement to leftmost substitution relation.
* **C13 explode/implode inverse** — `Search.lean`: induction over matches.
* **C14 trim removes a maximal prefix/suffix** — `StrOps.lean`: prefix/suffix characterisation.
* **C15 padding reaches the requested length** — `StrOps.lean`: loop invariant.
* **C16 character-set searches** — `StrOps.lean`: least index characterisation.
* **C17 replace_slice splices** — `Slice.lean`: append decomposition.
* **C18 sort is a stable sorting permutation** — `Sort.lean`: bottom-up merge passes; sortedness of blocks invariant; permutation and stability by filter on equivalence classes.
* **C19 sortu yields strictly ascending representatives** — `Sort.lean`: as C18 with unique merge in last pass.
* **C20 binary searches agree with linear definitions** — `BSearch.lean`: loop invariant on interval.
* **C21 shuffle permutes deterministically** — `Shuffle.lean`: swap-only loop preserves permutation.
* **C22 rotate moves elements cyclically** — `Rotate.lean`: block-swap loop invariant over lists.
* **C23 array folds: find/count/exclude/max_of/min_of/reverse** — `ArrOps.lean`: induction.
* **C24 integer arithmetic is exact or throws** — `IntOps.lean`: Int-valued spec, BitVec 64/`Int` with overflow flags.
* **C25 modular arithmetic** — `IntOps.lean`: as C24.
* **C26 saturating arithmetic** — `IntOps.lean`: as C24; clamp spec.
* **C27 integer shifts** — `IntOps.lean`: as C24; power-of-two spec.
* **C28 bit counting** — `IntOps.lean`: spec by counting bits.
* **C29 numeric pack/unpack round trip** — `Pack.lean`: byte-level model, induction on list.
* **C30 rotl/rotr** — `Rot.lean`: testBit characterisation.
* **C31 random numbers lie in the unit interval** — `Rot.lean`: range bound on the 53-bit integer.
* **C32 integer formatting is parsed back** — `NumText.lean`: digit loops; induction on value.
* **C33 string bitwise and shift operators** — `StrBits.lean`: list induction.
* **C34 scope dictionary behaves as a map** — `HashTable.lean`: abstract open-addressing table parametrised by hash; invariant: no empty bucket between origin and position; refinement to finite map.
* **C35 variable map behaves as a set** — `HashTable.lean`: instance of the same table.
* **C36 stream buffer is a FIFO** — `LinearBuffer.lean`: memory array with offsets, refinement to queue.
* **C37 copy-on-write isolation** — `Cow.lean`: heap of refcounted blocks; refinement to by-value semantics.
* **C38 hash map behaves as a finite map** — `HashTable.lean`: same table with range erase.
* **C39 value comparison is a consistent partial order** — `Compare.lean`: mutual recursion over values, structural induction.
* **C40 integer/real comparison is exact** — `Compare.lean`: reals as extended dyadic rationals; exact order spec.
* **C41 negative index wrapping** — `Index.lean`: Int arithmetic with UB outcome.
* **C42 read after write through subscripts** — `Subscript.lean`: tree of values, structural induction on path.
* **C43 unset removes exactly the addressed element** — `Subscript.lean`: as C42.
* **C44 read and write subscript access agree** — `Subscript.lean`: as C42.
* **C45 structured control flow** — `Exec.lean`: big-step relation/evaluator with fuel of statement core versus continuation-free structured spec.
* **C46 deferred expressions run exactly once in LIFO order** — `Exec.lean`: trace of deferred actions, invariant by induction on execution.
* **C47 defer order is preserved under proper tail calls** — `Exec.lean`: witness program plus single-scope theorem.
* **C48 constant-operand operators agree with generic ones** — `Bi32.lean`: case split on type and operator, generic model vs specialised model.
* **C49 code after a terminator is unreachable** — `Exec.lean`: induction on code tree.
* **C50 try/catch** — `Exec.lean`: evaluator equations from independent spec.
* **C51 argument binding** — `Args.lean`: list model.
* **C52 array and object literals** — `Args.lean`: finite map model.
* **C53 short-circuit operators** — `Exec.lean`: trace model.
* **C54 garbage collection never clears a reachable variable** — `Gc.lean`: graph with internal/external counts; induction over marking.
* **C55 garbage collection reclaims unreachable cycles** — `Gc.lean`: as C54.
* **C56 JSON round trip** — `Json.lean`: printer and tokenizer/parser over bytes; induction on value with a parser stack invariant; numbers via abstract text codec hypothesis.
* **C57 JSON reader memory safety** — `Json.lean`: byte-count model of do_load_next with out-of-bounds outcome.
* **C58 CSV round trip** — `Csv.lean`: printer/parser; witnesses; partial theorem.
* **C59 INI round trip** — `Ini.lean`: as C58.
* **C60 JSON nesting is bounded** — `Json.lean`: stack invariant.
* **C61 punctuators are lexed by maximal munch** — `Lexer.lean`: model of table walk; longest-match spec; table facts by kernel decide on the whole table.
* **C62 block comments end at the first */** — `Lexer.lean`: line scanner; witness; partial theorem.
* **C63 quoting produces literals that lex back** — `Lexer.lean`: induction on bytes.
* **C64 infix expressions respect precedence and associativity** — `Infix.lean`: stack algorithm; spec = precedence-correct tree relation with in-order yield.
* **C65 checksums do not depend on chunking** — `Checksum.lean`: fold over append.
* **C66 timestamps round trip** — `Chrono.lean`: proleptic Gregorian calendar conversion; digit fields.
* **C67 recursive import is denied and locks are released** — `Modules.lean`: state machine with failure points.
* **C68 format placeholders** — `Format.lean`: scanner; list induction.
* **C69 compound assignment uses the original operand values** — `RefOps.lean`: address-level model with dangling outcome; witness; partial theorem.
* **C70 failed assignment leaves the target unchanged** — `Subscript.lean`: witness; partial theorem.
* **C71 clamped double-to-integer conversions** — `Compare.lean`: dyadic model of finite doubles.
* **C72 collector tracing covers code bodies** — `Exec.lean`: tree traversal; witness; partial theorem.
* **C73-C75** — `ArrayLib.lean`: documented behaviour for unordered or equal elements; witnesses and partial theorems.
* **C76 random below its limit** — `Random.lean`: rounding is any function to a nearest double; rational inequalities.
* **C77 range insertion** — `CowHashMap.lean`: loop of insertions with the reserved capacity; witness.
* **C78, C79 calls and catch expressions** — `Exec.lean`: equations of the evaluator; witness programs.
* **C80 exact text of encoders** — `Codec.lean`: digits in RFC 4648 as a separate specification.
* **C81-C86 the lexer** — `Lexer.lean`: lexical grammar in `Spec/Lexical.lean`; soundness and completeness by induction on the text.
* **C87 values from JSON** — `Json.lean`: invariant of the parser.
* **C88 exponents** — `NumExp.lean`: the parser with overflow as an outcome; induction over digits.
* **C89, C94 reals as text** — `RealText.lean`: tables checked entry by entry in the kernel (`decide +kernel` over all entries), error bounds of 64-bit products in
  rationals, invariant of the digit-removing loop, layout by induction over digits.
* **C90-C92 readers have no undefined behaviour** — invariants of `Csv`, `Ini`, `Chrono`; witnesses.
* **C93 constant folding** — `Operators.lean`: every peephole rule of the generator against the generic operator.
* **C95 overload resolution with saved states** — `ArgReader.lean`: a relation that describes the reader by the list of parameters since the start of the overload; the run of any sequence of calls refines it, by induction.
* **C96 the first matching overload** — `ArgReader.lean`: corollary for functions which try overloads in order.
* **C97 local references find their names** — `Scope.lean`: a typing judgement for code relative to the names of the contexts; the code generator only produces typed code (`Proof/Compile.lean`, induction on the source); execution keeps states typed (`Proof/ScopeRun.lean`, one case per step), so an execution in which each step is tested is equal to the one without tests, whatever failed tests do.
* **C98 variables written by `for each`** — `ExecEach.lean`: induction on the elements; the key is never bound to an older variable; witness for equal names.
* **C99 no failed assertions** — `Safe.lean`: a typing judgement for code that counts the operands on both stacks and the variables that wait to be initialized (`Proof/Safe.lean`); code from the generator is typed (`Proof/SafeGen.lean`, induction on the source); one claim per kind of piece of an execution, kept by each step (`Proof/SafeStep.lean`), hence by executions of any length (`Proof/SafeInd.lean`). What the parameters do to the stack is a hypothesis (`SafeSem`); `attempt` is the execution that stops where a reference cannot be used (C41).
* **C100, C101 what is parsed** — `Syntax.lean`: one claim per function of the parser (`Proof/Syntax.lean`, `structure Sound`), by induction on the bound for the recursion; C100 is the hypothesis about source of C99, so both are joined in `C100_scripts_run_partial`.
* **C102 the parser ends** — `Syntax.lean`: eight levels of recursion per token (`Proof/SyntaxEnds.lean`); a larger bound keeps the result (`Proof/SyntaxMono.lean`).
* **C103 no stray jumps** — `Jump.lean`: a judgement for code relative to the statements around it; generated code satisfies it if the source does (`Proof/Jump.lean`), which C101 says of scripts; the status after each piece is one that the statements around it take (`Proof/JumpRun.lean`, one case per step). An execution with a test at the end of each function is equal to the one without, whatever failed tests do.
* **C104 grammar** — `Spec/Script.lean`: the documented grammar as a relation between tokens, what a phrase stands for, and the tokens that follow it. Soundness (`Proof/ScriptSound.lean`): the stack of the infix loop stands for a phrase at each time. Completeness (`Proof/ScriptComplete.lean`): by induction on phrases, for all large bounds; levels of precedence by what the stack is popped to. Unambiguity follows from both. `Proof/SyntaxWithin.lean`: without `__vcall` and `import` the parser stays within the model.
* **C105 INI texts** — `Spec/IniText.lean`: what is in a line, as a relation; what the items of a text mean. `Proof/IniText.lean`: a line can be read as an item iff the reader does what the item says; invariant: the state means the items so far.
* **C106 memory pools** — `MemPool.lean`: invariant over all interleavings: an assignment of owners to addresses such that each list, and the private list of each thread, is a chain of distinct blocks of its owner, large enough for its pool; `xmemclean` by induction over lists and pools.
* **C107 nodes in memory, C108 reference stack** — `Rod.lean`, `RefStack.lean`: refinement: cells of a rod are the encodings of its nodes followed by anything, metadata on the heap are exactly those of nodes, without sharing; stacks are objects followed by empty slots.  Operations keep this, and loops over cells are loops over nodes.
* **C109 lexical grammar** — `Spec/LexExact.lean`: tokens, lines and texts as relations. `Proof/LexExactNum.lean`, `LexExactInt.lean`, `LexExactText.lean`: what `parse_D` and `cast_I` make of digits, for any number of digits and any exponent. `Proof/LexExact.lean`: each token of the grammar is taken as a whole, and what is taken is a token; induction over the line.
* **C110 grammar of source texts** — `Source.lean`: C109 and C104; there are not more tokens than bytes, so the bound of C102 can be given in bytes.
* **C111, C112 accuracy of literals** — `Spec/RealLiteral.lean`: the rational number that a numeral denotes; `Spec/RealText.lean`: `Nearly` and `Nearest`. `Proof/RealAccuracy.lean`: `compose` for a number known up to 16 units of its 64 bits, then `cast_D` with the errors of the table, of the truncated product and of the digits that are dropped. `Proof/RealNearest.lean`: the same without errors, for powers of two. `Proof/RealLiteral.lean`: numerals.
* **C113, C114 JSON texts** — `Spec/JsonText.lean`: the grammar, with the value of each text; `Spec/JsonReal.lean`: values of numbers, and the grammar of RFC 8259. `Proof/JsonLoad.lean`, `JsonLexeme.lean`: characters and tokens, both directions. `Proof/JsonExact.lean`: soundness by an invariant of the stack (the text so far opens the containers on the stack), completeness by induction on the derivation, with the steps of the parser as a function of any rest of the text. `Proof/JsonReal.lean`: numbers by C111; RFC texts are texts of the grammar.
* **C115 copy-on-write strings** — `CowString.lean`, `CowStringState.lean`: refinement as for C37: a string has a text if it points to it, anywhere in its block; reference counts are numbers of strings; each member function leaves other blocks alone, or makes a new one. `Aligned` is the condition that the shortcuts of `append` and `pop_back` need; all operations but two keep it.
* **C116 searching** — `StrFind.lean`: the invariant of the table is that it has, for each hash, an offset not below that of any character of the pattern before the last; so no occurrence lies between the old position and the new one. `rfind` follows by reversing both lists.
* **C117 mapping characters** — `StrMap.lean`: on top of C115: once the pointer has been taken, the block is not shared and the text is at its beginning (`Open`); assignments and erasures keep that.
* **C118-C120 configuration files** — `Conf.lean`: a grammar (`Spec/Conf.lean`) at three levels: what is meant, the part of it that the code reads as meant, and what the code does. Tokens: `token_lexeme` one way and `token_inv` the other. Parser: on every derivation the loop makes the steps it should (`run_of`), and if it succeeds, what is left of the tokens derives what is left of the open containers (`Cont`, `steps_inv`). Definedness: a measure on states, and `number` is undefined only where a number is cut off.
* **C121-C124 files** — `Files.lean`: the answers of the system are an arbitrary function of the number of the call; each loop has an invariant relating what has been transferred to a prefix, and a measure (bytes left) that shows that it ends.
* **C125, C126 removal** — `Remove.lean`: induction on the size of a node: from any stack, the loop comes to the rest of the stack with the node gone and its size counted (`Removes`), with an inner induction over the entries of a directory from the last to the first (`children`).
* **C127-C129 standard streams** — `Io.lean`: bodies keep the lock (`Reads`, `Writes`), so the lock depends on the constructor only; reading follows the characters of a text, writing the bytes of a string with the characters decoded so far.
* **C130, C131 pipes** — `Pipe.lean`: an invariant of all interleavings (`Inv`), a weight that every step of the function decreases and every step of the program increases by at most 8 (`weight`), and for the deadlock a run by induction on the number of bytes that `cat` has passed on (`cat_passes`).
* **C132 UUIDs** — `Uuid.lean`: digits by `16^i` division (`y_eq`), a bijection between 64 indices and the pairs of numbers with given digits (`digs_num`, `num_inj`).
* **C133 optimization** — `Opt.lean` relates code at level 0 to code at level 1 (`E`, `St`, `Body`, …, by the shape of the code, with `SameCode` for nodes that only act on the stack); `OptSim.lean` shows by induction over the steps that related code does the same from related states, where the stacks may be on different sides (`all_sim`); `OptGen.lean` shows that the code generator makes related code (`genStmts_rel`).
* **C134-C138 zlib** — `Spec/Zlib.lean` states zlib's manual as properties of a library that is a parameter; `Proof/Zlib.lean` shows for each loop, by induction over the rest of the input and what the library can still output, that it ends and what has gone in and out; `ZlibToy.lean` has libraries that meet the assumptions, and one that shows why one more is needed.
* **C139-C143 creating variables** — the loops over generations are a chain of collections, each described by C54/C55's `Collected`; sizes and counters are an invariant of all operations (`Reached`), and what is held stays held once.
* **C144, C145 environment and programs** — induction over the strings of the environment, and over the events before a program ends; the array of pointers with its two null pointers is modelled.
* **C146–C149 streams** — refinement of a file (contents and position) and of a queue, by induction over the operations and over the characters; modes are arbitrary numbers, of which the bits are read.
* **C150 reference counting** — one invariant (the counter is the pointers and what is yet to be dropped; what has counted to zero is deleted or about to be, once) kept by every step of every thread; a measure of what is left to be done, for termination.
* **C151 memory order** — vector clocks; one invariant (every access happens before what some owner does next or is released with the counter; writes happen before what every owner does next; no owner can read an old value of one) kept by every step.
* **C152 destruction** — one conservation law for all counting functions on values (what is in storages and on the stack is the same before and after a round, but for the value that is destroyed) and `Counted` as the invariant of the loop; who survives follows from the counters by induction on the depth of nesting.
* **C153 variants** — each dispatch function has a law for storages that have an object of the type named; every operation is a few of these, so keeping `Good` and the effect are proved together, case by case.
* **C154, C155 static_vector and optional** — a vector is determined by its elements (`rep`); every primitive is an equation between such vectors, so calls are proved by rewriting, loops by induction on the part of the list that is yet to be done.
* **C156 wide characters** — the bytes of a character are fed one by one (induction on the rest of its UTF-8, `Reads8.part`), so a whole character is one step; lists of characters by induction.
* **C157 backtraces** — invariant: frames are those before and those after the place of insertion, and the message is that of all (`Holds`); the number column by the invariant that the buffer is spaces and the digits of a smaller number.
* **C158 printing** — the machine with a stack is proved to write what a recursive function writes (mutual induction over values, elements and members, with the rest of the array as the invariant), which is then compared with the specification.
* **C159, C160 directories** — what a changed tree has at each path follows by induction over the path; the listing by an invariant that says which names have been seen.
* **C161-C163 global contexts** — the shifts of the sentry are divisions of integers; the binary search keeps the boundary between its ends (strong induction over the length), for any sorted table.
* **C164, C165 messages** — the number of the date has 14 digits, taken apart two at a time; what is tame stays so when appended and trimmed (trimming cannot cut `ESC E`, since `E` is not a space).
* **C166 `std.debug.logf`** — from C68, C158 and C164.
