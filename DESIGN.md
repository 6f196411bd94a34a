# Formal model of mickjc750/str in Lean 4

## 1. Approach

The C sources are modelled function by function as total, computable Lean functions over an explicit byte-addressed
memory. Undefined behaviour is a distinct outcome of every modelled function, so "no undefined behaviour" is part of every
theorem that says a call returns `ok`.

Layers (all under `lean/Verif/`, namespace `CStr`):

| layer | directory | contents |
|---|---|---|
| machine | `C/` | outcomes, bytes, addresses, loads, stores, memcpy/memmove/memcmp/strlen, C `int` arithmetic (`Basic.lean`); allocator and its log (`State.lean`); binary32 arithmetic (`Float32.lean`), arithmetic of any IEEE format (`Ieee.lean`) |
| model | `Model/` | the C functions, one Lean definition per C function, each citing file and lines; long functions are cut into pieces that cite their lines |
| spec | `Spec/` | small specifications on `List UInt8`, `Nat`, `Int`, `Rat`. They use the machine, the data types of the model and the option constants; only `Spec/BufCall.lean` and `Spec/BufHist.lean` name functions of the model, to say which call a command stands for |
| lemmas | `Lemmas/` | helper lemmas |
| properties | `Props/` | the property theorems `Cnn_...` and, beside each, concrete instances of its hypotheses |

### Machine
* Outcomes (`Res`): `ok`; `ub why` with the kind of undefined behaviour; `fuel` (a loop did not end within its bound); `env who` (the environment
  broke its contract: an illegal answer of the allocator, a callback that writes more than it was offered, a formatter that
  reports an impossible length).
* An address is an `Int`; `0` is NULL; memory is a partial map from addresses to bytes. Loading an unmapped
  or a non-positive address is `ub badRead`, storing to one is `ub badWrite`. Every theorem quantifies over all
  memories that contain the arguments, including the one that contains nothing else, so an `ok` result
  implies that no other byte is accessed.
* String literals used inside the library live at addresses from 2^64 on and are read-only.
* `int` is 32 bits, `long`, `long long`, `size_t` and pointers are 64 bits (LP64), `char` is signed. `int` arithmetic that can overflow is
  written with checked operations. `Cfg.wrapv` selects ISO C (overflow is `ub signedOverflow`) or
  `-fwrapv` (wrap-around); theorems hold for both unless they say otherwise.
* Loops are recursive functions, by structural recursion where the C loop counts down, otherwise with a fuel argument that the modelled caller
  sets to a bound computed from its arguments. A theorem with an `ok` result also proves termination.
* Comparison and subtraction of pointers are on addresses (flat address space), also for pointers into different objects, which ISO C leaves
  undefined. Pointer values outside an object may be formed
  (the code does so in `find_last` and `split_last_delim`); only accesses are checked. In `find_last`, where the
  pointer can underflow the address space, wrap-around at 2^64 is modelled.
* `memcpy`, `memmove`, `memcmp` with size 0 access nothing, also with NULL arguments. `memcmp` reads both ranges in full. `memcpy` with
  overlapping ranges is `ub overlap`.
* `isdigit`, `isxdigit`, `isspace`, `toupper` are the C-locale functions, total on all byte values. (Strictly, a negative `char` argument is undefined; all
  common C libraries return false.)

### Buffers
* A `strbuf_t` is the 24 bytes the compiler lays out on an LP64 little-endian target: `size` at 0, `capacity` at 4, the allocator's
  `app_data` at 8 and function at 16, content from 24. The header is ordinary memory: a stray write would change it.
* The allocator is an oracle: each call consumes an arbitrary answer (address and contents of new memory). `realloc` may return the same or any other
  free address. A NULL answer is passed on to the code. An answer that violates the allocator's contract (overlaps live memory, is misaligned, does not
  fit the address space) ends the run with `env alloc`. Freeing or resizing a pointer that is not live, or with another allocator, is `ub badFree`.
  Every call is logged, and memory and heap at the call are recorded (`St.moments`); no modelled function reads the log or the record.
  A released block is no longer accessible. All calls are logged.
* `strbuf_t**` arguments are modelled by the value they point to; a function returns the new value.
* Callbacks of `strbuf_append_using`, formatters of `strbuf_printf` and `strbuf_prnf` and the operating system behind `read` and `write` are arbitrary
  functions or arbitrary answers, quantified in the theorems. In `Model/Strbuf.lean` a callback writes to the memory it is given and nothing else;
  in `Model/Using.lean` (C85) it may do anything, also call the library.

## 2. What is modelled

| file in /repo | model | not modelled |
|---|---|---|
| strview.c, strview.h | `Model/Strview.lean`: all functions; `Model/Macros.lean`: the macros; `Model/Print.lean`: `PRIstr` | `printf` of the C library beyond `%.*s` |
| strnum.c, strnum.h | `Model/Strnum.lean`: all functions, for all integer types and float, double, long double | floating point arithmetic itself: an arbitrary structure of operations (`FloatOps`) in C24, C27, C29, C31 exact rational arithmetic in C30, IEEE arithmetic in C69 and C70 |
| strbuf.c, strbuf.h | `Model/Strbuf.lean`: all functions; `STRBUF_STATIC_INIT`, `strbuf_space_t`; `Model/Macros.lean`: the macros; `Model/Stdlib.lean`: the default allocator over `free` and `realloc`; `Model/Using.lean`: `strbuf_append_using` with callbacks that may call the library | `vsnprintf`, the formatter behind `prnf` (but see test/prnf.c): arbitrary environment |
| accessories/strbuf_pack.h, strview_unpack.h, xendian.h | `Model/Pack.lean` | |
| accessories/strbuf_io.c, strview_io.c | `Model/Io.lean` | POSIX `read` and `write`: arbitrary partial transfers and errors |
| accessories/strbuf_crypt | `Model/Aes.lean`, `Model/Crypt.lean` | |
| examples/parse-uri | `Model/Uri.lean` | the last line `main` prints |
| test/prnf.c, prnf.h, prnf_conf.h | `Model/Prnf.lean`: the formatter; `Model/StrbufPrnf.lean`: `strbuf_prnf` with it | the AVR and `PRNF_SUPPORT_EXTENSIONS` parts, which the configuration disables; `va_list` is a list of arguments; `float` is IEEE binary32 with every operation rounded (FLT_EVAL_METHOD 0, round to nearest even) |
| other examples | `Model/Examples.lean`, `Model/Testnum.lean`, `Model/Stdlib.lean` | the fixed texts they print, `getline`, the conversion of the numbers that testnum prints to text |
| tests | `Conform/`: the unit tests the kernel runs quickly, as checks of the model | the others |

Properties of the model that are simplifications are stated in the comment of each definition.

## 3. Properties

The statements are in `properties.jsonl`, the theorems and their status in `MANIFEST.json`. Model and proof for each:

| id | model | proof |
|---|---|---|
| C01 | is_match, memcmp over memory | induction on the viewed lists. The documented statement about a valid empty and an invalid view is false of the code; negation proved |
| C02 | memcmp_nocase, toupper | induction; equivalence relation from list equality of folded contents |
| C03 | starts_with | memcmp lemma, prefix relation on lists |
| C04 | compare | memcmp sign lemma; lexicographic order on lists; transitivity on the spec side |
| C05 | sub | case analysis with linear arithmetic over all ints |
| C06 | trim functions, contains_char | induction on length; maximality stated with membership |
| C07 | find_first | loop invariant: no match at any earlier offset |
| C08 | find_last incl. pointer wrap | loop invariant from the end; deviation at low addresses: negation proved with a concrete memory |
| C09 | contains | from C07; agreement with C08 |
| C10 | split_first_delim | scan-loop lemma, list decomposition |
| C11 | exclude_quotes scan | invariant: in_quotes = parity of quotes so far |
| C12 | split_last_delim | scan-loop from the end |
| C13 | split_all and iteration | induction on number of delimiters |
| C14 | split_index | linear arithmetic |
| C15 | split_left / split_right | linear arithmetic |
| C16 | pop_first_char | direct, iteration by induction |
| C17 | split_line | list decomposition, induction over calls |
| C18 | split_line with eol over fragments | deviation: CR, LF, LF delivered one byte at a time loses a line; negation proved, restricted theorem `_partial` |
| C19 | dequote | deviation: any equal first/last byte is treated as a quote; negation proved, `_partial` for quote characters |
| C20 | to_cstr, cstr | store lemmas, frame |
| C21 | all view functions | corollary collection of the `ok` theorems |
| C22 | consume_unsigned, consume_decimal_digits, consume_hex_digits | digit-loop invariants, value of digit lists in Nat |
| C23 | consume_signed | as C22 plus 64-bit negation |
| C24 | all consume functions | case analysis on outcome |
| C25 | consume_base_prefix | case analysis over flags |
| C26 | isbdigit etc. | deviation: bytes 0xB0, 0xB1 are accepted as binary digits; negation proved, `_partial` for bytes < 0x80 |
| C27 | strnum_<type> | corollary |
| C28 | decimal/hex/binary printing spec | Nat.toDigits-style spec, round trip by induction |
| C29 | process_float_components | deviation: "infinity" not recognised ("infinty" typo); negation proved; grammar theorem for the rest |
| C30 | make_float over an exact field (Rat) | deviation: wrong from three chunks on; negation proved for every text with more; `_partial` for up to two chunks |
| C31 | consume with NULL src | deviation: strnum_consume_float dereferences NULL; negation proved; others proved |
| C32 | all buffer operations | `BufAt` (bytes of header, content, terminator, capacity) is established by creation and kept by each operation; then induction over programs |
| C33 | insert_strview_into_buf, change_buf_capacity | memory lemmas, aliasing case split |
| C34 | insert_at_index, prepend | as C33, straddling |
| C35 | insert_before/after | from C34 |
| C36 | assign | memmove lemma |
| C37 | buffer_vcat | induction on argument list |
| C38 | fixed buffers | from per-op theorems with frame |
| C39 | overflow paths | under `-fwrapv`: emptied; under ISO C the overflow test itself is UB: negation proved |
| C40 | strip | loop invariant; deviation for stripchars inside the buffer: negation proved |
| C41 | append_char | induction over the sequence |
| C42 | shrink/grow | change_buf_capacity lemma |
| C43 | every allocator call of every operation is logged | the log of any history replays in a machine that knows only which blocks are live: only live blocks are freed or resized, each with the allocator that made it; after destroying all buffers nothing is live |
| C44 | to_cstr | memory lemmas |
| C45 | append_using | callback as arbitrary function writing into the offered range |
| C46 | append_vprintf | vsnprintf as oracle text/err; deviation: negative return corrupts size; negation proved |
| C47 | append_vprnf | formatter as arbitrary character sequence; induction |
| C48 | create_fixed | direct |
| C49 | create_empty, create_init | from the insertion theorem; NULL answer of the allocator: undefined behaviour proved |
| C50 | all ops with NULL handle | direct |
| C51 | frame | part of per-op theorems |
| C52 | programs of buffer operations whose arguments are constants or sub-ranges of live buffers | forward simulation of a map from handles to byte strings; induction over the program |
| C53 | capacity and allocator log | arithmetic lemmas on rounding; log unchanged if the result fits. Rounding of new buffers, promised in strbuf.h, is not done: negation proved |
| C54 | xendian.h, strbuf_pack.h, strview_unpack.h on hosts of both byte orders | byte decomposition lemmas; induction over the sequence of packed values; unpacking from a short view: undefined behaviour proved |
| C55 | strbuf_io.c, strview_io.c; the operating system decides in each call how much is transferred, or fails | induction over the sequence of calls: output + content + remaining input is invariant; delivery by a measure |
| C56 | strbuf_crypt.c, memxor.c on memory; block cipher from C57 | CBC as an inductive relation over the FIPS 197 relation; loop invariants on memory; PKCS#7 lemma; negations for undocumented failures |
| C57 | gf256mul.c, aes_sbox.c, aes_invsbox.c, aes_enc.c, aes_dec.c, aes_keyschedule.c | specification after FIPS 197 (field GF(2^8) as polynomials, S-box as inverse and affine map, key expansion as recurrence); tables checked over all 256 bytes by the kernel and lifted; mixColumns by linear algebra; induction over rounds |
| C58 | parse_uri of the URI example | from view lemmas; grammar as concatenation of components |
| C59 | test/prnf.c as configured by test/prnf_conf.h: parser, argument fetching, conversions, output; memory, handler or nothing as destination | specification: list of items with notation, arguments and output; induction over flags, digits, items; loop = output of the item list; large sizes: deviation proved |
| C60 | print_dec, print_signed, ulong2asc_rev | digit loop by induction; decimal value of the digits; composition with C28; most negative long long: deviation |
| C61 | print_hex, print_bin | induction over the digits; shifts by too much: deviation |
| C62 | print_str, prnf_strlen | induction over the characters; over-read: deviation |
| C63 | prepad, postpad, print_char | length of the field; %c: deviation |
| C64 | print_col_alignment, column counter of out_char | invariant: counter = column of the output so far; pad characters from 128 on: deviation |
| C65 | snappf | from C59 and prnf_strlen; missing terminator: deviation |
| C66 | print_float and its helpers, get_eng; `C/Float32.lean` | digits by induction; rounding errors in ℚ (`Lemmas/Flt.lean`, `Lemmas/FltErr.lean`) |
| C67 | parse_placeholder, prnf_atoi | every text is cut into items up to the first mistake (Spec/PrnfForm.lean), by induction on its length; what the code does with unfinished placeholders and numbers beyond int: deviations |
| C68 | strbuf_vprnf, strbuf_append_vprnf with the formatter itself | the formatter's handler is append_char_to_buf: composition of C59 with C47 and C28 |
| C69 | the float conversions with IEEE arithmetic (`C/Ieee.lean`) | rounding lemmas in ℚ (`Lemmas/Ieee.lean`); relative error as a count of roundings through the digit loops (`Lemmas/FloatIeee.lean`); `pow` is a parameter with stated assumptions (`Pow10`), shown to be met by the correctly rounded power |
| C70 | as C69 | as C69; great and small exponents: deviations |
| C71 | print_float, strbuf_vprnf and the float conversions together | the printed text is a literal; C66 composed with C69 and C68 |
| C72 | allocfunc_stdlib and the documented allocator over a heap with `free` and `realloc` as the standard specifies them (`Model/Stdlib.lean`) | case analysis; refinement of the abstract allocator `allocCall`. The documented example allocator relies on `realloc(p, 0)`: deviation |
| C73 | `%.*s` of the C library and of the formatter (`Model/Print.lean`) | induction on the view; C59 for the formatter. The formatter looks for a terminator first: deviation |
| C74 | `_Generic` as a lookup in the association lists, `PP_NARG` as a list of macro arguments (`Model/Macros.lean`) | case analysis on the argument; the table of numbers by evaluation of all its 128 entries. More than 127 arguments: deviation |
| C75 | the example programs (`Model/Examples.lean`, `Model/Testnum.lean`) | from C38, C40, C48, C20 for the fixed buffers, from C52 and C43 for the allocated ones; induction on the calls and on the command line; from C06, C22, C23 and C29 for the lines of testnum |
| C76 | runs of (thread, command) pairs over the programs of C52 (`Spec/Threads.lean`); a call is one step, preemption inside a call is not modelled | induction on the run: commands of other threads do not change what a thread sees; C52 for the machine |
| C77 | strview_split_first_delim and strview_split_all with `exclude_quotes` | own specification of tokens outside quotes (`Spec/Text.lean`), existence and uniqueness by induction; the loop lemmas of C13 for any notion of tokens |
| C78 | programs made of the modelled functions (`Spec/Combine.lean`) | from C06, C36; C07, C15, C14; C35; a simulation of the line reader of C18 by induction on the pieces, the memory of the buffer being its place; C68, C13 and C28 by induction on the list; replacing and counting (`Spec/Replace.lean`, `Spec/Count.lean`) by induction on the occurrences, fields on the length of the text; fields in reverse order (`Spec/Reverse.lean`) by induction on the fields, from C10, C34; groups from the end (`Spec/Group.lean`) by induction on the groups, from C14, C34; paths (`Spec/Path.lean`) from C11; `name = value` lines (`Spec/Settings.lean`) by induction on the lines, from C17, C10, C06; messages (`Spec/Frames.lean`) by induction on the list, from C54, C33, C14 |
| C79 | programs that hold views and call view functions (`Spec/ViewHist.lean`) | what each function returns lies in its source (C21_results_inside and so on, from C05–C19); induction on the calls |
| C80 | programs that mix buffer commands, view calls and kept views (`Spec/HeldViews.lean`) | every call gives exactly the part (offset, length) its meaning says (from C05–C19, with exact locations); a buffer command leaves the variables and storage it does not change (C52); induction on the program |
| C81 | all operations on a buffer (`Edit.Room` in `Spec/BufOp.lean`), and programs with kept views | the theorem over all operations (C32) with an account of the allocator calls; for the bundled formatter an induction on the characters; programs by C80 and induction on the commands |
| C82 | the view functions and buffer operations of C01-C09, C14-C16, C33-C42, and programs (C52) | the characterisation of each function determines the other; insertions unfold to the same call; sequences on abstract buffers, carried to the machine by C52 |
| C83 | view functions, integer conversions, mixed programs (C80) in two memories | the characterisations mention the bytes only; for programs the refinement of C80 twice, and that its meaning is unambiguous |
| C84 | `allocCall` records memory and heap at every call (`St.moments`, a ghost: no function reads it); what the program finds when the allocator leaves at that call is this record (what happens up to a call does not depend on its answer) | walk through every function: at most one request, and it finds the state at entry; by cases the functions with more requests; programs by induction over the commands |
| C85 | `strbuf_append_using` with a callback that is an arbitrary function on machine states and its own data (Model/Using.lean); programs with nested callbacks as a tree | induction over the tree: the buffer in use is not changed by the callback's commands, so the fields read before the callback are still right; then the call is the one of C45 in the state the callback left |
| C86 | programs as functions from the answers so far to the next action (command of C80 or question); `play` runs them with the modelled functions, `Plays` is their meaning over byte strings (Spec/Observe.lean) | induction on the number of steps, with C80 for commands and C01-C04, C09, C16, C22, C23 for the questions; uniqueness of every answer |
| C87 | as C86, with `strbuf_append_read`, `strbuf_write`, `strview_write` as further actions, a world of bytes to come and bytes written, and a decision of the operating system for each call (Spec/Filter.lean); the filter as a state machine (Spec/Grep.lean) | induction on the number of steps with C86 and C55 for the transfers; the filter: an invariant for each place of the program and a measure that falls at every step, then refinement |
| C88 | as C87, with pack, unpack, encrypt and decrypt as further actions (Spec/Filter.lean), and two programs as state machines (Spec/Sealed.lean); the cipher is specified by FIPS 197 and the CBC equations (C56, C57) | C54 and C56 for the actions; an invariant for each place of the programs, a measure, then refinement; the two programs compose because decryption is determined by the ciphertext |
| C89 | the programs of C87 and C88 as tasks with variables, views and worlds of their own, one machine, a schedule that is an arbitrary list of task numbers (Spec/Tasks.lean); renaming of the variables of a program (Spec/Instances.lean) | every action depends on and changes the variables it names only (on byte strings and in the machine), so a family of abstract states that agree with the common one on what each task owns is invariant; renaming commutes with every action |
| C90 | the log of the allocator calls (C43) for the programs of C87 to C89; `andFree`: a program followed by `strbuf_destroy` of some variables (Spec/Cleanup.lean) | the invariant of C43 between log and live blocks is kept by every action of the accessories too; a program without C strings keeps its buffers in the variables it creates them in, so destroying them empties the heap |
| C91 | two pointer variables, calls through either (Spec/Alias.lean) | histories: C81 step by step; dangling: the block left by a move or released by destroy is unmapped, and every function reads or writes the header before anything else of the buffer |
| C92 | the allocator's answers with NULL allowed; the same state with NULL answers replaced by a breach of the contract (Spec/Fail.lean) | every function either runs alike in the two states or ends at the NULL answer with an access to a member of NULL (a simulation, function by function); then C52 and the contract theorem for the strict state |


No property in the list is considered inexpressible.

### Statuses
A property is `proved` if the English statement holds of the model for everything it ranges over. It is `partial` if the code violates it, or
violates it under the rules of ISO C: then the negation is proved on a concrete witness (`..._deviation...`), the property is proved with
the exception spelled out as a hypothesis (`..._partial`), and where possible a theorem says what the code does in every
case (`C19_dequote_layers`, `C22_unsigned_actual`, `C23_signed_actual`).

### Reading the buffer theorems
`BufAt s p b` says that in state `s` the bytes at `p` are a buffer with content `b.data`, capacity `b.cap` and allocator `b.al`. `Source s p b v l` says that
view `v` denotes the bytes `l`, outside of the buffer or as a part of its content. `Yields`, `YieldsVia`, `Changed` (`Spec/Buf.lean`) say: the call returns
the view of the whole new content; the buffer is at `p'` now, with the stated content and capacity and the same
allocator; no byte outside the old and the new storage has changed; the allocator was called as stated; or, for dynamic buffers only, the allocator's answer was illegal.
`St.Sane` says that live blocks do not overlap and are mapped. `Spec/BufOp.lean` collects all operations in one type (`Edit`) with their
meaning on byte strings, `Spec/BufHist.lean` gives programs over several buffers.

## 4. Disagreements between code and documentation

Each is a theorem with a concrete witness or a general statement.

| theorem | what happens |
|---|---|
| C01_deviation_empty_matches_invalid | a valid empty view matches an invalid view |
| C14_docs_deviation | `strview_split_index` with an index outside of the source: docs/strview-api.md says an invalid view and an unmodified source, strview.h and the code take all characters |
| C08_deviation_low_address, C08_every_low_address_deviation | `strview_find_last` reads unmapped memory if the haystack is near address 0 and shorter than the needle |
| C18_every_lone_deviation, C18_deviation_fragmented; exact: C18_exact, C18_right_iff | `strview_split_line` loses a line if CR LF LF arrives byte by byte |
| C19_deviation_unquoted | `strview_dequote` shortens unquoted texts that start and end with the same byte |
| C26_deviation_fake_binary_digit | 0xB0 and 0xB1 are taken for binary digits |
| C29_deviation_infinity, C29_deviation_infinty | "infinity" is misspelt in the code |
| C30_deviation_long | integral parts that cannot be cut into two numbers of 64 bits (for example 41 digits 1) get too great a value even with exact arithmetic |
| C31_deviation_float_null_source | `strnum_consume_float(.., NULL, ..)` dereferences NULL |
| C39_iso_deviation, C39_iso_every_insertion, C39_iso_cat_deviation, C44_iso_deviation | the overflow test overflows; `size + 1` overflows |
| C40_strip_self_deviation, C40_strip_own, C40_strip_own_differs | `strbuf_strip` with characters from the buffer itself; exactly what is left then |
| C46_append_printf_error_deviation, C46_error_deviation, C46_every_printf_self_deviation, C46_printf_self_deviation | an error of `vsnprintf` shortens the buffer; printing a buffer to itself loses the content |
| C49_alloc_failure_deviation | a NULL answer of the allocator is used |
| C53_rounding_deviation | capacities of new buffers are not rounded |
| C54_short_view_undefined | unpacking reads beyond a view that is too short |
| C56_view_deviation, C56_full_buffer_deviation, C56_bad_padding_deviation, C56_huge_deviation | the returned view is always invalid; a fixed buffer full of ciphertext is not decrypted, silently; damaged padding makes the size negative and writes before the content; with fewer than 16 bytes left to the largest `int` the padded size overflows |
| C57_big_endian_deviation | wrong key schedule on big-endian hosts |
| C69_nearest_deviation | "0.3" is not converted to the nearest `double` (the documentation warns of this) |
| C70_exponent_overflow_deviation, C70_underflow_deviation, C70_digits_overflow_deviation, C70_float_deviation, C70_long_deviation | the power of ten overflows or underflows alone: "0.1e39" is refused by `float`, "0e39" is converted to NaN and "12345678901234567890e-50" to 0, without an error; 1 followed by 310 zeros and "e-330" is converted to NaN by `double` |
| C71_zero_flag_deviation, C71_zero_flag_exact | with the flag 0 the zeros stand before the sign: `%07.1f` of -2.5 prints `000-2.5`, which is read as 0 |
| C66_product_deviation | `%f` of 16777215 prints `16777214.976`: the digits come from a `float` product (within the error stated in C66) |
| C59_large_size_deviation | `snprnf` with a size above INT_MAX prints nothing |
| C60_llong_min_deviation, C60_every_llong_min_deviation | `%lld` of the most negative number overflows |
| C61_shift_deviation | `%.0x`, `%.17x`, `%.0o` shift by an illegal amount; `%.65x` prints one digit (C61_hex_every_count, C61_bin_every_count: what every count does) |
| C62_over_read_deviation, C62_negative_precision_deviation, C62_every_over_read_deviation, C62_every_negative_precision_deviation | `%.*s` of a view reads beyond the view up to the next terminator; a negative precision reads without end |
| C63_char_deviation, C63_every_char_deviation | `%5c` is not padded |
| C64_every_pad_deviation, C64_pad_deviation | pad characters from 128 on are printed instead of used |
| C65_every_unterminated_deviation, C65_unterminated_deviation | `snappf` reads beyond a buffer without terminator |
| C66_precision_deviation, C66_every_precision_deviation | a precision of `%f` is taken modulo 256 |
| C67_percent_at_end_deviation, C67_unfinished_deviation | a format that ends within a placeholder is read beyond its end |
| C67_number_deviation, C67_overlong_deviation | widths, precisions and columns beyond INT_MAX overflow |
| C72_documented_deviation | the allocator given as an example in strbuf.h calls `realloc(p, 0)`, which may keep the block or be undefined |
| C73_prnf_deviation, C73_prnf_exact | `strbuf_prnf` of a view with `PRIstr` reads beyond the view: exact when there is a NUL somewhere at or behind the start of the view, undefined behaviour when there is none |
| C74_cat_deviation | `strbuf_cat` with 128 or more arguments does not compile |
| C92_to_cstr_deviation | `strbuf_to_cstr` with a NULL answer of the allocator writes a NUL at the address `size`, returns NULL and loses the block |
| C84_to_cstr_loses_buffer | `strbuf_to_cstr` has overwritten the header when it asks for memory: if the allocator leaves, the buffer is lost |
| C84_prnf_stale_pointer | `strbuf_prnf`, `strbuf_append_prnf` have released the caller's block when they ask again: if the allocator leaves, the caller's pointer dangles |
| C85_moved_buffer, C85_grow_in_callback | `strbuf_append_using` goes on with the old address after the callback: a callback that enlarges its own buffer makes the call undefined, although the pointer it was given is kept up to date |
| C58_ambiguous_texts | ':' or '@' in a path is taken for a delimiter |

## 5. Wrong programs

`seeded/LOG.jsonl` records edits of the model, made in a scratch copy, and the theorems that stopped checking; `seeded/README.md` says how to read it.

## 6. Trusted base
* The Lean 4.33.0 kernel. The axioms each theorem depends on are listed below: at most `propext`, `Classical.choice` and `Quot.sound`. No axioms are added, and
  no `sorry`, `native_decide` or `bv_decide` is used. `decide +kernel` is used for closed terms only: the 256 entries of the AES tables, concrete witnesses and examples.
* Mathlib is used only for the rational numbers in C30 (`Spec/FloatValue.lean`, `Lemmas/FloatRat.lean`, `Props/FloatValue.lean`) and in C66
  (`Lemmas/Flt.lean` and what imports it), C69 and C70 (`Lemmas/Ieee.lean` and what imports it).
* For C66, C69 and C70: that `float`, `double` and `long double` arithmetic is IEEE 754 with round to nearest, ties to even, without
  excess precision (`C/Float32.lean`, `C/Ieee.lean`); signed zeros are not distinguished. `pow(10, n)` of the library is a parameter; what is assumed of it is
  the hypothesis `Pow10` of the theorems, and `pow10_binary32` etc. show that the correctly rounded power meets it.
* The hand translation of the C sources into Lean (each definition cites the modelled lines) and the machine described in section 1.
  `Conform/` runs the project's own unit tests (most of test/test.c, statement by statement) in the model: all assertions hold. These are tests of the translation,
  not proofs of properties, and no claim rests on them; which tests are left out is said in `Conform/Base.lean`.
* The specifications in `Spec/` and the statements in `Props/`.

### Axioms

These 20 theorems depend on: propext.

C03_starts_with_invalid, C05_sub_empty, C07_find_first_invalid, C13_split_all_invalid, C15_split_invalid, C16_pop_empty, C18_deviation_fragmented, C19_dequote_empty, C19_deviation_unquoted, C20_to_cstr_nothing, C21_null_source_safe, C46_error_deviation, C46_printf_self_deviation, C50_null_handle_others, C55_null, C58_ambiguous_texts, C74_create_view, C74_null, C75_alloc_text, C85_simple

These 85 theorems depend on: Quot.sound, propext.

C02_toUpper, C05_sub_out_of_range, C06_one_sided_idempotent, C06_one_sided_valid, C06_trim, C06_trim_cstr, C06_trim_end, C06_trim_idempotent, C06_trim_start, C06_trim_valid, C07_find_first_cstr, C08_deviation_low_address, C08_find_last_cstr, C08_find_last_invalid, C08_placement, C10_split_first_null, C12_split_last_null, C13_split_all_null, C14_docs_deviation, C14_split_index, C14_split_index_invalid, C15_located, C15_split_left, C15_split_outside, C15_split_right, C16_pop_all, C16_pop_cons, C21_index_functions_safe, C25_options_independent, C26_deviation_fake_binary_digit, C29_text_unique, C31_double_null_source, C31_integer_null_source, C34_position, C48_create_fixed_null, C48_static_init, C49_alloc_failure_deviation, C49_create_null, C50_null_handle, C53_capacity, C54_short_view_undefined, C55_view_write_error, C56_cbc_unique, C56_null, C56_view_deviation, C57_encrypts_unique, C57_field, C57_sbox, C58_demo, C72_contract, C72_documented, C72_documented_deviation, C72_release, C73_printf, C73_printf_all, C74_buf, C74_cat_count, C74_cat_deviation, C74_cat_partial, C74_create_negative, C74_create_size, C74_cstr_SL, C74_cstr_SL_eq, C74_view, C75_stack_ex2_limit, C77_quotes_paired, C79_substring, C80_deterministic, C80_stale_view_is_ub, C82_append_append, C82_assign_append, C82_prepend_append, C82_shrink_shrink, C82_strip_strip, C82_trim_order, C84_prnf_stale_pointer, C86_deterministic, C86_questions_read_only, C87_streams, C91_dangling, C92_created, C92_crypt, C92_next_answer, C92_returned, C92_write

These 386 theorems depend on: Classical.choice, Quot.sound, propext.

C01_deviation_empty_matches_invalid, C01_invalid_matches_only_empty, C01_is_match_cstr, C01_is_match_iff_contents_equal, C02_is_match_nocase, C02_is_match_nocase_cstr, C02_nocase_equivalence, C03_starts_with, C03_starts_with_cstr, C03_starts_with_nocase, C04_compare_is_total_order, C04_compare_lexicographic, C05_sub_in_range, C07_find_first, C07_find_first_empty_needle, C07_find_first_nocase, C08_every_low_address_deviation, C08_find_last_empty_needle, C08_find_last_nocase_partial, C08_find_last_partial, C09_agrees_with_find, C09_agrees_with_find_nocase, C09_contains, C09_contains_nocase, C10_split_first_delim, C11_split_first_delim, C11_split_last_delim, C12_split_last_delim, C13_repeated_split, C13_split_all, C13_tokens_exist_unique, C17_all_lines, C17_all_lines_eol, C17_lines_exist_unique, C17_split_line, C18_any_fragmentation_partial, C18_cuts_agree_partial, C18_every_lone_deviation, C18_exact, C18_fragmentation_partial, C18_pieces_of_two, C18_right_iff, C18_text_without_triples, C19_dequote_layers, C19_dequote_partial, C20_to_cstr, C20_to_cstr_read_back, C21_cstr_functions_safe, C21_delim_functions_safe, C21_delim_results_inside, C21_find_last_cstr_safe_partial, C21_find_last_inside_partial, C21_find_last_safe_partial, C21_index_results_inside, C21_results_inside, C21_split_all_safe, C21_view_functions_safe, C22_text_exists_unique, C22_unsigned_actual, C22_unsigned_partial, C23_limits, C23_signed_actual, C23_signed_partial, C23_text_exists_unique, C24_float_failure_atomic, C24_signed_failure_atomic, C24_unsigned_failure_atomic, C25_choice_exists, C25_nobx_reads_zero, C25_signed_base, C25_unsigned_base, C26_unsigned_digits_only_partial, C27_float_default, C27_signed_default, C27_unsigned_default, C28_signed_decimal, C28_unsigned_bin_partial, C28_unsigned_decimal, C28_unsigned_hex, C29_deviation_infinity, C29_deviation_infinty, C29_number, C29_reject, C29_special_partial, C30_deviation_long, C30_exact_value_partial, C31_deviation_float_null_source, C32_every_operation, C32_program, C32_terminated, C33_append, C33_append_cstr, C33_append_self, C34_insert, C34_insert_cstr, C34_prepend, C34_prepend_cstr, C35_insert_after, C35_insert_after_cstr, C35_insert_before, C35_insert_before_cstr, C35_not_located, C36_assign, C36_assign_invalid, C37_cat, C37_cat_dynamic, C37_cat_self, C37_cat_self_fixed, C38_every_operation, C38_fixed_insert, C38_fixed_others, C39_dynamic, C39_dynamic_cat, C39_dynamic_located, C39_iso_cat_deviation, C39_iso_deviation, C39_iso_every_insertion, C40_strip_cstr_partial, C40_strip_invalid, C40_strip_own, C40_strip_own_differs, C40_strip_partial, C40_strip_self_deviation, C41_append_chars, C41_append_chars_fixed, C42_grow, C42_grow_fixed, C42_shrink, C43_all_released, C43_allocator_protocol, C43_balanced, C43_destroy, C43_destroy_twice, C43_no_leak, C44_iso_deviation, C44_to_cstr, C44_to_cstr_fixed, C44_to_cstr_string, C45_append_using, C45_append_using_fault, C46_append_printf_error_deviation, C46_append_printf_partial, C46_every_printf_self_deviation, C46_printf_partial, C47_append_prnf, C47_prnf, C48_create_fixed, C49_create_empty, C49_create_init, C51_frame, C52_contents, C52_refinement, C53_calls, C53_rounding_deviation, C54_pack, C54_pack_all, C54_round_trip, C54_unpack, C54_unpack_all, C55_append_read, C55_append_read_error, C55_conservation, C55_delivery, C55_view_delivery, C55_view_write, C55_write, C55_write_error, C56_bad_padding_deviation, C56_cbc_onto, C56_decrypt, C56_decrypt_any, C56_decrypt_short, C56_encrypt, C56_full_buffer_deviation, C56_huge_deviation, C56_no_room, C56_round_trip, C57_big_endian_deviation, C57_decrypt, C57_encrypt, C57_inverse, C57_key_lengths, C58_components_inside, C58_host_uri, C58_path_uri, C58_program_host, C58_program_path, C58_program_safe, C59_count_only, C59_handler, C59_large_size_deviation, C59_printed, C59_snprnf_partial, C59_sprnf, C60_every_llong_min_deviation, C60_llong_min_deviation, C60_read_back, C60_signed_partial, C60_unsigned, C61_bin_every_count, C61_bin_partial, C61_hex_every_count, C61_hex_partial, C61_shift_deviation, C62_centred, C62_every_negative_precision_deviation, C62_every_over_read_deviation, C62_negative_precision_deviation, C62_over_read_deviation, C62_string_partial, C62_view_partial, C63_char_deviation, C63_every_char_deviation, C63_width_partial, C64_align_partial, C64_every_pad_deviation, C64_pad_deviation, C64_plain, C65_append_partial, C65_every_unterminated_deviation, C65_unterminated_deviation, C65_zero, C66_eng, C66_every_precision_deviation, C66_float, C66_float_argument, C66_precision_deviation, C66_product_deviation, C66_special, C66_unit_range, C66_unit_unique, C67_call_partial, C67_every_format, C67_number_deviation, C67_overlong_deviation, C67_percent_at_end_deviation, C67_undefined_deviation, C67_unfinished_deviation, C67_unsupported_partial, C68_append_prnf, C68_prnf, C68_read_back, C69_accuracy_partial, C69_integer, C69_nearest_deviation, C69_relative_error, C70_digits_overflow_deviation, C70_exponent_overflow_deviation, C70_float_deviation, C70_integral_overflow_partial, C70_long_deviation, C70_outcome_partial, C70_overflow_partial, C70_underflow_deviation, C71_buffer, C71_read_back, C71_zero_flag_deviation, C71_zero_flag_exact, C72_assert, C72_request, C73_prnf_deviation, C73_prnf_exact, C73_prnf_partial, C74_is_match, C75_alloc, C75_stack_ex1, C75_stack_ex2, C75_stack_ex3, C75_static, C75_testnum, C75_testnum_line, C75_testnum_reports, C75_testnum_unique, C76_order, C76_schedule, C77_repeated_split, C77_split_all, C77_tokens_exist_unique, C78_change_delims, C78_collect_lines, C78_count, C78_cut_at_first, C78_frames_round_trip, C78_group_from_end, C78_hex_round_trip, C78_insert_after_first, C78_numbers_round_trip, C78_path_missing, C78_path_parts, C78_read_checked, C78_read_frames, C78_read_hex, C78_read_numbers, C78_replace_all, C78_replaced_determined, C78_reverse_fields, C78_settings, C78_split_join, C78_trim_buffer, C78_write_frames, C78_write_hex, C78_write_numbers, C79_any_calls, C80_contents, C80_refinement, C80_view_stays, C81_appending_keeps_views, C81_moves_only, C81_no_allocation, C81_old_views, C81_stays, C82_append_char_is_append, C82_assign_is_cat, C82_exact_implies_nocase, C82_exchange, C82_first_not_behind_last, C82_found_matches, C82_insert_forms, C82_match_compare_starts, C82_nothing_before_first, C82_pop_is_split, C82_prnf_is_append, C82_split_index_is_sub, C82_starts_iff_found_first, C82_sub_all, C82_sub_of_sub, C83_answers, C83_numbers, C83_places, C83_programs, C84_goes_on_partial, C84_program_partial, C84_request_partial, C84_request_prnf, C84_to_cstr, C84_to_cstr_loses_buffer, C84_unchanged, C84_unchanged_create, C85_any_callback, C85_any_callback_fault, C85_grow_in_callback, C85_moved_buffer, C85_refinement, C85_sequential, C86_indistinguishable, C86_read_loop, C86_refinement, C87_deterministic, C87_grep, C87_grep_finishes, C87_grep_prefix, C87_indistinguishable, C87_refinement, C88_delivered, C88_open, C88_open_finishes, C88_open_prefix, C88_seal, C88_seal_finishes, C88_seal_prefix, C88_sealed_unique, C89_alone, C89_greps, C89_instances, C89_order, C89_schedule, C90_cleanup, C90_grep, C90_greps, C90_open, C90_protocol, C90_seal, C90_tasks, C90_tasks_cleanup, C91_destroyed, C91_destroyed_fixed, C91_interchangeable, C91_moved, C91_two_pointers, C92_every_program_partial, C92_grep, C92_interactive_partial, C92_operation, C92_program_partial, C92_tasks_partial, C92_to_cstr_deviation
