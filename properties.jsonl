{"id": "C01", "title": "strview_is_match is content equality", "statement": "For two views of readable memory, strview_is_match returns true exactly when the two viewed byte sequences are equal, wherever the two views are located (same memory, overlapping, or disjoint), and it reads no byte outside either view. A view never matches an invalid view unless it has size 0. (The API document also says a valid empty view does not match an invalid view; the code disagrees, see DESIGN.md.)", "quantifier": "every pair of views (any lengths up to INT_MAX, any bytes, any aliasing) in every memory", "why_tests_cant": "The input space is infinite (every length and every byte value); a test fixes a handful of literals. Aliasing adds every overlap offset.", "anchors": ["strview.c: strview_is_match_strview", "strview.c: strview_is_match_cstr", "docs/strview-api.md: strview_is_match"]}
{"id": "C02", "title": "strview_is_match_nocase is equality after ASCII case folding", "statement": "strview_is_match_nocase returns true exactly when the two views have the same length and every pair of corresponding bytes is equal after upper-casing a..z; it is an equivalence relation on valid views and is implied by strview_is_match.", "quantifier": "every pair (triple, for transitivity) of views", "why_tests_cant": "The input space is infinite (every length and every byte value); a test fixes a handful of literals.", "anchors": ["strview.c: strview_is_match_nocase_strview", "strview.c: memcmp_nocase"]}
{"id": "C03", "title": "strview_starts_with decides the prefix relation", "statement": "For valid views strview_starts_with(a,b) is true exactly when b's bytes are a prefix of a's bytes (case-folded for the _nocase version); with b invalid it is true exactly when a is invalid; no byte outside the views is read even if b is longer than a.", "quantifier": "every pair of views", "why_tests_cant": "The input space is infinite (every length and every byte value); a test fixes a handful of literals.", "anchors": ["strview.c: strview_starts_with_strview", "strview.c: strview_starts_with_nocase_strview"]}
{"id": "C04", "title": "strview_compare is the lexicographic order", "statement": "The sign of strview_compare(a,b) is that of the lexicographic comparison of the two byte sequences as unsigned bytes, with a proper prefix ordered first. Hence it is 0 exactly on equal contents, it is antisymmetric, and the induced relation is transitive and total, so it can be used to sort.", "quantifier": "every pair and triple of views", "why_tests_cant": "The input space is infinite (every length and every byte value); a test fixes a handful of literals. Transitivity ranges over triples.", "anchors": ["strview.c: strview_compare"]}
{"id": "C05", "title": "strview_sub selects the documented, clipped range and never widens", "statement": "strview_sub(v, begin, end) for a non-empty v, with a negative index counted from the end of v: if begin <= end, begin < size and end >= 0 (after that conversion), the result is exactly the bytes of v at positions max(begin,0)..min(end,size); otherwise it is the invalid view. An empty or invalid v is returned unchanged. The result always lies inside v and no index value in the whole int range causes signed overflow.", "quantifier": "every view and every pair of int indexes, including INT_MIN and INT_MAX", "why_tests_cant": "2^64 index pairs for every length; boundary mistakes show only at particular combinations.", "anchors": ["strview.c: strview_sub", "docs/strview-api.md: strview_sub"]}
{"id": "C06", "title": "strview_trim_* remove exactly the maximal run of listed characters", "statement": "strview_trim_start / _end / trim return a sub-view of the source in which the removed prefix / suffix consists only of characters of the given set, and the remaining view does not start / end with a character of the set; the result of a valid source is valid, even when everything is trimmed. Trimming is idempotent.", "quantifier": "every source view and every character-set view", "why_tests_cant": "The input space is infinite (every length and every byte value); a test fixes a handful of literals.", "anchors": ["strview.c: strview_trim_start_strview", "strview.c: strview_trim_end_strview", "strview.c: strview_trim_strview", "strview.c: contains_char"]}
{"id": "C07", "title": "strview_find_first returns the leftmost occurrence", "statement": "strview_find_first (and _nocase) returns a view of exactly needle.size bytes inside the haystack whose bytes match the needle, and no occurrence starts further left; it is invalid exactly when there is no occurrence or an argument is invalid; an empty needle matches at the start.", "quantifier": "every haystack and needle", "why_tests_cant": "The input space is infinite (every length and every byte value); a test fixes a handful of literals. Leftmost-ness is a statement about all earlier positions.", "anchors": ["strview.c: strview_find_first_strview", "strview.c: strview_find_first_nocase_strview", "strview.c: find_first"]}
{"id": "C08", "title": "strview_find_last returns the rightmost occurrence", "statement": "strview_find_last (and _nocase) returns a view of exactly needle.size bytes inside the haystack whose bytes match the needle, and no occurrence starts further right; it is invalid exactly when there is no occurrence or an argument is invalid; an empty needle matches at the end. It never reads memory outside its arguments.", "quantifier": "every haystack, needle and every placement of the haystack in the address space", "why_tests_cant": "The input space is infinite (every length and every byte value); a test fixes a handful of literals. The out-of-bounds case needs a haystack at a low address, which no hosted test has.", "anchors": ["strview.c: strview_find_last_strview", "strview.c: strview_find_last_nocase_strview", "strview.c: find_last"]}
{"id": "C09", "title": "strview_contains decides the substring relation", "statement": "strview_contains(h,n) on valid views is true exactly when n's bytes occur contiguously in h (case-folded for _nocase), and agrees with the validity of strview_find_first and strview_find_last (and their _nocase forms; from the end, unless the haystack lies so close to address 0 that the exception of C08 applies).", "quantifier": "every pair of views", "why_tests_cant": "The input space is infinite (every length and every byte value); a test fixes a handful of literals.", "anchors": ["strview.c: strview_contains", "strview.c: strview_contains_nocase"]}
{"id": "C10", "title": "strview_split_first_delim partitions at the first delimiter", "statement": "strview_split_first_delim(&src, delims) on a valid src: if src contains a byte of delims, the returned view is the bytes before the first such byte and src becomes the bytes after it, so result ++ [delimiter] ++ new src is the old src; otherwise the result is the whole of src and src becomes invalid. The result and the new src lie in the old src.", "quantifier": "every source and every delimiter set", "why_tests_cant": "The input space is infinite (every length and every byte value); a test fixes a handful of literals.", "anchors": ["strview.c: strview_split_first_delim", "strview.c: split_first_delim", "strview.c: contains_char"]}
{"id": "C11", "title": "Splitting can skip quoted delimiters", "statement": "With exclude_quotes, delimiters between a pair of double quotes are not split points: strview_split_first_delim splits at the first delimiter for which the number of double quotes up to and including it is even, and strview_split_last_delim at the last delimiter for which the number of double quotes from it to the end is even; with no such delimiter the whole source is returned and src becomes invalid.", "quantifier": "every source and delimiter set", "why_tests_cant": "The input space is infinite (every length and every byte value); a test fixes a handful of literals. Quote parity depends on the entire prefix.", "anchors": ["strview.c: strview_split_first_delim", "strview.c: strview_split_last_delim", "strview.c: split_first_delim", "strview.c: split_last_delim"]}
{"id": "C12", "title": "strview_split_last_delim partitions at the last delimiter", "statement": "strview_split_last_delim(&src, delims) on a valid src: if src contains a byte of delims, the returned view is the bytes after the last such byte and src becomes the bytes before it; otherwise the result is the whole of src and src becomes invalid.", "quantifier": "every source and every delimiter set", "why_tests_cant": "The input space is infinite (every length and every byte value); a test fixes a handful of literals.", "anchors": ["strview.c: strview_split_last_delim", "strview.c: split_last_delim"]}
{"id": "C13", "title": "Tokenising by repeated split loses nothing", "statement": "Calling strview_split_first_delim until src becomes invalid terminates after exactly (number of delimiters in src)+1 calls, each returned token contains no delimiter, and the tokens joined by the delimiters that were removed reproduce the original bytes. strview_split_all returns that same token count limited to the capacity of the destination array, writes exactly that many tokens, and never writes past the array.", "quantifier": "every source, delimiter set, number of iterations and destination array size", "why_tests_cant": "It is a statement about an iterated history of unbounded length.", "anchors": ["strview.c: strview_split_first_delim", "strview.c: strview_split_all"]}
{"id": "C14", "title": "strview_split_index partitions for every index", "statement": "strview_split_index(&src, n): the result and the new src are adjacent and together are exactly the old src; with n>=0 the result is the first min(n,size) bytes, with n<0 the last min(-n,size); both are valid when src was; no int value of n overflows.", "quantifier": "every view and every int n including INT_MIN", "why_tests_cant": "2^32 indexes for every length; overflow only at the extremes.", "anchors": ["strview.c: strview_split_index", "strview.c: split_index"]}
{"id": "C15", "title": "strview_split_left / split_right partition at a located view", "statement": "For pos located in src, split_left returns the bytes of src before pos and leaves src starting at pos, and split_right returns the bytes after pos and leaves src ending at the end of pos; result and remainder are adjacent and together are the old src. If pos is not located in src the result is invalid and src is unchanged.", "quantifier": "every src and pos, including pos outside src on either side", "why_tests_cant": "The input space is infinite (every length and every byte value); a test fixes a handful of literals.", "anchors": ["strview.c: strview_split_left", "strview.c: strview_split_right"]}
{"id": "C16", "title": "strview_pop_first_char consumes one byte", "statement": "strview_pop_first_char on a non-empty view returns its first byte and leaves the rest; on an empty or invalid view it returns 0 and changes nothing. Popping until empty yields exactly the viewed bytes in order.", "quantifier": "every view; every number of pops", "why_tests_cant": "The input space is infinite (every length and every byte value); a test fixes a handful of literals.", "anchors": ["strview.c: strview_pop_first_char"]}
{"id": "C17", "title": "strview_split_line splits text at any line ending", "statement": "Repeatedly calling strview_split_line on a complete text yields exactly the lines of the text, where CR, LF, CRLF and LFCR each end one line, each returned line contains no CR or LF, and when no line ending remains an invalid view is returned and the remaining text is left in src unmodified.", "quantifier": "every text (any mixture of CR and LF) and every number of calls", "why_tests_cant": "Mixtures of line endings form an infinite regular language; the test contains one text.", "anchors": ["strview.c: strview_split_line"]}
{"id": "C18", "title": "Line splitting is independent of how the text arrives", "statement": "When text is received in pieces that are appended to a buffer, and strview_split_line is called with a persistent eol variable after each piece, the sequence of lines obtained is the same for every way of cutting the text into pieces.", "quantifier": "every text and every fragmentation of it", "why_tests_cant": "The number of fragmentations is exponential in the text length; the test tries a single one.", "anchors": ["strview.c: strview_split_line", "strview.h: strview_split_line documentation of eol"]}
{"id": "C19", "title": "strview_dequote removes matching outer quotes only", "statement": "strview_dequote returns src with the enclosing matching quote characters removed (all nested layers of the same quote character) and nothing else: an unquoted src is returned unchanged.", "quantifier": "every view", "why_tests_cant": "The input space is infinite (every length and every byte value); a test fixes a handful of literals.", "anchors": ["strview.c: strview_dequote"]}
{"id": "C20", "title": "strview_to_cstr copies, truncates and terminates inside the destination", "statement": "strview_to_cstr(dst, dst_size, v) writes the first min(v.size, dst_size-1) bytes of v followed by one NUL into dst, writes nothing when dst_size is 0, never touches any other byte, and reading dst back with cstr() gives the copied bytes up to the first NUL.", "quantifier": "every view, destination and dst_size", "why_tests_cant": "The input space is infinite (every length and every byte value); a test fixes a handful of literals.", "anchors": ["strview.c: strview_to_cstr", "strview.c: cstr"]}
{"id": "C21", "title": "View operations never leave the view's memory", "statement": "No strview function applied to valid or invalid views reads a byte outside the viewed bytes, writes memory, overflows an int, or runs forever: on a memory in which only the viewed bytes exist every call completes with a defined result.", "quantifier": "every function of strview.h, every argument views, every memory", "why_tests_cant": "Out-of-bounds reads by one byte are invisible to a test unless instrumented, and only for the inputs tried.", "anchors": ["strview.c: all functions", "strview.h"]}
{"id": "C22", "title": "Unsigned integers are parsed exactly", "statement": "strnum_value into an unsigned type of any width: after optional spaces, the longest run of digits of the selected base is read; if its mathematical value fits the type the call returns 0, stores exactly that value and leaves src just after the digits; if there is no digit it returns EINVAL; if the value does not fit it returns ERANGE.", "quantifier": "every byte sequence, every unsigned destination type, every option combination", "why_tests_cant": "Values near 2^8..2^64 and digit strings of any length; overflow arithmetic is staged over three word sizes.", "anchors": ["strnum.c: consume_unsigned, consume_decimal_digits, consume_hex_digits", "strnum.h: strnum_value"]}
{"id": "C23", "title": "Signed integers are parsed exactly", "statement": "strnum_value into a signed type: an optional + or - (unless STRNUM_NOSIGN), optional base prefix, then digits; the stored value is exactly the signed mathematical value when it lies in [MIN,MAX] of the type, otherwise ERANGE; in particular MIN itself is accepted.", "quantifier": "every byte sequence, every signed destination type, every option combination", "why_tests_cant": "The asymmetry of MIN/MAX and 64-bit negation only show at single values.", "anchors": ["strnum.c: consume_signed, consume_sign"]}
{"id": "C24", "title": "A failed number conversion changes nothing", "statement": "Whenever an integer or floating conversion returns EINVAL or ERANGE, neither src nor the destination is modified.", "quantifier": "every input, every option, every numeric type", "why_tests_cant": "The input space is infinite (every length and every byte value); a test fixes a handful of literals.", "anchors": ["strnum.c: strnum_consume_*, consume_signed, consume_unsigned, process_float_components"]}
{"id": "C25", "title": "Base selection and prefixes follow the options", "statement": "With default options 0x/0X selects hexadecimal and 0b/0B selects binary; STRNUM_NOBX reads only the leading 0; STRNUM_BASE_HEX / STRNUM_BASE_BIN set the base and make the matching prefix optional; the non-matching prefix is not interpreted as a prefix.", "quantifier": "every input and every combination of option flags", "why_tests_cant": "All 64 flag combinations times every input.", "anchors": ["strnum.c: consume_base_prefix, consume_digits"]}
{"id": "C26", "title": "Only digits of the selected base are consumed", "statement": "A numeric conversion consumes only bytes that are digits of the selected base: 0-9, 0-9a-fA-F, or 0 and 1.", "quantifier": "every byte value at every position", "why_tests_cant": "Tests use printable ASCII; the deviation is in the upper 128 byte values.", "anchors": ["strnum.c: isbdigit, split_digits, consume_bin_digits"]}
{"id": "C27", "title": "Default-value variants are total and non-consuming", "statement": "strnum_<type>(src, default, options) returns the parsed value when the corresponding consume function succeeds and the default otherwise, for every input including an invalid view, and does not alter the caller's view.", "quantifier": "every view, default, option", "why_tests_cant": "The input space is infinite (every length and every byte value); a test fixes a handful of literals.", "anchors": ["strnum.c: strnum_int and siblings"]}
{"id": "C28", "title": "Printing then parsing an integer is the identity", "statement": "For every integer of every supported type, parsing its decimal (and for unsigned: hexadecimal, binary) representation followed by any text that cannot continue the number gives back the integer and leaves exactly the following text. Texts that continue a number: digits of the base; after a decimal 0, also b, B, x, X (unless the no-prefix option is given).", "quantifier": "every value of every integer type (2^64 for the widest), every following text", "why_tests_cant": "2^64 values.", "anchors": ["strnum.c: strnum_consume_*", "test/test.c: TEST_AT_LIMIT"]}
{"id": "C29", "title": "Floating point literals are recognised by their grammar", "statement": "The floating point conversion accepts exactly [spaces][sign] digits [. [digits]] or . digits, followed by an optional exponent e[sign]digits (unless STRNUM_NOEXP), or inf / infinity / nan in any case, consumes the longest such literal, and leaves the rest in src.", "quantifier": "every input", "why_tests_cant": "The input space is infinite (every length and every byte value); a test fixes a handful of literals.", "anchors": ["strnum.c: process_float_components, consume_float_special, consume_exponent"]}
{"id": "C30", "title": "Decimal digits of a floating literal are assembled to the right value", "statement": "Apart from rounding, the value computed for a floating literal is the mathematical value of its digits: with exact arithmetic the digit-assembly loops return integral + fraction times 10 to the exponent, for any number of digits.", "quantifier": "every digit string of any length", "why_tests_cant": "The error appears only beyond 40 integral digits and only if certain digits are non-zero.", "anchors": ["strnum.c: make_float_type macro, consume_decimal_digits"]}
{"id": "C31", "title": "NULL source views are rejected safely by every conversion", "statement": "Passing a NULL src to any strnum_consume function returns EINVAL without memory access and without changing the destination.", "quantifier": "every numeric type and option", "why_tests_cant": "Each type is a separate instantiation; one of them deviates.", "anchors": ["strnum.c: strnum_consume_float, strnum_consume_double, strnum_consume_int"]}
{"id": "C32", "title": "Buffers are always terminated and within capacity", "statement": "After any sequence of buffer operations every live buffer has 0 <= size <= capacity, its content is followed by a NUL byte, and the view returned by an operation is exactly the buffer's whole content.", "quantifier": "every history of operations with every argument, every allocator behaviour (in place, moving)", "why_tests_cant": "Invariant over unbounded histories and all allocator decisions.", "anchors": ["strbuf.c: strbuf_append_strview", "strbuf.c: strbuf_assign", "strbuf.c: insert_strview_into_buf", "strbuf.c: strview_of_buf", "strbuf.h"]}
{"id": "C33", "title": "strbuf_append concatenates, even from itself and across relocation", "statement": "strbuf_append(&buf, v) on a buffer able to hold the result makes its content old ++ bytes(v), where bytes(v) are v's bytes at the time of the call, also when v views any part of the same buffer and when growing moves the buffer; no other memory changes.", "quantifier": "every content, every source view (outside or any sub-range of the buffer), every allocator decision", "why_tests_cant": "Bugs depend on the combination of aliasing offset, capacity and allocator relocation.", "anchors": ["strbuf.c: strbuf_append_strview", "strbuf.c: insert_strview_into_buf", "strbuf.c: change_buf_capacity"]}
{"id": "C34", "title": "strbuf_insert_at_index / prepend insert at the right place, even from itself", "statement": "strbuf_insert_at_index(&buf, i, v) makes the content take(k) ++ bytes(v) ++ drop(k) of the old content, where k is i clipped to the content (negative counts from the end); prepend is k=0. v may be any sub-range of the buffer, straddling the insertion point or not, and the buffer may move.", "quantifier": "every content, index, source sub-range and allocator decision", "why_tests_cant": "Straddling cases form a three-parameter family; the test tries one.", "anchors": ["strbuf.c: strbuf_insert_at_index_strview", "strbuf.c: strbuf_prepend_strview", "strbuf.c: insert_strview_into_buf"]}
{"id": "C35", "title": "strbuf_insert_before / after insert next to a located view", "statement": "If dst is located in the buffer's content, insert_before inserts at the start of dst and insert_after at its end; otherwise the buffer is unchanged. The inserted bytes are those of v at the time of the call even if v views the buffer.", "quantifier": "every content, location and source", "why_tests_cant": "The input space is infinite (every length and every byte value); a test fixes a handful of literals.", "anchors": ["strbuf.c: strbuf_insert_before_strview", "strbuf.c: strbuf_insert_after_strview"]}
{"id": "C36", "title": "strbuf_assign sets the content, even from itself", "statement": "strbuf_assign(&buf, v) makes the content equal to v's bytes as they were before the call, for v outside the buffer or any sub-range of it; assigning an invalid view empties the buffer.", "quantifier": "every content, source and allocator decision", "why_tests_cant": "The input space is infinite (every length and every byte value); a test fixes a handful of literals.", "anchors": ["strbuf.c: strbuf_assign"]}
{"id": "C37", "title": "strbuf_cat concatenates any number of views, including the destination's own", "statement": "strbuf_cat(&buf, v1..vn) makes the content of a dynamic buffer the concatenation of all argument contents as before the call, for any n and even if arguments view the buffer itself; for a fixed buffer the same holds if no argument views the buffer and the result fits.", "quantifier": "every number of arguments, every mixture of internal and external views, every allocator decision", "why_tests_cant": "Unbounded argument lists and aliasing patterns.", "anchors": ["strbuf.c: _strbuf_cat", "strbuf.c: strbuf_vcat", "strbuf.c: buffer_vcat"]}
{"id": "C38", "title": "A fixed buffer that cannot hold the result is emptied, never overrun or partially written", "statement": "If an operation's result does not fit a fixed buffer, the buffer becomes empty and an empty view is returned; no byte outside the buffer's storage is ever written by any operation on a fixed buffer, and the allocator is never called for it.", "quantifier": "every operation, content, capacity and argument", "why_tests_cant": "Off-by-one overruns corrupt adjacent memory silently.", "anchors": ["strbuf.c: insert_strview_into_buf", "strbuf.c: strbuf_assign", "strbuf.c: buffer_vcat", "strbuf.c: append_char_to_buf", "strbuf.c: strbuf_append_vprintf"]}
{"id": "C39", "title": "A dynamic buffer only fails by exceeding INT_MAX", "statement": "For a dynamic buffer with a working allocator, append/insert/prepend/assign/cat always produce the full result unless its size would exceed INT_MAX, in which case the buffer is emptied.", "quantifier": "every content and argument size including those near INT_MAX", "why_tests_cant": "Needs 2 GiB strings to exercise.", "anchors": ["strbuf.c: add_will_overflow_int", "strbuf.c: round_up_capacity", "strbuf.c: insert_strview_into_buf", "strbuf.c: buffer_vcat"]}
{"id": "C40", "title": "strbuf_strip removes exactly the listed characters", "statement": "strbuf_strip(&buf, chars) leaves the content with every byte of chars removed and the other bytes in order, for chars given by a view of memory outside the buffer or, as docs/strbuf-api.md says of every operation, inside it.", "quantifier": "every content and character set", "why_tests_cant": "The input space is infinite (every length and every byte value); a test fixes a handful of literals.", "anchors": ["strbuf.c: strbuf_strip_strview"]}
{"id": "C41", "title": "Appending characters one at a time builds the sequence", "statement": "Any sequence of strbuf_append_char calls makes the content old ++ the characters in order on a dynamic buffer; on a fixed buffer the same holds while it fits and the buffer is emptied by the first character that does not fit.", "quantifier": "every sequence of characters of any length", "why_tests_cant": "Unbounded history crossing arbitrarily many reallocations.", "anchors": ["strbuf.c: strbuf_append_char", "strbuf.c: append_char_to_buf"]}
{"id": "C42", "title": "strbuf_shrink / strbuf_grow change only the capacity", "statement": "shrink makes the capacity of a dynamic buffer equal to its size and grow makes it at least the requested minimum; both preserve content; on a fixed buffer shrink changes nothing and grow beyond the capacity returns an invalid view and changes nothing.", "quantifier": "every buffer state and request, every allocator decision", "why_tests_cant": "The input space is infinite (every length and every byte value); a test fixes a handful of literals.", "anchors": ["strbuf.c: strbuf_shrink", "strbuf.c: strbuf_grow"]}
{"id": "C43", "title": "Every buffer is released exactly once with the allocator that created it", "statement": "In any history the allocator is only ever given pointers it returned and that are still live, is always the buffer's own allocator, temporary buffers are released before the call returns, and after strbuf_destroy the buffer's memory is released and the caller's pointer is NULL.", "quantifier": "every history of operations and allocator decisions", "why_tests_cant": "Leaks and double frees depend on the path; tests cover single paths.", "anchors": ["strbuf.c: strbuf_destroy", "strbuf.c: destroy_buf", "strbuf.c: change_buf_capacity", "strbuf.c: buffer_vcat", "strbuf.c: strbuf_to_cstr"]}
{"id": "C44", "title": "strbuf_to_cstr converts in place", "statement": "strbuf_to_cstr on a dynamic buffer returns a heap block of exactly size+1 bytes holding the content and a NUL, NULLs the caller's pointer, and that block can be released by the allocator; on a fixed buffer it returns the terminated content.", "quantifier": "every content and allocator decision", "why_tests_cant": "The input space is infinite (every length and every byte value); a test fixes a handful of literals.", "anchors": ["strbuf.c: strbuf_to_cstr"]}
{"id": "C45", "title": "strbuf_append_using commits exactly what the callback produced", "statement": "strbuf_append_using appends exactly the bytes the callback reports having written when it reports at most the space offered; when it reports a negative count or more than the space, the buffer is emptied and an invalid view returned. The callback is offered exactly the free space.", "quantifier": "every callback behaviour that writes only in the offered space", "why_tests_cant": "Quantifies over all callbacks.", "anchors": ["strbuf.c: strbuf_append_using"]}
{"id": "C46", "title": "strbuf_printf is all-or-nothing", "statement": "strbuf_append_printf appends exactly the formatted text, growing a dynamic buffer as necessary; if it does not fit a fixed buffer the buffer is emptied. The buffer stays well formed for every return value of vsnprintf.", "quantifier": "every formatted text length and every vsnprintf outcome including errors", "why_tests_cant": "Formatting errors are hard to provoke in tests.", "anchors": ["strbuf.c: strbuf_append_vprintf", "strbuf.c: strbuf_vprintf"]}
{"id": "C47", "title": "strbuf_prnf is all-or-nothing", "statement": "strbuf_append_prnf appends exactly the characters emitted by the formatter; if they do not all fit, the buffer ends up empty, never holding a fragment of the output.", "quantifier": "every emitted character sequence and capacity", "why_tests_cant": "The emptied buffer is refilled by later characters; only the final comparison removes the fragment.", "anchors": ["strbuf.c: strbuf_append_vprnf", "strbuf.c: char_handler_for_prnf", "strbuf.c: append_char_to_buf"]}
{"id": "C48", "title": "strbuf_create_fixed uses exactly the memory given", "statement": "strbuf_create_fixed(addr, n) returns NULL unless addr is aligned and n exceeds the header size; otherwise an empty, terminated buffer at addr whose capacity plus header plus terminator is exactly n (capped at INT_MAX); nothing outside [addr, addr+n) is written.", "quantifier": "every address and size", "why_tests_cant": "The input space is infinite (every length and every byte value); a test fixes a handful of literals.", "anchors": ["strbuf.c: strbuf_create_fixed"]}
{"id": "C49", "title": "strbuf_create_init starts with the given content", "statement": "strbuf_create(v, allocator) returns a buffer owned by that allocator whose content is exactly v's bytes; strbuf_create(n, allocator) returns an empty buffer of capacity at least n. This is for every answer of the allocator except NULL, which strbuf.h requires the allocator to catch itself.", "quantifier": "every initial view and allocator decision", "why_tests_cant": "The input space is infinite (every length and every byte value); a test fixes a handful of literals.", "anchors": ["strbuf.c: strbuf_create_init", "strbuf.c: strbuf_create_empty", "strbuf.c: create_buf"]}
{"id": "C50", "title": "NULL buffer handles are harmless", "statement": "Every buffer operation accepting a strbuf_t** given NULL, or the address of a NULL pointer, returns an invalid view (or NULL) and has no effect on memory.", "quantifier": "every operation and argument", "why_tests_cant": "Every entry point needs its own check.", "anchors": ["strbuf.c: strbuf_view", "strbuf.c: strbuf_append_strview", "strbuf.c: strbuf_assign", "strbuf.c: strbuf_insert_at_index_strview", "strbuf.c: strbuf_strip_strview", "strbuf.c: strbuf_shrink", "strbuf.c: strbuf_grow", "strbuf.c: strbuf_destroy"]}
{"id": "C51", "title": "Operations on one buffer leave everything else unchanged", "statement": "An operation on a buffer changes no byte outside that buffer's storage (old and, if moved, newly allocated), and no other buffer's size, capacity or content.", "quantifier": "every operation, every set of other buffers and memory", "why_tests_cant": "Frame property over all other memory.", "anchors": ["strbuf.c: insert_strview_into_buf", "strbuf.c: change_buf_capacity", "strbuf.c: buffer_vcat"]}
{"id": "C52", "title": "Buffers behave as independent byte strings over any history", "statement": "For any program that creates buffers and applies append, prepend, insert, assign, strip, append_char, shrink, grow and destroy with arguments taken from constants or sub-ranges of any live buffer, the observed contents are those of a mathematical map from handles to byte strings, whatever the allocator does.", "quantifier": "every program (finite sequence of operations), every allocator strategy", "why_tests_cant": "Refinement over unbounded histories.", "anchors": ["strbuf.c: all public functions"]}
{"id": "C53", "title": "Growth keeps reallocation rare and capacities monotone", "statement": "Operations that add content never reduce the capacity of a buffer, and never call the allocator when the result fits the present capacity; when they grow, the new capacity is the required size rounded up to a multiple of STRBUF_CAPACITY_GROW_STEP (INT_MAX if rounding overflows). Creating a buffer and strbuf_grow use the requested capacity without rounding, although strbuf.h says capacities are rounded.", "quantifier": "every state and request", "why_tests_cant": "The input space is infinite (every length and every byte value); a test fixes a handful of literals.", "anchors": ["strbuf.c: round_up_capacity", "strbuf.c: change_buf_capacity", "strbuf.c: append_char_to_buf", "strbuf.c: strbuf_append_vprintf"]}
{"id": "C54", "title": "Packing then unpacking integers is the identity in both byte orders", "statement": "Appending a signed or unsigned 8/16/32/64-bit integer with STRBUF_PACK_LE/BE adds exactly its two's complement bytes in the byte order the macro names; STRVIEW_UNPACK_LE/BE on a view starting with such bytes sets the variable to the integer and leaves the view with exactly the rest (the invalid view when nothing is left). So any sequence of integers packed on a little- or big-endian host is read back unchanged, in order, on any host. The unpack macros do not check the size of the view: on a view shorter than the variable they read beyond it.", "quantifier": "every value of every type, both byte orders, both packing and unpacking host byte orders, every sequence of packed values", "why_tests_cant": "2^64 values and mixed sequences.", "anchors": ["accessories/strbuf_pack.h", "accessories/strview_unpack.h", "accessories/xendian.h"]}
{"id": "C55", "title": "Buffered file input and output lose, duplicate and reorder nothing", "statement": "strbuf_write and strview_write write a prefix of the content and remove exactly that prefix; strbuf_append_read appends exactly the bytes delivered, at most the free capacity; a failing call changes nothing. So over any sequence of calls, output so far + content + input still to be read is constant, and repeated strbuf_write (or strview_write) delivers the whole content once enough calls have transferred something, for every way the operating system splits or fails the transfers.", "quantifier": "every content, every sequence of calls and every schedule of partial transfers and errors", "why_tests_cant": "All schedules of partial writes.", "anchors": ["accessories/strbuf_io.c: strbuf_write, strbuf_append_read", "accessories/strview_io.c: strview_write"]}
{"id": "C56", "title": "Encryption then decryption restores the content", "statement": "For every content, 256-bit key and IV, strbuf_encrypt followed by strbuf_decrypt with the same key and IV restores the content, provided the buffer can hold the padded text plus one block. On little-endian hosts the content after strbuf_encrypt is the AES-256 CBC encryption of the PKCS#7 padded content, so it can be exchanged with other programs. Nothing outside the buffer, newly allocated memory and the function's own variables is changed, and the temporary key schedule is released. Decryption reports no error: what it does with damaged data or a wrong key is described by separate theorems.", "quantifier": "every content of every length, every key and IV", "why_tests_cant": "Key and message space; padding at every length mod 16.", "anchors": ["accessories/strbuf_crypt/strbuf_crypt.c: enc256cbc, dec256cbc, cypher_size", "accessories/strbuf_crypt/aes"]}
{"id": "C57", "title": "The AES block functions are mutually inverse for every key", "statement": "aes256_dec(aes256_enc(b,k),k)=b for every 16-byte block and every key, on hosts of either byte order; on little-endian hosts both equal the FIPS-197 transformations for every key. (On big-endian hosts the key schedule rotates in the wrong direction and the ciphertext differs from FIPS 197.)", "quantifier": "every block and every key (2^128 x 2^256)", "why_tests_cant": "Input space.", "anchors": ["accessories/strbuf_crypt/aes/aes_enc.c", "accessories/strbuf_crypt/aes/aes_dec.c", "accessories/strbuf_crypt/aes/aes_keyschedule.c"]}
{"id": "C58", "title": "The URI example parser finds exactly the components of its input", "statement": "For every input, parse_uri is free of undefined behaviour and the components it finds are sub-views of the input. For a text [scheme://][user@]host[:port][/path] or scheme:[path] whose components do not contain the characters that delimit them (no ':' in the path without a port, no '@' in the rest without a user, port and only port starting with a digit), it finds exactly these components and reports the others as absent.", "quantifier": "every input view; every combination of optional components and every text of each", "why_tests_cant": "The input space is infinite (every length and every byte value); a test fixes a handful of literals.", "anchors": ["examples/parse-uri/parse-uri.c: parse_uri"]}
{"id": "C59", "title": "All destinations of the formatter receive the same text", "statement": "For every format string built from the documented notation and every matching argument list, prnf/fptrprnf call the handler once for each character of the output, in order; sprnf stores the output and a terminator; snprnf with size n >= 1 stores the first n-1 characters (or all, if fewer) and a terminator and touches nothing else; size 0 or a NULL destination stores nothing. All return the length of the whole output, whatever is truncated.", "quantifier": "every list of literal characters, placeholders and column alignments, every argument, every buffer size", "why_tests_cant": "The input space is infinite (every format, argument and length); a test fixes a handful of literals.", "anchors": ["test/prnf.c: core_prnf, vfptrprnf, vsprnf, vsnprnf, out_char, out_terminate", "test/prnf.h: lines 22-270"]}
{"id": "C60", "title": "Decimal placeholders print the number", "statement": "%d, %i and %u print the sign and the decimal digits of the argument, with zeros in front up to the precision, in a field of the width, for all flags, widths, precisions and length modifiers. What %d prints is read back by strnum_value as the same number.", "quantifier": "every integer of every size, every combination of flags, width, precision and length modifier", "why_tests_cant": "Argument space and combinations of options.", "anchors": ["test/prnf.c: print_dec, ulong2asc_rev", "strnum.c: strnum_value"]}
{"id": "C61", "title": "Hexadecimal and binary placeholders print exactly the requested digits", "statement": "%x, %X and %o print exactly as many digits as the precision says, or as the size of the argument requires, upper case, and they denote the argument modulo the range of that many digits.", "quantifier": "every integer, digit count and size", "why_tests_cant": "Argument space and combinations of options.", "anchors": ["test/prnf.c: print_hex, print_bin"]}
{"id": "C62", "title": "String placeholders print at most the requested characters", "statement": "%s prints the characters of a terminated string, at most as many as the precision says; NULL prints as the empty string; with a width and precision .0 the string is centred. %.*s with the size and data of a view prints exactly the view and reads no more than the view.", "quantifier": "every string, width and precision; every view", "why_tests_cant": "The input space is infinite (every format, argument and length); a test fixes a handful of literals.", "anchors": ["test/prnf.c: print_str, prnf_strlen", "test/prnf.h: lines 48-70", "strview.h: PRIstr, PRIstrarg"]}
{"id": "C63", "title": "The width is the minimum number of characters", "statement": "The output of a placeholder is at least as long as its width, and padding is added only to reach it.", "quantifier": "every placeholder, argument and width", "why_tests_cant": "Argument space and combinations of options.", "anchors": ["test/prnf.c: prepad, postpad, print_placeholder", "test/prnf.h: line 51"]}
{"id": "C64", "title": "Column alignment continues at the requested column", "statement": "After \\v<col><pad> the output continues at column <col>, counted from the start of the output or the last line ending, or directly if that column has been reached. \\v without a number is printed.", "quantifier": "every output before it, every column and pad character", "why_tests_cant": "The input space is infinite (every format, argument and length); a test fixes a handful of literals.", "anchors": ["test/prnf.c: print_col_alignment, out_char", "test/prnf.h: lines 239-262"]}
{"id": "C65", "title": "snappf appends safely", "statement": "snappf on a buffer of n bytes that holds a string leaves the first n-1 characters of that string followed by the output, terminated, touches nothing else, and returns the length of the whole output.", "quantifier": "every string, output and buffer size", "why_tests_cant": "The input space is infinite (every format, argument and length); a test fixes a handful of literals.", "anchors": ["test/prnf.c: snappf", "test/prnf.h: lines 219-231"]}
{"id": "C66", "title": "Floating point placeholders print the number", "statement": "%f prints the sign and the decimal digits of a finite number with exactly the requested number of places (default 3) in a field of the given width; the printed number differs from the argument by at most half a unit of the last place plus the rounding of one float product. %e prints it in engineering notation: scaled into the only unit 1000^j (j from -8 to 8) in which its magnitude is at least 1 and below 1000 (beyond both ends: the last unit), followed by the SI prefix of the unit, with a relative error of at most 2^-19 besides the half unit of the last place. NAN, INF and numbers whose digits do not fit (OVER) are printed as these words.", "quantifier": "every double argument, flag, width and precision from 0 to 255 (above 19 it means 19)", "why_tests_cant": "There are 2^32 different floats for each precision and width, and the error of the product and of repeated division is largest at inputs no test would pick.", "anchors": ["test/prnf.c: print_float, determine_float_msg, print_float_normal, print_float_special, get_eng, get_prec, round_float_to_ulong", "test/prnf.h: lines 58-60, 100-110"]}
{"id": "C67", "title": "Formats outside the documentation are harmless", "statement": "A placeholder with an unsupported letter prints nothing and takes no argument; no format string makes the formatter read beyond it or overflow.", "quantifier": "every format string", "why_tests_cant": "The input space is infinite (every format, argument and length); a test fixes a handful of literals.", "anchors": ["test/prnf.c: parse_placeholder, prnf_atoi, print_placeholder"]}
{"id": "C68", "title": "strbuf_prnf leaves the formatted text in the buffer", "statement": "With the formatter of test/prnf.c, the content after strbuf_prnf is the formatted text (after strbuf_append_prnf: the previous content followed by it), or empty if it does not fit. An integer printed with %d can be read back from the returned view with strnum_value.", "quantifier": "every format, argument list, buffer and allocator", "why_tests_cant": "The input space is infinite (every format, argument and length); a test fixes a handful of literals.", "anchors": ["strbuf.c: strbuf_vprnf, strbuf_append_vprnf, char_handler_for_prnf", "test/prnf.c"]}
{"id": "C69", "title": "Floating point conversions are accurate to a few roundings", "statement": "Converting a decimal literal to float, double or long double stores a number of the type whose relative error against the exact value of the literal is that of a bounded number of roundings (11, and one more for each 19 fractional digits), as long as the value is in the range of full precision. Integers below 2^64 without a fraction are rounded once, to the nearest number; those that fit the significand are stored exactly.", "quantifier": "every literal, every IEEE format with at least 24 bits, every library pow with an error of at most one unit in the last place", "why_tests_cant": "Rounding errors depend on every digit; the worst case is at inputs no test would pick, and the set of literals is infinite.", "anchors": ["strnum.c: strnum_consume_float, strnum_consume_double, strnum_consume_ldouble, make_float", "docs/strnum-api.md: lines 107-117"]}
{"id": "C70", "title": "Floating point range errors", "statement": "A conversion returns ERANGE exactly if the value of the literal is out of the range of the type; otherwise it stores a finite number. It never stores an infinity or NaN for a numeric literal, and a value in range is not replaced by zero.", "quantifier": "every literal with an exponent that fits int, every IEEE format", "why_tests_cant": "The outcome depends on the interplay of digits and exponent over an infinite set of literals; a test fixes a handful.", "anchors": ["strnum.c: strnum_consume_float, strnum_consume_double, strnum_consume_ldouble, make_float", "docs/strnum-api.md: lines 19-21, 117"]}
{"id": "C71", "title": "Printed floating point numbers can be read back", "statement": "A finite number printed with %f, with any width, precision and flags (the flag 0 only if no sign is printed or the field is left aligned; otherwise zeros that fill the field stand before the sign, and 0 is read), whose printed digits (without the point) make a number below 2^63, and converted with strnum_value gives a number that differs from it by at most one unit of the last printed place and a relative error of 2^-19, and leaves exactly the padding on the right. The same holds through a buffer: strbuf_prnf followed by strnum_value on the returned view.", "quantifier": "every number whose digits fit 63 bits, every width, precision, buffer, allocator and IEEE destination format", "why_tests_cant": "Both directions round; the composed error has to be bounded for all of the 2^32 floats, every precision and every destination type.", "anchors": ["test/prnf.c: print_float_normal", "strnum.c: strnum_consume_float, strnum_consume_double, strnum_consume_ldouble", "strbuf.c: strbuf_vprnf"]}
{"id": "C72", "title": "The default allocator keeps the allocator contract", "statement": "The default allocator releases the block and returns NULL for size 0, otherwise returns NULL with nothing changed or a block of the requested size that keeps the old content up to the lesser of the sizes, for every behaviour the C standard allows realloc; used as the allocator of a buffer it behaves like the abstract allocator all buffer theorems assume. With STRBUF_ASSERT_DEFAULT_ALLOCATOR_STDLIB a failed request stops the program.", "quantifier": "every heap, pointer, size, answer of the C library's realloc (including what it does for size 0) and build option", "why_tests_cant": "realloc may move or not move, fail or not, and its behaviour for size 0 differs between C libraries; a test sees one of them.", "anchors": ["strbuf.c: allocfunc_stdlib", "strbuf.h: strbuf_allocator_t (documented example)", "examples/custom_allocator/custom-alloc.c: allocator", "examples/default_custom_allocator/default-custom-alloc.c: allocator"]}
{"id": "C73", "title": "A view can be printed with PRIstr and PRIstrarg", "statement": "printf with PRIstr and PRIstrarg prints the characters of a view, up to the first NUL if there is one, and reads nothing outside the view. The same holds for strbuf_printf and strbuf_prnf.", "quantifier": "every view (valid, empty, invalid, with NULs, at any address with any memory around it), every text around the placeholder", "why_tests_cant": "Reading one byte past a view is only visible if that byte is not mapped; tests use views into literals, which have a terminator.", "anchors": ["strview.h: PRIstr, PRIstrarg", "test/prnf.c: print_str, prnf_strlen"]}
{"id": "C74", "title": "The macros accept C strings and views alike, and any number of views", "statement": "Every macro of strview.h and strbuf.h that takes a view also takes a char* or const char* and then does what it does for a view of the characters; strbuf_create takes a size or a view; cstr_SL of a literal views all its characters; strbuf_cat passes on all its arguments, however many there are.", "quantifier": "every argument of the accepted types, every other argument and state, every number of arguments", "why_tests_cant": "Selection by _Generic and counting by the preprocessor must be right for each macro, argument type and each number of arguments; tests try a few.", "anchors": ["strview.h: strview_is_match, strview_is_match_nocase, strview_starts_with, strview_starts_with_nocase, strview_trim, strview_trim_start, strview_trim_end, strview_find_first, strview_find_first_nocase, strview_find_last, strview_find_last_nocase, cstr_SL", "strbuf.h: strbuf_create, strbuf_append, strbuf_prepend, strbuf_insert_at_index, strbuf_insert_before, strbuf_insert_after, strbuf_strip, strbuf_cat, PP_NARG"]}
{"id": "C75", "title": "The example programs do what they say", "statement": "The stack buffer examples print any view and the view without dashes (ex1: up to 200 characters), the static buffer example prints the previous and the new text for any sequence of calls, the examples with an allocator print the texts twice between the two others and release all memory, testnum turns on exactly the options named on the command line, and for every line it reports for each of the 13 number types the error, the value (0 after an error) and the remaining text of a conversion of the whole line without its line end.", "quantifier": "every view or sequence of views given to the example functions, every behaviour of the allocator, every command line, every input line", "why_tests_cant": "The examples are run with a few literals; users copy them for other input.", "anchors": ["examples/stack_buffer/stack-buf.c: ex1, ex2, ex3", "examples/static_buffer/static-buf.c: ex1", "examples/custom_allocator/custom-alloc.c: main", "examples/default_custom_allocator/default-custom-alloc.c: main", "examples/default_stdlib_allocator/default-stdlib-alloc.c: main", "examples/testnum/testnum.c: main"]}
{"id": "C76", "title": "Threads with their own buffers do not influence each other", "statement": "If several threads (or tasks) each use their own buffers and strings only, share constants and the allocators, and their calls alternate in any order, then the run has no undefined behaviour if the program of each thread alone has none, and at the end every buffer, string and NULL pointer of a thread is what its program gives when it runs alone; the order does not matter.", "quantifier": "every number of threads, every program of each, every order in which their calls alternate, every behaviour of the allocators (addresses, moves)", "why_tests_cant": "The number of schedules is exponential, and the effect of a hidden shared variable or of a write outside a buffer shows only in some of them.", "anchors": ["strbuf.c: all functions", "strbuf.h"]}
{"id": "C77", "title": "Tokenising outside quotes", "statement": "With exclude_quotes, delimiters between double quotes do not separate: calling strview_split_first_delim until src becomes invalid yields exactly the tokens separated by the delimiters outside quotes (those with an even number of quotes up to them), after one call more than there are such delimiters; strview_split_all stores the same tokens up to the size of the array. Every token but the last has complete quotes if the quote is not a delimiter; an unclosed quote reaches to the end of the text.", "quantifier": "every source, delimiter set, placement of quotes, number of calls and destination array size", "why_tests_cant": "The position of the quotes changes the meaning of every later delimiter; the histories are of unbounded length.", "anchors": ["strview.c: strview_split_first_delim", "strview.c: strview_split_all", "strview.c: split_first_delim"]}
{"id": "C78", "title": "Calls can be combined as the documentation shows", "statement": "Assigning a buffer the trimmed view of itself leaves exactly its content without the leading and trailing characters, in the same storage. Splitting a view left of the first occurrence of a text yields what is before it and leaves what follows it. strbuf_insert_after with the view strview_find_first returned for the buffer's own content inserts behind the first occurrence, and does nothing if there is none. Collecting received pieces in a buffer with strbuf_append, taking lines with strview_split_line and assigning the buffer the rest yields lines of the received text in their order, every non-empty one, and keeps in the buffer what follows the last line ending. A list of numbers written with strbuf_append_prnf(\"%d,\") and read back with strview_split_first_delim and strnum_value is the same list. Replacing every occurrence of a text while copying into a buffer (strview_find_first, strview_split_left, strview_split_index, strbuf_append) gives the text with its occurrences replaced from the left without overlap. Counting the occurrences the same way gives the greatest number of them that do not overlap, and with it the size the replaced text will have. Copying fields with another separator between them (strview_split_first_delim, strbuf_append) gives the text with the separator in place of each delimiter; with the same delimiter it gives the text back. Prepending the fields one by one with a separator between them (strview_split_first_delim, strbuf_prepend) gives the fields in reverse order. Prepending the last n characters again and again with a separator (strview_split_index with a negative index, strbuf_prepend) gives the text in groups of n counted from its end. Splitting a path at its last separator and the name at its last dot (strview_split_last_delim) gives the directory, the name and the extension; without a separator the directory is invalid, without a dot the extension is the whole name and the name is invalid. Bytes written with strbuf_append_prnf(\"%hhX\") and read back two characters at a time with strview_split_index and strnum_value are the same bytes. Reading `name = value` lines with strview_split_line, strview_split_first_delim and strview_trim gives, for every terminated line that has the delimiter, what is before its first delimiter and what is behind it, without blanks at the ends, in the order of the lines. Messages of any lengths put into a buffer with their lengths in front (STRBUF_PACK, strbuf_append) and taken apart again (STRVIEW_UNPACK, strview_split_index), on hosts of the same or the other byte order, come out as they went in, empty ones too. A reader that checks the lengths takes any bytes apart without undefined behaviour, however damaged, and gets exactly the messages they begin with.", "quantifier": "every content, trim set, needle, inserted text, replacement, separator, list of ints, and every way to cut a text into pieces; fixed and dynamic buffers, any allocator", "why_tests_cant": "Each step depends on where the previous one left the view and the buffer (which may move); the sessions and lists are unbounded.", "anchors": ["docs/strbuf-api.md: strbuf_assign", "docs/strview-api.md: strview_find_first, strview_split_line", "strbuf.c: strbuf_assign, strbuf_insert_after, strbuf_append, strbuf_prepend, strbuf_append_prnf", "strview.c: strview_trim, strview_find_first, strview_split_left, strview_split_index, strview_split_line, strview_split_first_delim", "strnum.c: strnum_value", "accessories/strbuf_pack.h: STRBUF_PACK_BE, STRBUF_PACK_LE", "accessories/strview_unpack.h: STRVIEW_UNPACK_BE, STRVIEW_UNPACK_LE"]}
{"id": "C79", "title": "Any sequence of view calls stays in the text it started from", "statement": "A program that holds views of some texts and calls any view functions on them and on the views it gets, in any order, any number of times: every call completes with a defined result, and every view it ever holds is invalid or is a part of one of the texts, showing a substring of it at the place it points to. The texts are not in the lowest part of the address space (no text is longer than the address of one, which strview_find_last needs).", "quantifier": "every set of texts, every sequence of calls and arguments (any int index, any delimiter string or NULL)", "why_tests_cant": "Histories of unbounded length in which every call works on the results of earlier ones, including invalid and empty views.", "anchors": ["strview.c: all functions that return a view", "strview.h"]}
{"id": "C80", "title": "Views kept while buffers are changed", "statement": "A program may keep views in variables while it creates, changes and destroys buffers, and may use kept views as arguments of any buffer or view function. As long as it uses no view whose buffer has been destroyed, has changed its capacity (and so may have moved), or has become too short for the view, every call completes with a defined result, every buffer has the content that the program means on byte strings, and every kept view is exactly the part of the text (which text, offset, length) that it should be and shows its current bytes. A view of a buffer that is not changed shows the same bytes for as long as that is so, whatever happens to other buffers and with other views. (A view of a buffer that has moved may point to released memory; using it is undefined, and there is such a program.)", "quantifier": "every program of buffer commands, view calls and uses of kept views, of any length, with any number of buffers and views; every choice of addresses by the allocator, moving blocks or not; configurations with every setting", "why_tests_cant": "Whether a kept view still points into valid storage depends on the whole history of all buffers and on where the allocator puts blocks; the histories are unbounded.", "anchors": ["strbuf.c: strbuf_view, strbuf_append, strbuf_prepend, strbuf_insert_before, strbuf_insert_after, strbuf_insert_at_index, strbuf_assign, strbuf_cat, strbuf_strip, strbuf_create_init, strbuf_destroy", "strview.c: all functions that return a view", "docs/strbuf-api.md: strbuf_view"]}
{"id": "C81", "title": "A buffer stays where it is while the result fits", "statement": "An operation whose result fits the buffer's capacity (other than strbuf_shrink, and strbuf_grow beyond the capacity) does not move the buffer: the caller's pointer keeps its value, the capacity is the same, the content is the wanted one, the set of allocated blocks is the same and nothing outside the buffer's storage changes. It does not call the allocator, so it cannot fail for want of memory; only strbuf_cat with the buffer itself among the arguments asks for a temporary block. So views of the buffer taken before can still be used, and show the bytes now at their place; when the operation appends, all of them show the same bytes as before. In a program that does nothing to a buffer but append to it with room, all views of it keep showing the same bytes.", "quantifier": "every operation on every buffer, dynamic or fixed, every content, capacity and argument; every behaviour of the allocator; programs of any length for the last statement", "why_tests_cant": "Whether storage moves depends on the allocator; a test with realloc that happens to extend in place cannot tell whether reallocation was asked for, and contents, capacities and histories are unbounded.", "anchors": ["strbuf.c: insert_strview_into_buf, append_char_to_buf, buffer_vcat, change_buf_capacity, strbuf_append_printf, strbuf_append_prnf", "docs/strbuf-api.md: strbuf_create (initial capacity), strbuf_grow"]}
{"id": "C82", "title": "Functions agree with one another", "statement": "Calls that should be interchangeable are. Views: two views match exactly if strview_compare gives 0, and exactly if each starts with the other; what matches exactly also matches without regard to case; a view starts with another exactly if strview_find_first finds that one at its start; what a search finds matches what was searched for; the first place found is not behind the last, and before the first there is none; a part of a part, the part from 0 to the end, splitting at an index and popping a character agree with strview_sub; the order of trimming the two ends does not matter. (Statements about strview_find_last are for texts that are not nearer to address 0 than the needle is long, see C08.) Buffers: appending, prepending and inserting before or after a part of the content are strbuf_insert_at_index with the index of that place; appending a character, printing with strbuf_prnf, assigning and concatenating a single text agree with appending and assigning; two texts appended one after the other are the joined text appended; assigning and appending is concatenating; the order of two strips, and of prepending and appending, does not matter; stripping or shrinking again changes nothing; two programs with the same meaning leave the same contents.", "quantifier": "all views, contents, needles, sets and indices; all buffers in all states, dynamic or fixed, every behaviour of the allocator", "why_tests_cant": "Each law ranges over all texts and all buffers; a test compares two functions on a few examples.", "anchors": ["strview.c: strview_is_match_strview, strview_compare, strview_starts_with_strview, strview_find_first_strview, strview_find_last_strview, strview_contains, strview_sub, strview_trim_strview, strview_split_index, strview_pop_first_char", "strbuf.c: strbuf_append_strview, strbuf_prepend_strview, strbuf_insert_at_index_strview, strbuf_insert_before_strview, strbuf_insert_after_strview, strbuf_append_char, strbuf_assign, strbuf_vcat, strbuf_strip_strview, strbuf_shrink"]}
{"id": "C83", "title": "Results depend on the bytes alone", "statement": "The answer of a question about views (matching, starting with, containing, the sign of a comparison), the place a search finds, and the error number, value and rest of an integer conversion depend on the bytes of the arguments alone: for views of the same bytes in another memory, at other addresses, with other bytes around them, they are the same. And a program of buffer functions, view functions and kept views, run again with its constants elsewhere, with other memory contents and with an allocator that hands out other blocks with other bytes in them, ends with the same buffers in use, the same contents and the same bytes in all views that may be used.", "quantifier": "all views and pairs of memories; all legal programs, all pairs of start states and allocator behaviours", "why_tests_cant": "That no byte outside the arguments, no uninitialised byte of a block and no address has an influence is a statement about pairs of runs over all memories; a test sees one layout.", "anchors": ["strview.c: all functions on two views", "strnum.c: all functions; strnum.h: strnum_value", "strbuf.c: all functions"]}
{"id": "C84", "title": "An allocator that does not return leaves the buffers usable", "statement": "The library does not look at the answer of the allocator; its documentation asks the user to catch a failed allocation inside the allocator function, and the only way to do that and go on is to leave it by longjmp (or, in C++, an exception). If the allocator leaves at a request for memory, whichever request of whichever operation it is, the caller finds the buffer pointer still pointing to a well-formed buffer of the same capacity, with the content it had before the call (formatted output and concatenation of a buffer with itself may have emptied it); all other memory is as it was and no block has been released. So the program can go on with all its buffers, and can release them all.", "quantifier": "all operations, all buffers in all states, all arguments, every request for memory made during the call; all programs of buffer functions and every request made while they run", "why_tests_cant": "The interruption can come at every request of every execution; a test interrupts a few. What has been changed before a request depends on the contents and capacities.", "anchors": ["strbuf.h: strbuf_allocator_t (You need to catch a failed allocation here)", "strbuf.c: create_buf, change_buf_capacity, buffer_vcat, strbuf_vprintf, strbuf_prnf, strbuf_append_prnf, char_handler_for_prnf, strbuf_to_cstr"]}
{"id": "C85", "title": "Callbacks may use the library", "statement": "The callback given to strbuf_append_using may itself call the library: create, change and destroy other buffers, look at the buffer that is being appended to, and call strbuf_append_using with further callbacks, to any depth. The outcome is exactly the same as if the calls were made one after another, those of a callback before the call that it serves. For a callback that does anything at all, it is enough that it leaves header, content and storage of the buffer alone: then the content grows by exactly the reported number of bytes it left in the free space, or the buffer is emptied if the number is impossible, and all its other effects stay. A callback that has the buffer itself moved (strbuf_grow) makes the call undefined.", "quantifier": "all programs of buffer functions with callbacks nested to any depth, all buffers in all states, all allocator behaviours; all callbacks, all return values, all states they leave", "why_tests_cant": "What a callback does is up to the user; the nesting is unbounded; every interleaving of the callback's effects with the fields the function has already read matters.", "anchors": ["strbuf.h: strbuf_append_using", "strbuf.c: strbuf_append_using"]}
{"id": "C86", "title": "What a program sees", "statement": "A program that uses buffers and views, asks about them (is a view valid, how long is it, which byte is at an index, do two views match, does one start with or contain the other, how do they compare, is a buffer variable NULL, size, capacity and bytes of a buffer or of a string taken out of it, the character popped, the error number and value of an integer conversion) and decides what to do next by the answers, sees at every step exactly what it would see if the buffers were byte strings and the views were places in them. The answers do not depend on addresses, on the memory around, or on where the allocator puts blocks. Asking changes nothing except the one view that a pop or a conversion consumes.", "quantifier": "all programs (any function from the answers so far to the next action, so all branches, loops and recursions), all numbers of steps, all contents, all legal starting states, all allocator answers", "why_tests_cant": "The number of programs, of steps and of branches is unbounded; each answer may depend on everything that was done before.", "anchors": ["strview.h: strview_is_valid, strview_is_match, strview_is_match_nocase, strview_starts_with, strview_starts_with_nocase, strview_contains, strview_contains_nocase, strview_compare, strview_pop_first_char", "strbuf.h: strbuf_t", "strnum.h: strnum_value"]}
{"id": "C87", "title": "Programs with input and output", "statement": "A program that, besides using buffers and views and asking about them, reads from a descriptor into a buffer and writes buffers and views to a descriptor, sees and writes exactly what it would if the buffers were byte strings, however the operating system divides the transfers or lets them fail. Input is consumed from the front and each byte goes to exactly one place; output only grows; the bytes written do not depend on addresses. In particular the obvious line filter written with the library (grow, append_read, split at newlines, keep the unfinished line with assign, append the selected lines to an output buffer, write until it is empty) writes exactly the lines that contain the given text, for every input and every division of the transfers, and finishes if the calls succeed. Wherever the filter is stopped, its output so far is the beginning of the right output.", "quantifier": "all programs (any function from the answers so far to the next action), all numbers of steps, all inputs, all sequences of decisions of the operating system (any partial transfer or failure at every call), all legal starting states, all allocator answers; the filter: all inputs (up to INT_MAX minus the grow step), all texts to look for", "why_tests_cant": "The divisions of transfers, the programs and the inputs are unbounded; a wrong count after a partial transfer shows only with the right division at the right place.", "anchors": ["accessories/strbuf_io.c: strbuf_append_read, strbuf_write", "accessories/strview_io.c: strview_write", "strbuf.h: strbuf_grow, strbuf_append, strbuf_append_char, strbuf_assign, strbuf_view", "strview.h: strview_split_first_delim, strview_contains, strview_is_valid"]}
{"id": "C88", "title": "A message from one program to another", "statement": "Programs as in C87 may also pack integers into buffers, unpack them from views, and encrypt and decrypt buffers, in any order with everything else, and still see what byte strings would show. In particular two programs written with the library - one reads a message, puts its length in front in four bytes, encrypts and writes it; the other reads, decrypts, takes the length off, checks it and writes the rest - work together: whatever the message, the key and the init vector, and however the two operating systems divide the transfers or let them fail, the first writes the AES-256-CBC encryption of the padded length and message, and the second, given that, writes the message. Wherever either is stopped, its output so far is the beginning of the right output.", "quantifier": "all messages (up to INT_MAX minus 64 and the grow step), all keys of 32 and init vectors of 16 bytes, all sequences of decisions of both operating systems, all allocator answers, all numbers of steps, two independent configurations; for the refinement all programs", "why_tests_cant": "Messages, keys and divisions of the transfers are unbounded, and a disagreement between padding, byte order, lengths and block boundaries shows only for particular lengths.", "anchors": ["accessories/strbuf_crypt/strbuf_crypt.c: strbuf_encrypt, strbuf_decrypt", "accessories/strbuf_pack.h: STRBUF_PACK_BE", "accessories/strview_unpack.h: STRVIEW_UNPACK_BE", "accessories/strbuf_io.c: strbuf_append_read, strbuf_write", "accessories/strview_io.c: strview_write"]}
{"id": "C89", "title": "Interactive programs at the same time", "statement": "Any number of programs as in C87 and C88, each with variables, views, an input and an output of its own, run at the same time on one heap, one call at a time, in any order. Each of them gets the answers, reads and writes what it would alone, and holds what it would alone; neither the other programs nor the order of the calls nor the addresses make a difference. The programs need not be different: several instances of one program, each with its own copies of the variables, do what one does. In particular any number of line filters at the same time each copy exactly the right lines of their own input.", "quantifier": "all families of programs, all schedules, all inputs, all sequences of decisions of the operating system for each program, all allocator answers, all numbers of steps", "why_tests_cant": "The schedules of two programs alone are exponential in number, and programs, inputs and heap layouts are unbounded; interference shows up only in particular orders.", "anchors": ["strbuf.c: all functions", "strview.c: all functions", "accessories/strbuf_io.c: strbuf_append_read, strbuf_write", "accessories/strview_io.c: strview_write", "accessories/strbuf_crypt/strbuf_crypt.c: strbuf_encrypt, strbuf_decrypt", "accessories/strbuf_pack.h: STRBUF_PACK_BE"]}
{"id": "C90", "title": "Interactive programs release every block exactly once", "statement": "In every legal program with input and output, and in any number of such programs that share a heap, each call of an allocator function that passes a block passes one that the same allocator has returned and that has not been released or moved since. At every moment the heap blocks are exactly the storage of the buffers and strings that are still held; encryption and decryption release the context they allocate. A program that creates its buffers in known variables and is followed by strbuf_destroy of these variables does what the program does and leaves no block behind, wherever in its possible runs it finishes; the same holds for a family of programs in any order of their calls. In particular the line filters of C87 and the two programs of C88 can be run so that nothing leaks.", "quantifier": "all programs that decide by the answers, all inputs, all divisions and failures of the transfers, all allocator answers, all schedules, all numbers of steps", "why_tests_cant": "A leak or a double release shows up only on the path and with the reallocation pattern that causes it; paths depend on the input, on the division of the transfers and on the order of the programs.", "anchors": ["strbuf.c: strbuf_destroy, strbuf_grow, strbuf_append, destroy_buf, change_buf_capacity", "accessories/strbuf_crypt/strbuf_crypt.c: strbuf_encrypt, strbuf_decrypt", "accessories/strbuf_io.c: strbuf_append_read, strbuf_write", "accessories/strbuf_pack.h: STRBUF_PACK_BE"]}
{"id": "C91", "title": "A second pointer to a buffer", "statement": "Let two variables hold the same strbuf_t* pointer. As long as every result fits into the capacity of the buffer, calls may be made through either of them in any order: all complete, both variables keep their value, the allocator is not called and the buffer has the content all the calls together give it. Once a call through one of them has moved a dynamic buffer away, or has destroyed it, the other is dangling: every further call through it (modifying, viewing, destroying, taking the C string, reading into it, writing it) is undefined behaviour, while the variable that was updated goes on working. A pointer to a destroyed fixed buffer is still a pointer to that buffer.", "quantifier": "all buffers, all sequences of modifying calls and all choices of the variable for each, all allocator answers, all calls through the dangling copy with readable C strings", "why_tests_cant": "Whether a block moves is up to the allocator: a test with a second pointer passes as long as realloc happens to extend the block in place.", "anchors": ["README.md: only have one pointer to the buffer", "strbuf.c: strbuf_append, strbuf_assign, strbuf_destroy, strbuf_view, strbuf_to_cstr, change_buf_capacity, buf_is_dynamic"]}
{"id": "C92", "title": "An allocator that answers NULL", "statement": "The documentation leaves it to the allocator function to catch failed requests. If it answers NULL nevertheless, no content is lost or cut silently: a call that returns has had no request answered NULL and has done its whole work, exactly as with an allocator that never fails, and a call that has a request answered NULL does not return (it accesses a member of NULL). The same holds for the creation of buffers and for whole programs: a program that ends shows in every buffer what the program says, with exactly the blocks of its buffers allocated.", "quantifier": "all operations, all buffers, states and arguments; all sequences of allocator answers with NULL at any requests; all programs", "why_tests_cant": "A failing allocation can occur at any request of any history, and most of them are never exercised.", "anchors": ["strbuf.h: str_allocator_t", "strbuf.c: create_buf, change_buf_capacity, strbuf_to_cstr"]}
