{
 "claims": [
  {
   "property": "C01",
   "status": "proved",
   "theorems": [
    "CStr.C01_is_match_iff_contents_equal",
    "CStr.C01_is_match_cstr",
    "CStr.C01_invalid_matches_only_empty",
    "CStr.C01_deviation_empty_matches_invalid"
   ],
   "note": "Proved as stated. docs/strview-api.md also says that a valid empty view does not match an invalid view; the code reports a match (C01_deviation_empty_matches_invalid)."
  },
  {
   "property": "C02",
   "status": "proved",
   "theorems": [
    "CStr.C02_is_match_nocase",
    "CStr.C02_toUpper",
    "CStr.C02_nocase_equivalence",
    "CStr.C02_is_match_nocase_cstr"
   ],
   "note": ""
  },
  {
   "property": "C03",
   "status": "proved",
   "theorems": [
    "CStr.C03_starts_with",
    "CStr.C03_starts_with_nocase",
    "CStr.C03_starts_with_invalid",
    "CStr.C03_starts_with_cstr"
   ],
   "note": ""
  },
  {
   "property": "C04",
   "status": "proved",
   "theorems": [
    "CStr.C04_compare_lexicographic",
    "CStr.C04_compare_is_total_order"
   ],
   "note": ""
  },
  {
   "property": "C05",
   "status": "proved",
   "theorems": [
    "CStr.C05_sub_in_range",
    "CStr.C05_sub_out_of_range",
    "CStr.C05_sub_empty"
   ],
   "note": ""
  },
  {
   "property": "C06",
   "status": "proved",
   "theorems": [
    "CStr.C06_one_sided_valid",
    "CStr.C06_one_sided_idempotent",
    "CStr.C06_trim_start",
    "CStr.C06_trim_end",
    "CStr.C06_trim",
    "CStr.C06_trim_valid",
    "CStr.C06_trim_idempotent",
    "CStr.C06_trim_cstr"
   ],
   "note": ""
  },
  {
   "property": "C07",
   "status": "proved",
   "theorems": [
    "CStr.C07_find_first",
    "CStr.C07_find_first_nocase",
    "CStr.C07_find_first_invalid",
    "CStr.C07_find_first_empty_needle",
    "CStr.C07_find_first_cstr"
   ],
   "note": ""
  },
  {
   "property": "C08",
   "status": "partial",
   "theorems": [
    "CStr.C08_find_last_partial",
    "CStr.C08_find_last_nocase_partial",
    "CStr.C08_placement",
    "CStr.C08_find_last_invalid",
    "CStr.C08_find_last_empty_needle",
    "CStr.C08_find_last_cstr",
    "CStr.C08_deviation_low_address",
    "CStr.C08_every_low_address_deviation"
   ],
   "note": "Proved under the hypothesis needle.size <= haystack.data + haystack.size, which holds unless the needle is longer than the haystack and the haystack lies in the first 2 GiB of the address space (C08_placement). Without it the property is false: C08_deviation_low_address gives a memory in which unmapped memory is read, and C08_every_low_address_deviation shows what happens in every case that violates the hypothesis."
  },
  {
   "property": "C09",
   "status": "proved",
   "theorems": [
    "CStr.C09_contains",
    "CStr.C09_contains_nocase",
    "CStr.C09_agrees_with_find",
    "CStr.C09_agrees_with_find_nocase"
   ],
   "note": ""
  },
  {
   "property": "C10",
   "status": "proved",
   "theorems": [
    "CStr.C10_split_first_delim",
    "CStr.C10_split_first_null"
   ],
   "note": ""
  },
  {
   "property": "C11",
   "status": "proved",
   "theorems": [
    "CStr.C11_split_first_delim",
    "CStr.C11_split_last_delim"
   ],
   "note": ""
  },
  {
   "property": "C12",
   "status": "proved",
   "theorems": [
    "CStr.C12_split_last_delim",
    "CStr.C12_split_last_null"
   ],
   "note": ""
  },
  {
   "property": "C13",
   "status": "proved",
   "theorems": [
    "CStr.C13_split_all_null",
    "CStr.C13_tokens_exist_unique",
    "CStr.C13_repeated_split",
    "CStr.C13_split_all",
    "CStr.C13_split_all_invalid"
   ],
   "note": ""
  },
  {
   "property": "C14",
   "status": "proved",
   "theorems": [
    "CStr.C14_split_index",
    "CStr.C14_docs_deviation",
    "CStr.C14_split_index_invalid"
   ],
   "note": "Proved as strview.h says. docs/strview-api.md says otherwise for an index outside of the source: C14_docs_deviation."
  },
  {
   "property": "C15",
   "status": "proved",
   "theorems": [
    "CStr.C15_split_left",
    "CStr.C15_split_right",
    "CStr.C15_located",
    "CStr.C15_split_outside",
    "CStr.C15_split_invalid"
   ],
   "note": ""
  },
  {
   "property": "C16",
   "status": "proved",
   "theorems": [
    "CStr.C16_pop_cons",
    "CStr.C16_pop_empty",
    "CStr.C16_pop_all"
   ],
   "note": ""
  },
  {
   "property": "C17",
   "status": "proved",
   "theorems": [
    "CStr.C17_split_line",
    "CStr.C17_all_lines",
    "CStr.C17_lines_exist_unique",
    "CStr.C17_all_lines_eol"
   ],
   "note": ""
  },
  {
   "property": "C18",
   "status": "partial",
   "theorems": [
    "CStr.C18_fragmentation_partial",
    "CStr.C18_any_fragmentation_partial",
    "CStr.C18_cuts_agree_partial",
    "CStr.C18_pieces_of_two",
    "CStr.C18_text_without_triples",
    "CStr.C18_deviation_fragmented",
    "CStr.C18_exact",
    "CStr.C18_right_iff",
    "CStr.C18_every_lone_deviation"
   ],
   "note": "Proved for every text and every way to cut it in which no piece is a lone line ending character that completes a two-character ending and is followed by the same character; so for every text if no piece is a single byte (C18_pieces_of_two), and for every way to cut a text without CR LF LF and LF CR CR (C18_text_without_triples). For every text and every way to cut it without exception (C18_any_fragmentation_partial, C18_cuts_agree_partial): the reader never fails, keeps exactly the text after the last line ending, returns lines of the whole text in order, and returns every line that is not empty; only empty lines can be lost. What is returned is also characterised exactly for every text and every cut (C18_exact, C18_right_iff): the lines of the text without the pieces that consist of just the second character of a line ending. In general false: C18_every_lone_deviation (every text with CR LF LF cut around the first LF loses a line), witness C18_deviation_fragmented."
  },
  {
   "property": "C19",
   "status": "partial",
   "theorems": [
    "CStr.C19_dequote_layers",
    "CStr.C19_dequote_empty",
    "CStr.C19_dequote_partial",
    "CStr.C19_deviation_unquoted"
   ],
   "note": "C19_dequote_layers says for every view what the function does. The documented property is false for unquoted texts that start and end with the same byte (C19_deviation_unquoted: level becomes eve); C19_dequote_partial is the property for all other texts."
  },
  {
   "property": "C20",
   "status": "proved",
   "theorems": [
    "CStr.C20_to_cstr",
    "CStr.C20_to_cstr_read_back",
    "CStr.C20_to_cstr_nothing"
   ],
   "note": ""
  },
  {
   "property": "C21",
   "status": "partial",
   "theorems": [
    "CStr.C21_view_functions_safe",
    "CStr.C21_find_last_safe_partial",
    "CStr.C21_index_functions_safe",
    "CStr.C21_delim_functions_safe",
    "CStr.C21_cstr_functions_safe",
    "CStr.C21_find_last_cstr_safe_partial",
    "CStr.C21_split_all_safe",
    "CStr.C21_null_source_safe",
    "CStr.C21_results_inside",
    "CStr.C21_find_last_inside_partial",
    "CStr.C21_index_results_inside",
    "CStr.C21_delim_results_inside"
   ],
   "note": "All view functions are covered, in their view and C string forms (C21_cstr_functions_safe, C21_split_all_safe, C21_null_source_safe); strview_find_last only with the placement hypothesis of C08, without which the property is false (C08_deviation_low_address)."
  },
  {
   "property": "C22",
   "status": "partial",
   "theorems": [
    "CStr.C22_unsigned_actual",
    "CStr.C22_unsigned_partial",
    "CStr.C22_text_exists_unique"
   ],
   "note": "C22_unsigned_actual holds for every input with the set of digits the code uses. With the documented set, C22_unsigned_partial excludes texts in which 0xB0 or 0xB1 directly follows the digits of a binary number: the code takes these two bytes for the digits 0 and 1 (C26_deviation_fake_binary_digit)."
  },
  {
   "property": "C23",
   "status": "partial",
   "theorems": [
    "CStr.C23_signed_actual",
    "CStr.C23_signed_partial",
    "CStr.C23_text_exists_unique",
    "CStr.C23_limits"
   ],
   "note": "As C22."
  },
  {
   "property": "C24",
   "status": "proved",
   "theorems": [
    "CStr.C24_float_failure_atomic",
    "CStr.C24_unsigned_failure_atomic",
    "CStr.C24_signed_failure_atomic"
   ],
   "note": ""
  },
  {
   "property": "C25",
   "status": "proved",
   "theorems": [
    "CStr.C25_choice_exists",
    "CStr.C25_unsigned_base",
    "CStr.C25_signed_base",
    "CStr.C25_options_independent",
    "CStr.C25_nobx_reads_zero"
   ],
   "note": ""
  },
  {
   "property": "C26",
   "status": "partial",
   "theorems": [
    "CStr.C26_unsigned_digits_only_partial",
    "CStr.C26_deviation_fake_binary_digit"
   ],
   "note": "False for the bytes 0xB0 and 0xB1 in base 2 (C26_deviation_fake_binary_digit). Proved for all other bytes in base 2 and for all bytes in the other bases."
  },
  {
   "property": "C27",
   "status": "proved",
   "theorems": [
    "CStr.C27_float_default",
    "CStr.C27_unsigned_default",
    "CStr.C27_signed_default"
   ],
   "note": ""
  },
  {
   "property": "C28",
   "status": "partial",
   "theorems": [
    "CStr.C28_unsigned_decimal",
    "CStr.C28_unsigned_hex",
    "CStr.C28_unsigned_bin_partial",
    "CStr.C28_signed_decimal"
   ],
   "note": "Decimal and hexadecimal: proved in full. Binary: the following text must not start with 0xB0 or 0xB1 (see C26)."
  },
  {
   "property": "C29",
   "status": "partial",
   "theorems": [
    "CStr.C29_text_unique",
    "CStr.C29_number",
    "CStr.C29_reject",
    "CStr.C29_special_partial",
    "CStr.C29_deviation_infinity",
    "CStr.C29_deviation_infinty"
   ],
   "note": "Numbers: proved in full. nan and inf: proved except for the words infinity and infinty. The word infinity is not recognised as documented because of a spelling error in the code (C29_deviation_infinity, C29_deviation_infinty)."
  },
  {
   "property": "C30",
   "status": "partial",
   "theorems": [
    "CStr.C30_exact_value_partial",
    "CStr.C30_deviation_long"
   ],
   "note": "Proved exactly for the literals for which it is true: those whose integral digits can be cut into two numbers of 64 bits, for example all below 10^38 (any number of fraction digits, any exponent). For all other literals the value is too large (C30_deviation_long)."
  },
  {
   "property": "C31",
   "status": "partial",
   "theorems": [
    "CStr.C31_double_null_source",
    "CStr.C31_deviation_float_null_source",
    "CStr.C31_integer_null_source"
   ],
   "note": "Proved for all integer types, double and long double. False for strnum_consume_float (C31_deviation_float_null_source)."
  },
  {
   "property": "C32",
   "status": "proved",
   "theorems": [
    "CStr.C32_program",
    "CStr.C32_every_operation",
    "CStr.C32_terminated"
   ],
   "note": ""
  },
  {
   "property": "C33",
   "status": "proved",
   "theorems": [
    "CStr.C33_append",
    "CStr.C33_append_cstr",
    "CStr.C33_append_self"
   ],
   "note": ""
  },
  {
   "property": "C34",
   "status": "proved",
   "theorems": [
    "CStr.C34_insert",
    "CStr.C34_insert_cstr",
    "CStr.C34_prepend",
    "CStr.C34_prepend_cstr",
    "CStr.C34_position"
   ],
   "note": ""
  },
  {
   "property": "C35",
   "status": "proved",
   "theorems": [
    "CStr.C35_insert_before",
    "CStr.C35_insert_before_cstr",
    "CStr.C35_insert_after",
    "CStr.C35_insert_after_cstr",
    "CStr.C35_not_located"
   ],
   "note": ""
  },
  {
   "property": "C36",
   "status": "proved",
   "theorems": [
    "CStr.C36_assign",
    "CStr.C36_assign_invalid"
   ],
   "note": ""
  },
  {
   "property": "C37",
   "status": "proved",
   "theorems": [
    "CStr.C37_cat",
    "CStr.C37_cat_self",
    "CStr.C37_cat_dynamic",
    "CStr.C37_cat_self_fixed"
   ],
   "note": ""
  },
  {
   "property": "C38",
   "status": "proved",
   "theorems": [
    "CStr.C38_every_operation",
    "CStr.C38_fixed_insert",
    "CStr.C38_fixed_others"
   ],
   "note": ""
  },
  {
   "property": "C39",
   "status": "partial",
   "theorems": [
    "CStr.C39_dynamic",
    "CStr.C39_dynamic_cat",
    "CStr.C39_iso_deviation",
    "CStr.C39_dynamic_located",
    "CStr.C39_iso_every_insertion",
    "CStr.C39_iso_cat_deviation"
   ],
   "note": "Proved for builds with wrapping signed arithmetic (-fwrapv), and for ISO C as long as the result does not exceed INT_MAX. Under the rules of ISO C the overflow test itself overflows, in every operation that inserts content and in concatenation (C39_iso_deviation, C39_iso_every_insertion, C39_iso_cat_deviation)."
  },
  {
   "property": "C40",
   "status": "partial",
   "theorems": [
    "CStr.C40_strip_partial",
    "CStr.C40_strip_cstr_partial",
    "CStr.C40_strip_invalid",
    "CStr.C40_strip_self_deviation",
    "CStr.C40_strip_own",
    "CStr.C40_strip_own_differs"
   ],
   "note": "Proved for characters given outside of the buffer. For characters given as a view of the buffer itself the property is false (C40_strip_self_deviation); C40_strip_own says exactly what is left then, for every buffer and view: a part of the content, no longer than what is before the view; C40_strip_own_differs: the documented result is lost whenever it is longer than that."
  },
  {
   "property": "C41",
   "status": "proved",
   "theorems": [
    "CStr.C41_append_chars",
    "CStr.C41_append_chars_fixed"
   ],
   "note": ""
  },
  {
   "property": "C42",
   "status": "proved",
   "theorems": [
    "CStr.C42_shrink",
    "CStr.C42_grow",
    "CStr.C42_grow_fixed"
   ],
   "note": ""
  },
  {
   "property": "C43",
   "status": "proved",
   "theorems": [
    "CStr.C43_no_leak",
    "CStr.C43_all_released",
    "CStr.C43_destroy",
    "CStr.C43_destroy_twice",
    "CStr.C43_allocator_protocol",
    "CStr.C43_balanced"
   ],
   "note": ""
  },
  {
   "property": "C44",
   "status": "partial",
   "theorems": [
    "CStr.C44_to_cstr",
    "CStr.C44_to_cstr_string",
    "CStr.C44_to_cstr_fixed",
    "CStr.C44_iso_deviation"
   ],
   "note": "Proved except for a content of INT_MAX bytes under the rules of ISO C, where size + 1 overflows (C44_iso_deviation)."
  },
  {
   "property": "C45",
   "status": "proved",
   "theorems": [
    "CStr.C45_append_using",
    "CStr.C45_append_using_fault"
   ],
   "note": ""
  },
  {
   "property": "C46",
   "status": "partial",
   "theorems": [
    "CStr.C46_append_printf_partial",
    "CStr.C46_printf_partial",
    "CStr.C46_error_deviation",
    "CStr.C46_append_printf_error_deviation",
    "CStr.C46_printf_self_deviation",
    "CStr.C46_every_printf_self_deviation"
   ],
   "note": "Proved for every text. False for every error of vsnprintf (C46_append_printf_error_deviation: the negative result is added to the size; witness C46_error_deviation); and strbuf_printf of a buffer's own content loses it (C46_every_printf_self_deviation, for every buffer; witness C46_printf_self_deviation)."
  },
  {
   "property": "C47",
   "status": "proved",
   "theorems": [
    "CStr.C47_append_prnf",
    "CStr.C47_prnf"
   ],
   "note": ""
  },
  {
   "property": "C48",
   "status": "proved",
   "theorems": [
    "CStr.C48_create_fixed",
    "CStr.C48_create_fixed_null",
    "CStr.C48_static_init"
   ],
   "note": ""
  },
  {
   "property": "C49",
   "status": "proved",
   "theorems": [
    "CStr.C49_create_empty",
    "CStr.C49_create_init",
    "CStr.C49_create_null",
    "CStr.C49_alloc_failure_deviation"
   ],
   "note": "Proved as stated, for allocators that do not return NULL (strbuf.h line 211 requires that). C49_alloc_failure_deviation shows what happens otherwise."
  },
  {
   "property": "C50",
   "status": "proved",
   "theorems": [
    "CStr.C50_null_handle",
    "CStr.C50_null_handle_others"
   ],
   "note": ""
  },
  {
   "property": "C51",
   "status": "proved",
   "theorems": [
    "CStr.C51_frame"
   ],
   "note": ""
  },
  {
   "property": "C52",
   "status": "proved",
   "theorems": [
    "CStr.C52_refinement",
    "CStr.C52_contents"
   ],
   "note": ""
  },
  {
   "property": "C53",
   "status": "proved",
   "theorems": [
    "CStr.C53_rounding_deviation",
    "CStr.C53_capacity",
    "CStr.C53_calls"
   ],
   "note": "Proved as stated. strbuf.h lines 118-120 say that all capacities are rounded; C53_rounding_deviation shows that those of new and explicitly grown buffers are not."
  },
  {
   "property": "C54",
   "status": "proved",
   "theorems": [
    "CStr.C54_pack",
    "CStr.C54_unpack",
    "CStr.C54_short_view_undefined",
    "CStr.C54_pack_all",
    "CStr.C54_unpack_all",
    "CStr.C54_round_trip"
   ],
   "note": ""
  },
  {
   "property": "C55",
   "status": "proved",
   "theorems": [
    "CStr.C55_append_read",
    "CStr.C55_append_read_error",
    "CStr.C55_write",
    "CStr.C55_write_error",
    "CStr.C55_null",
    "CStr.C55_conservation",
    "CStr.C55_delivery",
    "CStr.C55_view_write",
    "CStr.C55_view_write_error",
    "CStr.C55_view_delivery"
   ],
   "note": ""
  },
  {
   "property": "C56",
   "status": "proved",
   "theorems": [
    "CStr.C56_encrypt",
    "CStr.C56_cbc_unique",
    "CStr.C56_decrypt",
    "CStr.C56_round_trip",
    "CStr.C56_cbc_onto",
    "CStr.C56_decrypt_any",
    "CStr.C56_decrypt_short",
    "CStr.C56_no_room",
    "CStr.C56_huge_deviation",
    "CStr.C56_full_buffer_deviation",
    "CStr.C56_null",
    "CStr.C56_view_deviation",
    "CStr.C56_bad_padding_deviation"
   ],
   "note": "Proved as stated, and that the result is AES-256 CBC (little-endian hosts). Deviations from the header file and limits of decryption are theorems too: the returned view is always invalid, a full fixed buffer is skipped silently, padding is not checked, and with fewer than 16 bytes left to INT_MAX the size computation overflows (C56_huge_deviation)."
  },
  {
   "property": "C57",
   "status": "proved",
   "theorems": [
    "CStr.C57_field",
    "CStr.C57_sbox",
    "CStr.C57_encrypt",
    "CStr.C57_encrypts_unique",
    "CStr.C57_inverse",
    "CStr.C57_decrypt",
    "CStr.C57_key_lengths",
    "CStr.C57_big_endian_deviation"
   ],
   "note": "Proved as stated. C57_big_endian_deviation shows that the key schedule differs from FIPS 197 on big-endian hosts."
  },
  {
   "property": "C58",
   "status": "proved",
   "theorems": [
    "CStr.C58_components_inside",
    "CStr.C58_host_uri",
    "CStr.C58_path_uri",
    "CStr.C58_ambiguous_texts",
    "CStr.C58_program_host",
    "CStr.C58_program_path",
    "CStr.C58_program_safe",
    "CStr.C58_demo"
   ],
   "note": ""
  },
  {
   "property": "C59",
   "status": "partial",
   "theorems": [
    "CStr.C59_handler",
    "CStr.C59_count_only",
    "CStr.C59_snprnf_partial",
    "CStr.C59_sprnf",
    "CStr.C59_large_size_deviation",
    "CStr.C59_printed"
   ],
   "note": "Proved for handlers, sprnf, and snprnf with sizes up to INT_MAX. Greater sizes are converted to int and lose the output (C59_large_size_deviation)."
  },
  {
   "property": "C60",
   "status": "partial",
   "theorems": [
    "CStr.C60_signed_partial",
    "CStr.C60_unsigned",
    "CStr.C60_read_back",
    "CStr.C60_llong_min_deviation",
    "CStr.C60_every_llong_min_deviation"
   ],
   "note": "Proved for all arguments but the most negative long long, for which the code overflows with all flags, widths and precisions and anywhere in a format (C60_every_llong_min_deviation; C60_llong_min_deviation is the witness)."
  },
  {
   "property": "C61",
   "status": "partial",
   "theorems": [
    "CStr.C61_hex_partial",
    "CStr.C61_bin_partial",
    "CStr.C61_shift_deviation",
    "CStr.C61_hex_every_count",
    "CStr.C61_bin_every_count"
   ],
   "note": "Proved for digit counts 1 to 16 (hexadecimal) and 1 to 64 (binary). For other counts the code shifts by an illegal amount or prints too few digits (C61_shift_deviation); C61_hex_every_count and C61_bin_every_count say exactly what happens for every count, width and flag."
  },
  {
   "property": "C62",
   "status": "partial",
   "theorems": [
    "CStr.C62_string_partial",
    "CStr.C62_centred",
    "CStr.C62_view_partial",
    "CStr.C62_over_read_deviation",
    "CStr.C62_negative_precision_deviation",
    "CStr.C62_every_negative_precision_deviation",
    "CStr.C62_every_over_read_deviation"
   ],
   "note": "Proved for terminated strings. Without a terminator the code reads beyond the characters it may read (C62_over_read_deviation), also for views; a negative precision argument reads without end (C62_negative_precision_deviation). Both are proved for every such call (C62_every_over_read_deviation, C62_every_negative_precision_deviation)."
  },
  {
   "property": "C63",
   "status": "partial",
   "theorems": [
    "CStr.C63_width_partial",
    "CStr.C63_char_deviation",
    "CStr.C63_every_char_deviation"
   ],
   "note": "Proved for numbers and strings. %c ignores the width, always (C63_every_char_deviation; C63_char_deviation is the witness)."
  },
  {
   "property": "C64",
   "status": "partial",
   "theorems": [
    "CStr.C64_align_partial",
    "CStr.C64_plain",
    "CStr.C64_pad_deviation",
    "CStr.C64_every_pad_deviation"
   ],
   "note": "Proved for printable pad characters below 128; others are not accepted where char is signed (C64_every_pad_deviation, for every such character; witness C64_pad_deviation)."
  },
  {
   "property": "C65",
   "status": "partial",
   "theorems": [
    "CStr.C65_append_partial",
    "CStr.C65_zero",
    "CStr.C65_unterminated_deviation",
    "CStr.C65_every_unterminated_deviation"
   ],
   "note": "Proved for buffers that hold a terminated string, sizes up to INT_MAX. Otherwise false: C65_every_unterminated_deviation (every buffer without terminator; witness C65_unterminated_deviation), C59_large_size_deviation."
  },
  {
   "property": "C66",
   "status": "proved",
   "theorems": [
    "CStr.C66_every_precision_deviation",
    "CStr.C66_float",
    "CStr.C66_special",
    "CStr.C66_unit_unique",
    "CStr.C66_unit_range",
    "CStr.C66_eng",
    "CStr.C66_float_argument",
    "CStr.C66_product_deviation",
    "CStr.C66_precision_deviation"
   ],
   "note": "Proved with the error of one float product (C66_float) and of up to eight divisions or multiplications by 1000 and the product (C66_eng). C66_product_deviation shows that the error is not zero even for integers; precisions beyond 255 are taken modulo 256 (C66_every_precision_deviation, with the witness C66_precision_deviation)."
  },
  {
   "property": "C67",
   "status": "partial",
   "theorems": [
    "CStr.C67_unsupported_partial",
    "CStr.C67_percent_at_end_deviation",
    "CStr.C67_number_deviation",
    "CStr.C67_undefined_deviation",
    "CStr.C67_every_format",
    "CStr.C67_call_partial",
    "CStr.C67_overlong_deviation",
    "CStr.C67_unfinished_deviation"
   ],
   "note": "Every text with every argument list is covered by the formatter theorems up to the first mistake, and the mistakes are listed (C67_every_format). The general statement is false: an unfinished placeholder is read beyond the end of the format (C67_unfinished_deviation), a number beyond INT_MAX overflows (C67_overlong_deviation), and the arguments of Spec/PrnfEdge are undefined (C67_undefined_deviation), wherever they stand."
  },
  {
   "property": "C68",
   "status": "proved",
   "theorems": [
    "CStr.C68_prnf",
    "CStr.C68_append_prnf",
    "CStr.C68_read_back"
   ],
   "note": ""
  },
  {
   "property": "C69",
   "status": "partial",
   "theorems": [
    "CStr.C69_relative_error",
    "CStr.C69_accuracy_partial",
    "CStr.C69_integer",
    "CStr.C69_nearest_deviation"
   ],
   "note": "Proved for digits in the range of the type (all integral parts below 10^38, and longer ones that can be cut into two numbers of 64 bits and do not overflow), with fraction, exponent and value within the range of full precision (C69_accuracy_partial, C69_relative_error); integers below 2^64: C69_integer. Outside: C30_deviation_long, C70_underflow_deviation. C69_nearest_deviation shows that the bound is not one rounding, as the documentation warns."
  },
  {
   "property": "C70",
   "status": "partial",
   "theorems": [
    "CStr.C70_overflow_partial",
    "CStr.C70_integral_overflow_partial",
    "CStr.C70_digits_overflow_deviation",
    "CStr.C70_outcome_partial",
    "CStr.C70_exponent_overflow_deviation",
    "CStr.C70_underflow_deviation",
    "CStr.C70_float_deviation",
    "CStr.C70_long_deviation"
   ],
   "note": "Proved in one direction for exponents in the range of the type: too great values are refused (C70_overflow_partial; for any number of digits C70_integral_overflow_partial), and the outcome is a finite number or ERANGE (C70_outcome_partial). The general statement is false: C70_exponent_overflow_deviation, C70_underflow_deviation, C70_digits_overflow_deviation (NaN), with the witnesses C70_float_deviation and C70_long_deviation."
  },
  {
   "property": "C71",
   "status": "proved",
   "theorems": [
    "CStr.C71_read_back",
    "CStr.C71_buffer",
    "CStr.C71_zero_flag_exact",
    "CStr.C71_zero_flag_deviation"
   ],
   "note": "Proved, also through a buffer. C71_zero_flag_exact says what happens with the flag 0 and a sign: zeros that fill the field are printed before the sign and 0 is read (C71_zero_flag_deviation is a case)."
  },
  {
   "property": "C72",
   "status": "proved",
   "theorems": [
    "CStr.C72_release",
    "CStr.C72_request",
    "CStr.C72_contract",
    "CStr.C72_assert",
    "CStr.C72_documented",
    "CStr.C72_documented_deviation"
   ],
   "note": "Proved for the default allocator. The allocator given as an example in strbuf.h differs: C72_documented_deviation shows that it calls realloc(p, 0), which may keep the block or be undefined."
  },
  {
   "property": "C73",
   "status": "partial",
   "theorems": [
    "CStr.C73_printf",
    "CStr.C73_printf_all",
    "CStr.C73_prnf_partial",
    "CStr.C73_prnf_deviation",
    "CStr.C73_prnf_exact"
   ],
   "note": "Proved for printf of the C library (and so strbuf_printf). For the bundled formatter C73_prnf_partial needs a NUL somewhere behind the start of the view; without one the statement is false: C73_prnf_deviation. C73_prnf_exact says for every view which of the two happens."
  },
  {
   "property": "C74",
   "status": "partial",
   "theorems": [
    "CStr.C74_view",
    "CStr.C74_buf",
    "CStr.C74_is_match",
    "CStr.C74_null",
    "CStr.C74_create_size",
    "CStr.C74_create_negative",
    "CStr.C74_create_view",
    "CStr.C74_cstr_SL",
    "CStr.C74_cstr_SL_eq",
    "CStr.C74_cat_partial",
    "CStr.C74_cat_count",
    "CStr.C74_cat_deviation"
   ],
   "note": "Proved for 1 to 127 arguments of strbuf_cat. For more the statement is false: C74_cat_deviation, the call does not compile. C74_cat_count: _strbuf_cat and strbuf_vcat told any number of arguments."
  },
  {
   "property": "C75",
   "status": "proved",
   "theorems": [
    "CStr.C75_stack_ex1",
    "CStr.C75_stack_ex2",
    "CStr.C75_stack_ex3",
    "CStr.C75_static",
    "CStr.C75_alloc",
    "CStr.C75_alloc_text",
    "CStr.C75_stack_ex2_limit",
    "CStr.C75_testnum",
    "CStr.C75_testnum_line",
    "CStr.C75_testnum_reports",
    "CStr.C75_testnum_unique"
   ],
   "note": "Proved."
  },
  {
   "property": "C76",
   "status": "proved",
   "theorems": [
    "CStr.C76_schedule",
    "CStr.C76_order"
   ],
   "note": "Proved with a call as one step; memory accesses of two calls are not interleaved."
  },
  {
   "property": "C77",
   "status": "proved",
   "theorems": [
    "CStr.C77_tokens_exist_unique",
    "CStr.C77_repeated_split",
    "CStr.C77_split_all",
    "CStr.C77_quotes_paired"
   ],
   "note": ""
  },
  {
   "property": "C78",
   "status": "proved",
   "theorems": [
    "CStr.C78_trim_buffer",
    "CStr.C78_cut_at_first",
    "CStr.C78_insert_after_first",
    "CStr.C78_collect_lines",
    "CStr.C78_write_numbers",
    "CStr.C78_read_numbers",
    "CStr.C78_numbers_round_trip",
    "CStr.C78_count",
    "CStr.C78_write_frames",
    "CStr.C78_read_frames",
    "CStr.C78_frames_round_trip",
    "CStr.C78_read_checked",
    "CStr.C78_group_from_end",
    "CStr.C78_write_hex",
    "CStr.C78_read_hex",
    "CStr.C78_hex_round_trip",
    "CStr.C78_path_parts",
    "CStr.C78_path_missing",
    "CStr.C78_replaced_determined",
    "CStr.C78_replace_all",
    "CStr.C78_change_delims",
    "CStr.C78_split_join",
    "CStr.C78_reverse_fields",
    "CStr.C78_settings"
   ],
   "note": "Proved. Of the line collector all lines come out unless a piece is a single end-of-line character between others that differ from it (see C18)."
  },
  {
   "property": "C79",
   "status": "proved",
   "theorems": [
    "CStr.C79_any_calls",
    "CStr.C79_substring"
   ],
   "note": "Proved. find_last needs the placement hypothesis, see C08."
  },
  {
   "property": "C80",
   "status": "proved",
   "theorems": [
    "CStr.C80_refinement",
    "CStr.C80_contents",
    "CStr.C80_deterministic",
    "CStr.C80_view_stays",
    "CStr.C80_stale_view_is_ub"
   ],
   "note": "Proved. The meaning of a program (Spec/HeldViews.lean) is in terms of byte strings, offsets and lengths, and is unambiguous (C80_deterministic). split_left and split_right of views into two different constants are excluded: where those are relative to each other is not known. find_last with a needle longer than the haystack is excluded (C08)."
  },
  {
   "property": "C81",
   "status": "proved",
   "theorems": [
    "CStr.C81_stays",
    "CStr.C81_no_allocation",
    "CStr.C81_moves_only",
    "CStr.C81_old_views",
    "CStr.C81_appending_keeps_views"
   ],
   "note": "Proved for all operations."
  },
  {
   "property": "C82",
   "status": "proved",
   "theorems": [
    "CStr.C82_match_compare_starts",
    "CStr.C82_exact_implies_nocase",
    "CStr.C82_starts_iff_found_first",
    "CStr.C82_found_matches",
    "CStr.C82_first_not_behind_last",
    "CStr.C82_nothing_before_first",
    "CStr.C82_sub_of_sub",
    "CStr.C82_sub_all",
    "CStr.C82_split_index_is_sub",
    "CStr.C82_pop_is_split",
    "CStr.C82_trim_order",
    "CStr.C82_insert_forms",
    "CStr.C82_append_char_is_append",
    "CStr.C82_assign_is_cat",
    "CStr.C82_prnf_is_append",
    "CStr.C82_exchange",
    "CStr.C82_append_append",
    "CStr.C82_assign_append",
    "CStr.C82_strip_strip",
    "CStr.C82_shrink_shrink",
    "CStr.C82_prepend_append"
   ],
   "note": "Proved from the properties of the single functions."
  },
  {
   "property": "C83",
   "status": "proved",
   "theorems": [
    "CStr.C83_answers",
    "CStr.C83_places",
    "CStr.C83_numbers",
    "CStr.C83_programs"
   ],
   "note": "Proved; the float conversions are in C29 and C30."
  },
  {
   "property": "C84",
   "status": "partial",
   "theorems": [
    "CStr.C84_unchanged",
    "CStr.C84_unchanged_create",
    "CStr.C84_request_partial",
    "CStr.C84_request_prnf",
    "CStr.C84_program_partial",
    "CStr.C84_goes_on_partial",
    "CStr.C84_to_cstr",
    "CStr.C84_to_cstr_loses_buffer",
    "CStr.C84_prnf_stale_pointer"
   ],
   "note": "Proved for all operations but the bundled formatter and strbuf_to_cstr, for single calls and whole programs. Missing because the code violates it: strbuf_to_cstr has overwritten the header before it asks (C84_to_cstr_loses_buffer), and the bundled formatter keeps a moved buffer in a local variable, so that at a later request the caller's pointer dangles (C84_prnf_stale_pointer; C84_request_prnf says so of every request made after a move). For these two, what does hold is C84_to_cstr and C84_request_prnf. When a concatenation with itself is left at its second request, the temporary block is not released."
  },
  {
   "property": "C85",
   "status": "proved",
   "theorems": [
    "CStr.C85_simple",
    "CStr.C85_any_callback",
    "CStr.C85_any_callback_fault",
    "CStr.C85_sequential",
    "CStr.C85_refinement",
    "CStr.C85_moved_buffer",
    "CStr.C85_grow_in_callback"
   ],
   "note": "Nested programs are proved equal, as executions, to the flattened sequence of calls (C85_sequential), hence refine the byte string semantics (C85_refinement). C85_any_callback and C85_any_callback_fault treat one call with an arbitrary effectful callback. C85_moved_buffer and C85_grow_in_callback prove the limit stated in the property."
  },
  {
   "property": "C86",
   "status": "proved",
   "theorems": [
    "CStr.C86_refinement",
    "CStr.C86_deterministic",
    "CStr.C86_indistinguishable",
    "CStr.C86_questions_read_only",
    "CStr.C86_read_loop"
   ],
   "note": "C86_refinement: the machine run of every interactive program is matched, answer by answer, by the run over byte strings; C86_deterministic: that run is unique; C86_indistinguishable: hence the answers are the same in any two machines; C86_read_loop: an unbounded loop of conversions reads back every list of numbers. Floating point conversions are not among the questions. Integer conversions are described as they are (DigitRunActual), see C26 for the deviation."
  },
  {
   "property": "C87",
   "status": "proved",
   "theorems": [
    "CStr.C87_refinement",
    "CStr.C87_deterministic",
    "CStr.C87_indistinguishable",
    "CStr.C87_streams",
    "CStr.C87_grep",
    "CStr.C87_grep_finishes",
    "CStr.C87_grep_prefix"
   ],
   "note": "C87_refinement: every interactive program with input and output is matched step by step by its meaning over byte strings, for every behaviour of the operating system; C87_deterministic, C87_indistinguishable, C87_streams; C87_grep: the line filter of Spec/Grep.lean is correct for every input and every division of the transfers; C87_grep_finishes: it finishes within 16 actions per byte if no call fails. The filter theorem assumes that read reports 0 only at the end of the input."
  },
  {
   "property": "C88",
   "status": "proved",
   "theorems": [
    "CStr.C88_seal",
    "CStr.C88_seal_prefix",
    "CStr.C88_seal_finishes",
    "CStr.C88_open",
    "CStr.C88_open_prefix",
    "CStr.C88_open_finishes",
    "CStr.C88_delivered",
    "CStr.C88_sealed_unique"
   ],
   "note": "C87_refinement covers programs that pack, unpack, encrypt and decrypt too (little-endian host). C88_seal, C88_open: the two programs of Spec/Sealed.lean are legal for ever, and when finished have written the sealed message and the message; C88_delivered: one after the other, on two machines; C88_seal_finishes, C88_open_finishes: they finish if no call fails; C88_sealed_unique. Read must report 0 only at the end of the input."
  },
  {
   "property": "C89",
   "status": "proved",
   "theorems": [
    "CStr.C89_schedule",
    "CStr.C89_alone",
    "CStr.C89_order",
    "CStr.C89_instances",
    "CStr.C89_greps"
   ],
   "note": "C89_schedule: every family of programs that name different variables, every schedule; C89_alone, C89_order: the answers and the output are those of the program alone, in any order; C89_instances: every family of programs, the variables being renamed apart; C89_greps: any number of filters. Calls are atomic: a call that is interrupted by another call on shared memory is not modelled (the library has no locks and no shared variables but the allocator)."
  },
  {
   "property": "C90",
   "status": "proved",
   "theorems": [
    "CStr.C90_protocol",
    "CStr.C90_tasks",
    "CStr.C90_cleanup",
    "CStr.C90_tasks_cleanup",
    "CStr.C90_grep",
    "CStr.C90_greps",
    "CStr.C90_seal",
    "CStr.C90_open"
   ],
   "note": "C90_protocol: every program with input and output; C90_tasks: families of programs on one heap, every schedule; C90_cleanup, C90_tasks_cleanup: a program, or a family, followed by the destruction of its buffers ends with an empty heap and the same output; C90_grep, C90_greps, C90_seal, C90_open: the programs of C87 and C88. Programs that turn buffers into C strings are covered by C90_protocol and C90_tasks but not by the cleanup theorems (their strings are released by the client, see C43)."
  },
  {
   "property": "C91",
   "status": "proved",
   "theorems": [
    "CStr.C91_interchangeable",
    "CStr.C91_moved",
    "CStr.C91_destroyed",
    "CStr.C91_destroyed_fixed",
    "CStr.C91_dangling",
    "CStr.C91_two_pointers"
   ],
   "note": "C91_interchangeable: histories through both variables; C91_moved, C91_destroyed: when a copy is dangling; C91_dangling: every use of it is undefined; C91_two_pointers: the README's example for any operation; C91_destroyed_fixed. 'Moved away' means that the new block does not take in the old header; C itself makes the old pointer indeterminate in every case, which a model with plain addresses does not see."
  },
  {
   "property": "C92",
   "status": "partial",
   "theorems": [
    "CStr.C92_returned",
    "CStr.C92_created",
    "CStr.C92_operation",
    "CStr.C92_next_answer",
    "CStr.C92_program_partial",
    "CStr.C92_every_program_partial",
    "CStr.C92_to_cstr_deviation",
    "CStr.C92_crypt",
    "CStr.C92_write",
    "CStr.C92_interactive_partial",
    "CStr.C92_grep",
    "CStr.C92_tasks_partial"
   ],
   "note": "C92_returned, C92_created: any call, without a condition on the state; C92_operation: the three ways a call can end; C92_next_answer: a call that returns when the next answer is NULL has made no request; C92_crypt, C92_write: the accessories; C92_program_partial, C92_interactive_partial, C92_tasks_partial: programs, also with input and output and several at a time, strbuf_to_cstr excepted; C92_every_program_partial: all programs, with what is right up to a strbuf_to_cstr that is answered NULL; C92_grep: the filter of C87 never writes anything but the beginning of the right output. strbuf_to_cstr violates it (C92_to_cstr_deviation): with a NULL answer it stores a NUL at the address `size`, returns NULL and loses the block."
  }
 ]
}