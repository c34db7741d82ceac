{
 "claims": [
  {
   "property": "C01",
   "status": "proved",
   "theorems": [
    "Verif.U8Pool.C01_stack_refinement",
    "Verif.U8Pool.C01_push_pop_clear"
   ],
   "note": ""
  },
  {
   "property": "C02",
   "status": "proved",
   "theorems": [
    "Verif.U8Pool.C02_push_outcome"
   ],
   "note": ""
  },
  {
   "property": "C03",
   "status": "proved",
   "theorems": [
    "Verif.U8Pool.C03_ranges_in_bounds_and_disjoint",
    "Verif.U8Pool.C03_no_panic",
    "Verif.U8Pool.C03_slot_writes_local"
   ],
   "note": ""
  },
  {
   "property": "C04",
   "status": "proved",
   "theorems": [
    "Verif.U8Pool.C04_iterators",
    "Verif.U8Pool.C04_assoc_iterators"
   ],
   "note": ""
  },
  {
   "property": "C05",
   "status": "proved",
   "theorems": [
    "Verif.U8Pool.C05_assoc_roundtrip"
   ],
   "note": ""
  },
  {
   "property": "C06",
   "status": "partial",
   "theorems": [
    "Verif.U8Pool.C06_alignment_violated",
    "Verif.U8Pool.C06_alignment_partial"
   ],
   "note": "False of the code: alignment is computed relative to the data area, whose address is not aligned. Negation proved with a witness; the part proved assumes base + 4*max_slices is a multiple of the alignment."
  },
  {
   "property": "C07",
   "status": "partial",
   "theorems": [
    "Verif.U8Pool.C07_replace_not_atomic",
    "Verif.U8Pool.C07_replace_partial"
   ],
   "note": "False of the code for the 16-bit length error, which is reported after the data was overwritten. Negation proved; the rest proved for size + new length <= 65535."
  },
  {
   "property": "C08",
   "status": "partial",
   "theorems": [
    "Verif.U8Pool.C08_new_iff_partial",
    "Verif.U8Pool.C08_new_overflow"
   ],
   "note": "False of the code when max_slices*4 wraps (release build, 64-bit): negation proved at max_slices = 2^62; proved for all max_slices < 2^62."
  },
  {
   "property": "C09",
   "status": "proved",
   "theorems": [
    "Verif.U8Pool.C09_push_pop_identity"
   ],
   "note": ""
  },
  {
   "property": "C10",
   "status": "proved",
   "theorems": [
    "Verif.RJiter.C10_no_byte_lost"
   ],
   "note": ""
  },
  {
   "property": "C11",
   "status": "proved",
   "theorems": [
    "Verif.RJiter.C11_skip_n"
   ],
   "note": ""
  },
  {
   "property": "C12",
   "status": "partial",
   "theorems": [
    "Verif.RJiter.C12_lookahead_n",
    "Verif.RJiter.C12_lookahead_n_any",
    "Verif.RJiter.C12_buffer_full_at_end"
   ],
   "note": "Everything proved except the error kind: with a full buffer at the end of the input the error is BufferFull although the stream has ended (negation proved)."
  },
  {
   "property": "C13",
   "status": "partial",
   "theorems": [
    "Verif.RJiter.C13_lookahead_while_partial",
    "Verif.RJiter.C13_buffer_full_moves"
   ],
   "note": "False of the code when the call fails with BufferFull: the position is moved (negation proved). Proved for the other outcomes."
  },
  {
   "property": "C14",
   "status": "proved",
   "theorems": [
    "Verif.RJiter.C14_known_skip_token"
   ],
   "note": ""
  },
  {
   "property": "C15",
   "status": "proved",
   "theorems": [
    "Verif.RJiter.C15_finish"
   ],
   "note": ""
  },
  {
   "property": "C16",
   "status": "partial",
   "theorems": [
    "Verif.RJiter.C16_peek_partial",
    "Verif.RJiter.C16_peek_end",
    "Verif.RJiter.C16_form_feed"
   ],
   "note": "False for a form feed, which is skipped like whitespace (negation proved)."
  },
  {
   "property": "C17",
   "status": "partial",
   "theorems": [
    "Verif.RJiter.C17_known_array_partial",
    "Verif.RJiter.C17_next_array_partial",
    "Verif.RJiter.C17_array_step_end",
    "Verif.RJiter.C17_array_step_comma_partial",
    "Verif.RJiter.C17_known_null",
    "Verif.RJiter.C17_next_null",
    "Verif.RJiter.C17_known_true",
    "Verif.RJiter.C17_known_false",
    "Verif.RJiter.C17_next_bool",
    "Verif.RJiter.C17_known_string",
    "Verif.RJiter.C17_next_string",
    "Verif.RJiter.C17_next_object_empty",
    "Verif.RJiter.C17_next_object_key_partial",
    "Verif.RJiter.C17_known_object_empty",
    "Verif.RJiter.C17_known_object_key_partial",
    "Verif.RJiter.C17_next_key_end",
    "Verif.RJiter.C17_next_key",
    "Verif.RJiter.C17_object_chunks",
    "Verif.RJiter.C17_object_false_end",
    "Verif.RJiter.C17_next_object_key_cut",
    "Verif.RJiter.C17_next_object_key_exact"
   ],
   "note": "False of known_object / next_object when the object starts at the start of the buffer and its first key is partly buffered (negation proved twice, and for every such state of next_object: it succeeds if and only if the state is not such a one), and for form feeds; proved otherwise."
  },
  {
   "property": "C18",
   "status": "proved",
   "theorems": [
    "Verif.RJiter.C18_number_whole"
   ],
   "note": ""
  },
  {
   "property": "C19",
   "status": "partial",
   "theorems": [
    "Verif.RJiter.C19_last_number_partial",
    "Verif.RJiter.C19_last_number_lost",
    "Verif.Scan.C19_last_number_fails",
    "Verif.Scan.C19_last_number_exact"
   ],
   "note": "False when the whole number is at the start of the buffer (the call fails in every such state); proved otherwise, as an equivalence."
  },
  {
   "property": "C23",
   "status": "proved",
   "theorems": [
    "Verif.RJiter.C23_index_is_offset",
    "Verif.RJiter.C23_index_monotone"
   ],
   "note": ""
  },
  {
   "property": "C27",
   "status": "partial",
   "theorems": [
    "Verif.RJiter.C27_every_call_returns_partial",
    "Verif.RJiter.C27_one_byte_buffer"
   ],
   "note": "False with a one-byte buffer (negation proved); proved for buffers of at least two bytes."
  },
  {
   "property": "C29",
   "status": "proved",
   "theorems": [
    "Verif.RJiter.C29_fill_level",
    "Verif.RJiter.C29_lines"
   ],
   "note": ""
  },
  {
   "property": "C41",
   "status": "partial",
   "theorems": [
    "Verif.RJiter.C41_known_partial",
    "Verif.RJiter.C41_next_partial",
    "Verif.RJiter.C41_trailing_comma_accepted",
    "Verif.RJiter.C41_key_commas_accepted",
    "Verif.RJiter.C41_object_junk_accepted"
   ],
   "note": "False of array_step, next_key and known_object, which accept a trailing comma, a double comma, and junk behind the brace (negations proved); proved for the calls on atoms."
  },
  {
   "property": "C20",
   "status": "partial",
   "theorems": [
    "Verif.RJiter.C20_write_long_bytes_partial",
    "Verif.RJiter.C20_cut_in_escape"
   ],
   "note": "False when a stale byte behind the valid bytes is a UTF-8 continuation byte: an escape is cut in two (negation proved). Proved when the body has no backslash, or everything is ASCII, or the reader delivers full reads."
  },
  {
   "property": "C21",
   "status": "partial",
   "theorems": [
    "Verif.RJiter.C21_write_long_str_partial",
    "Verif.RJiter.C21_buffered_partial",
    "Verif.RJiter.C21_split_pair",
    "Verif.RJiter.C21_cut_in_escape"
   ],
   "note": "False for surrogate pairs split over segments and for stale bytes (negations proved). Proved without pairs and with harmless stale bytes; with pairs if the string is buffered."
  },
  {
   "property": "C22",
   "status": "partial",
   "theorems": [
    "Verif.RJiter.C22_write_long_str",
    "Verif.RJiter.C22_no_quote_partial",
    "Verif.RJiter.C22_truncated_partial",
    "Verif.RJiter.C22_cut_in_escape",
    "Verif.RJiter.C22_cut_in_hex"
   ],
   "note": "Proved without restriction for write_long_str. False for write_long_bytes (two negations); proved if there is no quote at all, or for truncated valid strings with harmless stale bytes."
  },
  {
   "property": "C28",
   "status": "partial",
   "theorems": [
    "Verif.RJiter.C28_no_panic_partial",
    "Verif.RJiter.C28_seven"
   ],
   "note": "False with a buffer of 7 bytes, the documented minimum (negation proved); proved from 8 bytes on."
  },
  {
   "property": "C43",
   "status": "proved",
   "theorems": [
    "Verif.RJiter.C43_write_long_bytes",
    "Verif.RJiter.C43_write_long_str"
   ],
   "note": ""
  },
  {
   "property": "C44",
   "status": "proved",
   "theorems": [
    "Verif.RJiter.C44_known_str",
    "Verif.RJiter.C44_known_bytes",
    "Verif.RJiter.C44_next_str",
    "Verif.RJiter.C44_next_bytes",
    "Verif.RJiter.C44_next_null",
    "Verif.RJiter.C44_next_bool",
    "Verif.RJiter.C44_next_number"
   ],
   "note": ""
  },
  {
   "property": "C42",
   "status": "partial",
   "theorems": [
    "Verif.RJiter.C42_full_buffer_partial",
    "Verif.RJiter.C42_truncated_after_lookahead"
   ],
   "note": "False of the code: after a failed lookahead_n a number is truncated (negation proved). Proved if the buffer is full from the position on."
  },
  {
   "property": "C24",
   "status": "partial",
   "theorems": [
    "Verif.RJiter.C24_error_index_partial",
    "Verif.RJiter.C24_wrong_type",
    "Verif.RJiter.C24_finish",
    "Verif.RJiter.C24_finish_twice",
    "Verif.RJiter.C24_next_key"
   ],
   "note": "False of finish and of the calls on arrays and objects: the position in the buffer is counted twice (negations proved, and for finish the exact amount). Proved for peek and the known_* / next_* calls on null, booleans and strings."
  },
  {
   "property": "C25",
   "status": "partial",
   "theorems": [
    "Verif.RJiter.C25_unshifted_partial",
    "Verif.RJiter.C25_line_partial",
    "Verif.RJiter.C25_one_line_partial",
    "Verif.RJiter.C25_column",
    "Verif.RJiter.C25_underflow"
   ],
   "note": "False: the column includes bytes of earlier lines that were shifted out (negation proved). Proved: everything if nothing was shifted out or the input is a single line; the line always."
  },
  {
   "property": "C26",
   "status": "partial",
   "theorems": [
    "Verif.RJiter.C26_io_error_partial",
    "Verif.RJiter.C26_number_lost",
    "Verif.RJiter.C26_index_moves",
    "Verif.RJiter.C26_comma_lost"
   ],
   "note": "False for numbers, for next_key, and with an empty buffer (negations proved). Proved for peek and the calls on null, booleans and strings once a byte of the value is buffered."
  },
  {
   "property": "C30",
   "status": "proved",
   "theorems": [
    "Verif.Scan.C30_iter_match"
   ],
   "note": ""
  },
  {
   "property": "C31",
   "status": "partial",
   "theorems": [
    "Verif.Scan.C31_events_partial",
    "Verif.Scan.C32_stop_early_partial",
    "Verif.Scan.C31_chunks",
    "Verif.Scan.C31_final_number"
   ],
   "note": "False for some chunkings (an object whose first key is cut) and for a number at the end of the input (negations proved). Proved for all documents if the input fits in the buffer and is read at once, for full reads into a smaller buffer, and for any chunking of documents in which objects with members occur in arrays only."
  },
  {
   "property": "C32",
   "status": "partial",
   "theorems": [
    "Verif.Scan.C31_events_partial",
    "Verif.Scan.C32_stop_early_partial",
    "Verif.Scan.C31_chunks"
   ],
   "note": "Partial as C31."
  },
  {
   "property": "C33",
   "status": "partial",
   "theorems": [
    "Verif.Scan.C33_rest_is_kept_partial",
    "Verif.Scan.C33_top_is_left",
    "Verif.Scan.C33_pool_used_up"
   ],
   "note": "False: every successful scan leaves the entry #top in the pool (proved for all documents), until the pool is used up (proved). What was there before is kept (proved)."
  },
  {
   "property": "C35",
   "status": "partial",
   "theorems": [
    "Verif.Scan.C35_depth_partial"
   ],
   "note": "Partial as C31; the limit itself is exact."
  },
  {
   "property": "C36",
   "status": "partial",
   "theorems": [
    "Verif.Scan.C36_consumed_partial",
    "Verif.Scan.C36_any_callbacks_partial"
   ],
   "note": "Partial as C31."
  },
  {
   "property": "C37",
   "status": "proved",
   "theorems": [
    "Verif.Scan.C37_callback_error"
   ],
   "note": "For any reader, buffer, pool, callbacks and options."
  },
  {
   "property": "C38",
   "status": "partial",
   "theorems": [
    "Verif.Scan.C38_output_partial",
    "Verif.Scan.C38_no_document",
    "Verif.Scan.C38_top_key"
   ],
   "note": "false for documents with a key #top or #array: the key is not written (C38_top_key); proved for all others in the situations described by a mode, as C31/C32"
  },
  {
   "property": "C39",
   "status": "proved",
   "theorems": [
    "Verif.Scan.C39_write_error"
   ],
   "note": "for any input, pool and writer"
  },
  {
   "property": "C34",
   "status": "partial",
   "theorems": [
    "Verif.Scan.C34_truncated_partial",
    "Verif.Scan.C34_idtransform_partial",
    "Verif.Scan.C34_cut_in_escape"
   ],
   "note": "False for strings with an escape in non-ASCII input (negation proved). Proved for any chunking if the input is ASCII or no string has a backslash, for callbacks that do not run ahead of the input (all that leave the parser alone, and those of idtransform); top-level numbers and readers that fail are excluded."
  },
  {
   "property": "C45",
   "status": "partial",
   "theorems": [
    "Verif.Ddb.C45_write_error_partial",
    "Verif.Ddb.C45_kind_lost"
   ],
   "note": "False inside of strings: an error is returned, but without the kind (negation proved). Proved otherwise, for any input and writer."
  },
  {
   "property": "C46",
   "status": "partial",
   "theorems": [
    "Verif.Ddb.C46_returns_partial",
    "Verif.Ddb.C46_endless"
   ],
   "note": "False: `tru` at the end of the input is never consumed (negation proved, for all bounds). Proved for streams of documents, as C47. C82 says on which inputs it does not return."
  },
  {
   "property": "C47",
   "status": "partial",
   "theorems": [
    "Verif.Ddb.C47_output_partial",
    "Verif.Ddb.C47_long_number",
    "Verif.Ddb.C47_comma",
    "Verif.Ddb.C47_array_key",
    "Verif.Ddb.C47_top_key"
   ],
   "note": "False for numbers of more than 32 bytes, for a literal directly after an array or an object with members, and for keys #top and #array (negations proved). Proved for all other documents, nestings, flags and buffers, in the situations described by a mode as C31."
  },
  {
   "property": "C48",
   "status": "proved",
   "theorems": [
    "Verif.Ddb.C48_write_error"
   ],
   "note": "For any input and writer."
  },
  {
   "property": "C49",
   "status": "partial",
   "theorems": [
    "Verif.Ddb.C49_output_partial",
    "Verif.Ddb.C49_set_in_list",
    "Verif.Ddb.C49_array_field"
   ],
   "note": "False for a set that is not the first item of a list and for fields named #array (negations proved). Proved for all other items, nestings, flags and buffers, in the situations described by a mode as C31."
  },
  {
   "property": "C50",
   "status": "partial",
   "theorems": [
    "Verif.Ddb.C50_well_formed_partial",
    "Verif.Ddb.C47_comma",
    "Verif.Ddb.C47_array_key"
   ],
   "note": "Under the conditions of C47 (negations proved)."
  },
  {
   "property": "C52",
   "status": "partial",
   "theorems": [
    "Verif.Ddb.C52_round_trip_partial",
    "Verif.Ddb.C47_long_number",
    "Verif.Ddb.C47_array_key",
    "Verif.Ddb.C52_item_key"
   ],
   "note": "Under the conditions of C47 on keys and numbers, and if the wrapper is expected but was not written, without a member Item (negations proved); the second conversion reads its input in one piece, or in chunks that do not end within certain keys (ASCII), or, if it is indented, in any chunks (ASCII). The first is as in C47."
  },
  {
   "property": "C53",
   "status": "partial",
   "theorems": [
    "Verif.Ddb.C53_well_formed_partial",
    "Verif.Ddb.C53_not_a_number",
    "Verif.Ddb.C49_set_in_list",
    "Verif.Ddb.C49_array_field"
   ],
   "note": "Under the conditions of C49, and if the texts of numbers are numbers (negations proved)."
  },
  {
   "property": "C51",
   "status": "partial",
   "theorems": [
    "Verif.Ddb.C51_rejects_partial",
    "Verif.Ddb.C51_empty_type",
    "Verif.Ddb.C51_empty_item",
    "Verif.Ddb.C51_two_types",
    "Verif.Ddb.C51_array_in_set",
    "Verif.Ddb.C51_item_and_more"
   ],
   "note": "False as it stands (five negations proved). Proved for all documents that keep clear of them and of keys named #array, of any depth, in the situations described by a mode as C31."
  },
  {
   "property": "C54",
   "status": "partial",
   "theorems": [
    "Verif.Ddb.C54_level_partial",
    "Verif.Ddb.C54_underflow"
   ],
   "note": "False for values with more than one type (negation proved); proved under the conditions of C51, whether the input is accepted or not."
  },
  {
   "property": "C40",
   "status": "partial",
   "theorems": [
    "Verif.Scan.C40_tokens_partial",
    "Verif.Scan.C40_silent_partial",
    "Verif.Scan.C40_nested_partial",
    "Verif.Scan.C40_reported",
    "Verif.Scan.C40_value_like",
    "Verif.Scan.C40_chunks",
    "Verif.Scan.C40_empty"
   ],
   "note": "False as it stands: a token is reported as an atom, a token that starts like a value is not skipped, an object directly behind a token fails if it is cut by a read, and an empty token makes scan run for ever (negations proved). Proved for feeds of tokens that start like no value, in the situations described by a mode as C31; nested tokens: an error, in these situations."
  },
  {
   "property": "C55",
   "status": "partial",
   "theorems": [
    "Verif.Scan.C55_syntax_error_partial",
    "Verif.Scan.C55_double_brace",
    "Verif.Scan.C55_string_position"
   ],
   "note": "False for a doubled brace, and for the position of an error in a string (negations proved). Proved for a wrong byte in any place at any depth (instead of a value, key, comma or closing bracket), for a misspelled literal or number, for broken keys and a missing colon, and for a control character or a wrong escape in a string, in the situations described by a mode as C31, for callbacks that do not touch the parser. Not covered: wrong hexadecimal digits, the end of the input (C34)."
  },
  {
   "property": "C56",
   "status": "partial",
   "theorems": [
    "Verif.Scan.C56_returns_partial",
    "Verif.Scan.C56_watching",
    "Verif.Scan.C56_liar",
    "Verif.Scan.C56_token_panic",
    "Verif.Scan.C56_seven",
    "Verif.Scan.C40_empty"
   ],
   "note": "False as it stands (four negations proved). Proved for all inputs, chunkings and failures, if the buffer has eight bytes, no token is empty, the reader does not fail if there are tokens, and the callbacks consume what they say."
  },
  {
   "property": "C57",
   "status": "partial",
   "theorems": [
    "Verif.Scan.C57_returns_partial",
    "Verif.Scan.C57_panic"
   ],
   "note": "False with a buffer of seven bytes (negation proved); proved for all larger ones."
  },
  {
   "property": "C58",
   "status": "partial",
   "theorems": [
    "Verif.Ddb.C58_returns_partial",
    "Verif.Ddb.C58_panic"
   ],
   "note": "False with an input buffer of seven bytes (negation proved); proved for all larger ones, for builds without overflow checks (see C54). An indentation of up to 2^64 levels counts as returning."
  },
  {
   "property": "C59",
   "status": "partial",
   "theorems": [
    "Verif.RJiter.C59_index_partial",
    "Verif.RJiter.C59_wrong"
   ],
   "note": "False once something was shifted out of the buffer (negation proved, with error_position underflowing). Proved: the index is at most the number of bytes delivered, and equal to it exactly if nothing was shifted out. For all calls except write_long_bytes and write_long_str when the writer fails."
  },
  {
   "property": "C60",
   "status": "proved",
   "theorems": [
    "Verif.RJiter.C60_session",
    "Verif.RJiter.C60_write"
   ],
   "note": "For all sequences of calls."
  },
  {
   "property": "C61",
   "status": "partial",
   "theorems": [
    "Verif.Scan.C61_reported_partial",
    "Verif.Scan.C61_real",
    "Verif.Scan.C61_not_ok",
    "Verif.Scan.C61_hidden",
    "Verif.Scan.C61_dropped"
   ],
   "note": "False as it stands (two negations proved). Proved without tokens: Ok only if the reader did not fail, an I/O error is the first failure, UnhandledPeek hides at most one failure, other errors none. With tokens: an I/O error is a failure of the reader."
  },
  {
   "property": "C62",
   "status": "partial",
   "theorems": [
    "Verif.Scan.C62_not_ok_partial",
    "Verif.Scan.C62_hidden"
   ],
   "note": "False as it stands (negation proved). Proved: Ok only if the reader did not fail."
  },
  {
   "property": "C63",
   "status": "proved",
   "theorems": [
    "Verif.Ddb.C63_not_ok"
   ],
   "note": "For input buffers of at least eight bytes."
  },
  {
   "property": "C64",
   "status": "partial",
   "theorems": [
    "Verif.Ddb.C64_real_partial",
    "Verif.Ddb.C64_twice",
    "Verif.Ddb.C64_wrong_error"
   ],
   "note": "False as it stands (two negations proved). Proved: an I/O error of scan is a failure of the reader."
  },
  {
   "property": "C65",
   "status": "partial",
   "theorems": [
    "Verif.Scan.C65_accepted_partial",
    "Verif.Scan.C65_first_partial",
    "Verif.Scan.Docs.Meets.loose",
    "Verif.Scan.C65_double_brace",
    "Verif.Scan.C65_form_feed",
    "Verif.Scan.C65_strings",
    "Verif.Scan.C65_half_escape"
   ],
   "note": "False as it stands (four negations proved). Proved without tokens: the input is a sequence of loose documents, and the callbacks were called for them. Loose documents are JSON except for what the negations show."
  },
  {
   "property": "C66",
   "status": "partial",
   "theorems": [
    "Verif.Scan.C66_output_partial",
    "Verif.Scan.C66_not_json"
   ],
   "note": "False as it stands (negation proved). Proved: the input begins with a loose document as in C65; unless a key is #top or #array, the output is this document without space."
  },
  {
   "property": "C67",
   "status": "partial",
   "theorems": [
    "Verif.Scan.C67_next_value",
    "Verif.Scan.C67_next_skip",
    "Verif.Scan.C67_next_numbers",
    "Verif.Scan.C67_known_value_partial",
    "Verif.Scan.C67_known_skip_partial",
    "Verif.Scan.C67_known_numbers",
    "Verif.Scan.C67_known_value_fails",
    "Verif.Scan.C67_known_value_wrong",
    "Verif.Scan.C67_known_skip_wrong"
   ],
   "note": "Proved in full for the next_ calls and for numbers. False for known_value and known_skip (negations proved); proved if something was consumed since the buffer was last shifted, or the value is an atom, or it is in the buffer completely. Numbers are their texts; integers have at most 4300 digits."
  },
  {
   "property": "C68",
   "status": "partial",
   "theorems": [
    "Verif.Scan.C68_next_partial",
    "Verif.Scan.C68_next_numbers_partial",
    "Verif.Scan.C68_known_partial",
    "Verif.Scan.C68_known_numbers_partial",
    "Verif.Scan.C68_last_value_lost",
    "Verif.Scan.C68_next_fails",
    "Verif.Scan.C68_next_exact",
    "Verif.Scan.C68_next_numbers_fail",
    "Verif.Scan.C68_known_fails",
    "Verif.Scan.C68_known_numbers_fail"
   ],
   "note": "False: in every state in which the complete value is at the start of the buffer all ten calls fail. Proved otherwise (for next_value and next_skip as an equivalence)."
  },
  {
   "property": "C69",
   "status": "partial",
   "theorems": [
    "Verif.Scan.C69_next_value_partial",
    "Verif.Scan.C69_next_skip_partial",
    "Verif.Scan.C69_known_value_partial",
    "Verif.Scan.C69_known_skip_partial",
    "Verif.Scan.C69_next_numbers",
    "Verif.Scan.C69_known_numbers",
    "Verif.Scan.C69_next_value_wrong",
    "Verif.Scan.C69_next_skip_wrong",
    "Verif.Scan.C67_known_value_wrong",
    "Verif.Scan.C67_known_skip_wrong"
   ],
   "note": "Proved in full for numbers. False for values (negations proved); proved if the position is not the start of a filled buffer, or there is no container there. The strings of a skipped value are not checked for UTF-8 and escapes. A number may be cut if it fills the buffer."
  },
  {
   "property": "C70",
   "status": "partial",
   "theorems": [
    "Verif.Scan.C70_unchanged_partial",
    "Verif.Scan.C70_overwritten"
   ],
   "note": "False (negation proved: the string is overwritten by bytes that are not UTF-8). Proved as long as the later calls shift nothing out of the buffer. Which strings jiter borrows is an assumption (Scan/HeldSpec)."
  },
  {
   "property": "C71",
   "status": "partial",
   "theorems": [
    "Verif.Scan.C71_chunks_partial",
    "Verif.Scan.C71_spaced_partial",
    "Verif.Scan.C71_cut"
   ],
   "note": "False (C71_cut: scan fails on every input with a first chunk that ends within the first key). Proved when no chunk that starts with an object ends within its first key, and for all chunks if first keys have space in front."
  },
  {
   "property": "C72",
   "status": "partial",
   "theorems": [
    "Verif.Scan.C72_again_partial",
    "Verif.Scan.C72_number"
   ],
   "note": "False for a document that is a number (its copy is a number at the end of the input, which is not read). Proved for all other documents that C38 covers; the second scan reads its input at once, next_value in any chunks."
  },
  {
   "property": "C73",
   "status": "partial",
   "theorems": [
    "Verif.Ddb.C73_back_partial",
    "Verif.Ddb.C73_same_partial",
    "Verif.Ddb.C49_set_in_list",
    "Verif.Ddb.C53_not_a_number",
    "Verif.Ddb.C47_long_number",
    "Verif.Ddb.C47_top_key"
   ],
   "note": "Under the conditions of C49 and C47 on names, numbers and sets in lists (negations proved). The text between is read in one piece, or in chunks that do not end within certain keys (ASCII), or, if it is indented, in any chunks (ASCII)."
  },
  {
   "property": "C74",
   "status": "partial",
   "theorems": [
    "Verif.Scan.C74_idtransform",
    "Verif.Ddb.C74_to_normal",
    "Verif.Ddb.C74_to_ddb_partial",
    "Verif.Ddb.C74_newline"
   ],
   "note": "Proved for idtransform and convert_ddb_to_normal. False of convert_normal_to_ddb (C74_newline): the final newline may follow a failed write; proved with that exception."
  },
  {
   "property": "C75",
   "status": "partial",
   "theorems": [
    "Verif.Ddb.C75_unbuffered",
    "Verif.Ddb.C75_buffered_partial",
    "Verif.Ddb.C75_silent"
   ],
   "note": "Proved with --unbuffered. False without it (negation proved: output of less than 8192 bytes, exit status 0, nothing written); proved but for the last 8192 bytes. BufWriter, Drop and process::exit are modelled from their documentation."
  },
  {
   "property": "C76",
   "status": "partial",
   "theorems": [
    "Verif.Ddb.C76_unbuffered",
    "Verif.Ddb.C76_buffered_partial",
    "Verif.Ddb.C76_nothing"
   ],
   "note": "Proved with --unbuffered. False without it (negation proved: less than 8192 bytes before the error, nothing written); proved but for the last 8192 bytes."
  },
  {
   "property": "C77",
   "status": "partial",
   "theorems": [
    "Verif.Ddb.C77_pipe_partial",
    "Verif.Ddb.C47_long_number",
    "Verif.Ddb.C47_array_key",
    "Verif.Ddb.C52_item_key"
   ],
   "note": "Under the conditions of C52 (negations proved); names on a path of at most 1696 bytes."
  },
  {
   "property": "C78",
   "status": "partial",
   "theorems": [
    "Verif.Ddb.C78_from_ddb_partial",
    "Verif.Ddb.C78_to_ddb_partial",
    "Verif.Ddb.C78_from_ddb_deep_partial",
    "Verif.Ddb.C78_to_ddb_deep_partial",
    "Verif.Ddb.C78_set_in_maps"
   ],
   "note": "Under the conditions of C47 and C49. A set counts as a level (negation proved otherwise)."
  },
  {
   "property": "C79",
   "status": "partial",
   "theorems": [
    "Verif.Scan.C79_scan_partial",
    "Verif.Scan.C79_first_partial",
    "Verif.Scan.C79_agree_partial",
    "Verif.Scan.C79_idtransform_partial",
    "Verif.Scan.C79_long_number",
    "Verif.Scan.C79_half_escape"
   ],
   "note": "Proved if no top-level number is longer than the buffer; with stop_early also if the input is ASCII or has no backslash (negations proved otherwise); without SSE tokens."
  },
  {
   "property": "C80",
   "status": "partial",
   "theorems": [
    "Verif.Ddb.C80_accepted_partial",
    "Verif.Ddb.C80_json_partial",
    "Verif.Ddb.C80_output_partial",
    "Verif.Ddb.C80_agree_partial",
    "Verif.Ddb.C80_untidy"
   ],
   "note": "Proved for any input, chunks, reader, writer and context buffer, with a buffer of at least eight bytes, under the conditions of C49 and C51 on the documents (negations there, and C80_untidy); C80_agree_partial for any JSON."
  },
  {
   "property": "C81",
   "status": "partial",
   "theorems": [
    "Verif.Ddb.C81_accepted_partial",
    "Verif.Ddb.C81_output_partial",
    "Verif.Ddb.C81_agree_partial",
    "Verif.Ddb.C81_long_number",
    "Verif.Ddb.C81_faulty"
   ],
   "note": "Proved for any input, chunks, writer and context buffer, with a buffer of at least eight bytes and a reader that does not fail (negation C81_faulty), under the conditions of C47 on the documents (negations there) and on the length of numbers (C81_long_number); C81_agree_partial without the conditions of C47."
  },
  {
   "property": "C82",
   "status": "partial",
   "theorems": [
    "Verif.Ddb.C82_returns_partial",
    "Verif.Ddb.C82_endless",
    "Verif.Ddb.C82_endless_output",
    "Verif.Ddb.C82_json_returns_partial",
    "Verif.Ddb.C82_json_endless"
   ],
   "note": "First sentence proved for any input, chunks, writer and context buffer, with a buffer of at least eight bytes and a reader that does not fail. The exception is shown to be one where the documents meet the rules of C47. For JSON proved if the input is ASCII or has no backslash (negation C82_json_endless) and no number that is a document of its own is longer than the buffer."
  },
  {
   "property": "C83",
   "status": "partial",
   "theorems": [
    "Verif.Ddb.C83_from_ddb_partial",
    "Verif.Ddb.C83_to_ddb_partial",
    "Verif.Ddb.C83_agree_partial",
    "Verif.Ddb.C83_from_ddb_exits",
    "Verif.Ddb.C83_to_ddb_exits_partial",
    "Verif.Ddb.C83_hangs"
   ],
   "note": "Proved under the conditions of C49 (from-ddb) and C47 (to-ddb) on the documents, for to-ddb with a reader that does not fail and numbers at the top level of at most 64 kB. That from-ddb exits is proved for every input; that to-ddb exits for JSON that is ASCII or has no backslash, with the negation C83_hangs for other input."
  },
  {
   "property": "C84",
   "status": "partial",
   "theorems": [
    "Verif.Bench.C84_round_trip_partial",
    "Verif.Bench.C84_item",
    "Verif.Bench.C84_number",
    "Verif.Bench.C84_back_partial",
    "Verif.Bench.C84_set",
    "Verif.Bench.C84_loose"
   ],
   "note": "Proved for objects that are not a single field Item (with the wrapper: for all), if their numbers are read back as they are written (negations proved). serde_json's values, maps and numbers are an assumption; its recursion limit is neglected."
  },
  {
   "property": "C85",
   "status": "partial",
   "theorems": [
    "Verif.Bench.C85_to_ddb_partial",
    "Verif.Bench.C85_from_ddb_partial",
    "Verif.Bench.C85_number",
    "Verif.Bench.C85_not_a_number"
   ],
   "note": "Proved under the conditions of C81 and C80 on the documents, for numbers that serde_json writes as it reads them and texts that are numbers (negations proved). How serde_json reads a document is an assumption (Stands in Bench/Agree)."
  },
  {
   "property": "C86",
   "status": "partial",
   "theorems": [
    "Verif.Bench.C86_lines_partial",
    "Verif.Bench.C86_runs",
    "Verif.Bench.C86_single",
    "Verif.Bench.C86_sound",
    "Verif.Bench.C86_line_number",
    "Verif.Bench.C86_to_ddb_partial",
    "Verif.Bench.C86_from_ddb_partial",
    "Verif.Bench.C86_refused",
    "Verif.Bench.C86_empty",
    "Verif.Bench.C86_nbsp"
   ],
   "note": "Proved for documents on lines of their own and for a single document; other streams are refused (C86_refused). How serde_json's from_str reads text is an assumption (Serde.Real), for which an instance is given. The agreement with the streaming converters is under the conditions of C85."
  },
  {
   "property": "C87",
   "status": "partial",
   "theorems": [
    "Verif.Bench.C87_reads",
    "Verif.Bench.C87_reads_ddb",
    "Verif.Bench.C87_writes_partial",
    "Verif.Bench.C87_object",
    "Verif.Bench.C87_loose"
   ],
   "note": "Reading proved as an equivalence; false in the strict sense (C87_loose). Writing proved for numbers that serde_json reads as it writes them (C84_number otherwise)."
  },
  {
   "property": "C88",
   "status": "proved",
   "theorems": [
    "Verif.Scan.C88_reported",
    "Verif.Scan.C88_log"
   ],
   "note": "For any input, chunks, failing readers, buffer of at least eight bytes and context stack, without SSE tokens; documents are loose as in C65. C88_log is the case of a client that writes down all calls."
  },
  {
   "property": "C89",
   "status": "partial",
   "theorems": [
    "Verif.RJiter.C89_str",
    "Verif.RJiter.C89_str_valid",
    "Verif.RJiter.C89_bytes",
    "Verif.RJiter.C89_bytes_valid",
    "Verif.RJiter.C89_bytes_overrun"
   ],
   "note": "write_long_str proved. For write_long_bytes: a beginning of what is behind the opening quote; that it stays between the quotes is proved for an ASCII buffer or data without backslashes, and is false otherwise (negation proved: it goes on into the next string)."
  },
  {
   "property": "C90",
   "status": "partial",
   "theorems": [
    "Verif.Scan.C90_output_partial",
    "Verif.Scan.C90_top_key"
   ],
   "note": "Proved for documents without the keys #top and #array (negation proved). That the copied beginning of a string ends at the closing quote is false, see C89."
  },
  {
   "property": "C91",
   "status": "partial",
   "theorems": [
    "Verif.Scan.C91_events_partial",
    "Verif.Scan.C91_agree_partial",
    "Verif.Scan.C91_output_partial",
    "Verif.Scan.C91_half_escape",
    "Verif.Scan.C91_long_number"
   ],
   "note": "Proved if the input is ASCII or has no backslash, and (for scan) no top-level number is longer than the buffer (negations proved); for idtransform, for documents without the keys #top and #array and a writer that does not fail; without SSE tokens."
  },
  {
   "property": "C92",
   "status": "partial",
   "theorems": [
    "Verif.Ddb.C92_output_partial",
    "Verif.Ddb.C92_agree_partial",
    "Verif.Ddb.C92_half_escape"
   ],
   "note": "Proved if the input is ASCII or has no backslash (negation proved otherwise), under the conditions of C49 on the documents; C92_agree_partial for any JSON on which a complete run returns Ok."
  },
  {
   "property": "C93",
   "status": "partial",
   "theorems": [
    "Verif.Ddb.C93_output_partial",
    "Verif.Ddb.C93_agree_partial",
    "Verif.Ddb.C93_cut_number",
    "Verif.Ddb.C93_long_number",
    "Verif.Ddb.C93_top_string"
   ],
   "note": "Proved for streams of objects and arrays cut off elsewhere than behind a digit, if the input is ASCII or has no backslash, numbers are no longer than the buffer (negations proved) and 32 bytes, keys are not #top or #array (see C47), and the reader does not fail; C93_agree_partial for any such stream on which a complete run returns Ok."
  },
  {
   "property": "C94",
   "status": "partial",
   "theorems": [
    "Verif.Ddb.C94_from_ddb_partial",
    "Verif.Ddb.C94_to_ddb_partial",
    "Verif.Ddb.C94_cut_number"
   ],
   "note": "Proved under the conditions of C92 (from-ddb) and C93 (to-ddb), for ASCII input or input without backslashes; negation proved for to-ddb and an input that ends in a number."
  },
  {
   "property": "C95",
   "status": "partial",
   "theorems": [
    "Verif.Scan.C95_scan_partial",
    "Verif.Scan.C95_watching",
    "Verif.Scan.C95_beyond",
    "Verif.Scan.C95_idtransform_partial",
    "Verif.Scan.C95_idtransform_beyond",
    "Verif.Ddb.C95_from_ddb_partial",
    "Verif.Ddb.C95_to_ddb_partial",
    "Verif.Ddb.C95_tool_partial",
    "Verif.Ddb.C95_from_ddb_beyond",
    "Verif.Ddb.C95_to_ddb_beyond"
   ],
   "note": "Proved for all errors but those of the parser; for these it is false (negation proved), and proved is that the position is less than a buffer and 5 behind the end. Any input and chunks, reader that does not fail, buffer of at least eight bytes. An io error of idtransform has no position."
  },
  {
   "property": "C96",
   "status": "partial",
   "theorems": [
    "Verif.Ddb.C96_line_partial",
    "Verif.Ddb.C96_length",
    "Verif.Ddb.C96_position",
    "Verif.Ddb.C96_same",
    "Verif.Ddb.C96_silent",
    "Verif.Ddb.C96_control"
   ],
   "note": "Proved for the control characters below the space, and the rest as stated. False for U+0080 to U+009F and U+007F, which keys may contain: C96_control. A panic's message is not modelled."
  },
  {
   "property": "C97",
   "status": "partial",
   "theorems": [
    "Verif.Scan.C97_scan_partial",
    "Verif.Scan.C97_events_partial",
    "Verif.Scan.C97_idtransform_partial",
    "Verif.Scan.C97_digit",
    "Verif.Ddb.C97_to_normal_partial",
    "Verif.Ddb.C97_to_ddb_partial",
    "Verif.Ddb.C97_convert_partial",
    "Verif.Ddb.C97_to_ddb_docs_partial",
    "Verif.Ddb.C97_to_normal_docs_partial",
    "Verif.Ddb.C97_to_ddb_digit"
   ],
   "note": "Proved for inputs that do not end with a digit; false otherwise (negations proved). Not covered: SSE tokens, callbacks of scan that use the parser other than those of idtransform and the converters. What the BufWriter of ddb_convert holds back is not the subject."
  },
  {
   "property": "C98",
   "status": "partial",
   "theorems": [
    "Verif.Ddb.C98_description_partial",
    "Verif.Ddb.C98_wrong_type_partial",
    "Verif.Ddb.C98_column",
    "Verif.Ddb.C98_newline",
    "Verif.Ddb.C98_panic"
   ],
   "note": "The line is proved. The column is proved to be right or one too large, and right if all calls so far were on atoms, if there is no newline in the token in front of the error; false otherwise (C98_column, C98_newline). For errors of the reader description panics (C98_panic). Not covered: write_long_bytes and write_long_str before the failing call; failing calls on arrays, objects and numbers (see C24)."
  },
  {
   "property": "C99",
   "status": "partial",
   "theorems": [
    "Verif.RJiter.C99_write_long_bytes_partial",
    "Verif.RJiter.C99_write_long_str_partial",
    "Verif.RJiter.C99_cut_in_escape",
    "Verif.RJiter.C99_index"
   ],
   "note": "False as it stands (negations proved). Proved under the condition on stale bytes of C20; the place of the error is right, or too large by the position of the string in the buffer if nothing of it was written. For write_long_str: bodies without surrogate pairs."
  },
  {
   "property": "C100",
   "status": "partial",
   "theorems": [
    "Verif.Scan.C100_events_partial",
    "Verif.Scan.C100_any_callbacks_partial",
    "Verif.Scan.C100_idtransform_partial",
    "Verif.Scan.C100_context",
    "Verif.Scan.C100_numbers_run_together"
   ],
   "note": "Proved in the situations of C31 (C38 for idtransform) and with the pool cleared between the scans; negations proved otherwise."
  },
  {
   "property": "C101",
   "status": "partial",
   "theorems": [
    "Verif.Scan.C101_next_value_partial",
    "Verif.Scan.C101_next_skip_partial",
    "Verif.Scan.C101_too_large",
    "Verif.Scan.C101_last"
   ],
   "note": "Proved in the situations of C31 for inputs that end with space and selected values that fit in the buffer with one byte more; negations proved otherwise."
  },
  {
   "property": "C102",
   "status": "partial",
   "theorems": [
    "Verif.Scan.C102_llm_partial",
    "Verif.Scan.C102_null"
   ],
   "note": "Proved in the situations of C31 and C40 for feeds whose contents are strings; false otherwise (negation proved). The context stack and the options are parameters."
  },
  {
   "property": "C103",
   "status": "partial",
   "theorems": [
    "Verif.RJiter.C103_peek_skipping_tokens_partial",
    "Verif.RJiter.C103_empty_token",
    "Verif.RJiter.C103_long_token",
    "Verif.RJiter.C103_lost_error"
   ],
   "note": "Proved for tokens that fit in the buffer and do not start with whitespace, and readers without I/O errors; negations proved for empty tokens, long tokens and I/O errors."
  },
  {
   "property": "C104",
   "status": "partial",
   "theorems": [
    "Verif.U8Pool.C104_capacity_partial",
    "Verif.U8Pool.C104_large"
   ],
   "note": "Proved for buffers with at most 65535 bytes of data; false otherwise (negation proved). max_slices * 4 must not wrap."
  },
  {
   "property": "C105",
   "status": "proved",
   "theorems": [
    "Verif.U8Pool.C105_push_assoc_outcome",
    "Verif.U8Pool.C105_replace_outcome",
    "Verif.U8Pool.C105_text"
   ],
   "note": "max_slices * 4 must not wrap (C08)."
  },
  {
   "property": "C106",
   "status": "partial",
   "theorems": [
    "Verif.Scan.C106_accepted_partial",
    "Verif.Scan.C106_first_partial",
    "Verif.Scan.C106_half_string",
    "Verif.Scan.C106_trailing_comma",
    "Verif.Scan.C106_number"
   ],
   "note": "Proved for tokens that are not empty and do not begin with a quote, and readers without I/O errors, with the trailing comma and the full-buffer number allowed; negations proved for the three false parts."
  },
  {
   "property": "C107",
   "status": "partial",
   "theorems": [
    "Verif.Scan.C107_reported_partial",
    "Verif.Scan.C107_log_partial",
    "Verif.Scan.C107_trailing_comma"
   ],
   "note": "Proved for tokens that are not empty and do not begin with a quote, and readers without I/O errors, with the trailing comma and the full-buffer number of C106 allowed; that a number inside of the last, unfinished document is not continued by what follows it is not said (it is in C88)."
  },
  {
   "property": "C108",
   "status": "proved",
   "theorems": [
    "Verif.RJiter.C108_calls",
    "Verif.RJiter.C108_position",
    "Verif.Scan.C108_scan",
    "Verif.Scan.C108_idtransform",
    "Verif.Ddb.C108_from_ddb",
    "Verif.Ddb.C108_to_ddb"
   ],
   "note": "For any input, chunks, failures and buffers. The lower bound (C108_position) is for calls that succeed and buffers of at least two bytes. For scan the clients use the parser only by its calls."
  },
  {
   "property": "C109",
   "status": "partial",
   "theorems": [
    "Verif.RJiter.RJ.C109_calls",
    "Verif.RJiter.RJ.C109_values_partial",
    "Verif.RJiter.RJ.C109_values_end",
    "Verif.RJiter.RJ.C109_skip_n",
    "Verif.RJiter.RJ.C109_lookahead_n",
    "Verif.RJiter.RJ.C109_lookahead_while",
    "Verif.RJiter.RJ.C109_known_skip_token",
    "Verif.RJiter.RJ.C109_write_long_bytes",
    "Verif.RJiter.RJ.C109_write_long_str",
    "Verif.RJiter.C109_session_partial"
   ],
   "note": "Proved for all calls but finish; for numbers and whole values if the input does not end with them (negation proved otherwise). For states between calls that did not fail."
  },
  {
   "property": "C110",
   "status": "partial",
   "theorems": [
    "Verif.Scan.C110_scan_partial",
    "Verif.Scan.C110_events_partial",
    "Verif.Scan.C110_documents_partial",
    "Verif.Scan.C110_idtransform_partial",
    "Verif.Scan.C110_digit",
    "Verif.Scan.C110_stop_early_partial",
    "Verif.Scan.C110_idtransform_ok_partial",
    "Verif.Scan.C110_blank",
    "Verif.Ddb.C110_to_normal_partial",
    "Verif.Ddb.C110_to_normal_docs_partial",
    "Verif.Ddb.C110_cli_partial",
    "Verif.Ddb.C110_to_ddb_string",
    "Verif.Ddb.C110_to_ddb_word"
   ],
   "note": "Proved for inputs that do not end with a digit (negation proved otherwise for scan and idtransform), without SSE tokens, for clients that leave the parser alone, for idtransform, for convert_ddb_to_normal, and for ddb_convert from-ddb if no write fails (without --unbuffered only if the longer input is converted without an error). False for convert_normal_to_ddb (two negations proved)."
  }
 ]
}