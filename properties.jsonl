{"id": "C01", "title": "U8Pool behaves as a stack of byte strings", "statement": "Whatever sequence of push / pop / push_assoc / pop_assoc / replace_top_assoc_bytes / clear calls is made on a pool created by U8Pool::new, the pool's observable contents (len, is_empty, get(i) for every i, top, the value returned by pop) are those of an ordinary list of byte strings on which the same calls were made: a successful push appends exactly the given bytes, pop returns and removes exactly the last one, everything below is untouched, and a rejected push changes nothing.", "quantifier": "for every client buffer (any contents, any length), every max_slices, and every finite history of calls", "why_tests_cant": "The interaction of slice descriptors, padding and re-used space depends on the whole history; unit tests exercise a handful of short histories.", "anchors": ["u8pool/src/core.rs:U8Pool::push", "u8pool/src/core.rs:U8Pool::pop", "u8pool/src/core.rs:U8Pool::get", "u8pool/src/core.rs:U8Pool::top", "u8pool/src/core.rs:U8Pool::clear", "u8pool/src/slice_descriptor.rs:SliceDescriptor::set", "u8pool/src/slice_descriptor.rs:SliceDescriptor::get"]}
{"id": "C02", "title": "push succeeds exactly when documented, and the error says why", "statement": "push(data) returns SliceLimitExceeded exactly when the pool already holds max_slices items; otherwise BufferOverflow{requested,available} exactly when the data does not fit in the free tail, with requested = data.len() and available = the true number of free bytes; otherwise ValueTooLarge exactly when the start offset or the length does not fit in 16 bits; in every other case it succeeds and returns the stored bytes.", "quantifier": "for every reachable pool state and every data slice", "why_tests_cant": "The boundary depends on the used space, the slot count and 16-bit limits simultaneously; tests try a few fixed sizes.", "anchors": ["u8pool/src/core.rs:U8Pool::reserve_aligned_buffer_space", "u8pool/src/core.rs:U8Pool::push", "u8pool/src/slice_descriptor.rs:SliceDescriptor::set"]}
{"id": "C03", "title": "Stored slices stay inside the data area and never overlap", "statement": "In every reachable pool, every stored slice lies within the data part of the client buffer, slices are pairwise disjoint and in increasing order, no call can panic on a slice index, and no call writes to the slot table except for the slot of the item being pushed or replaced.", "quantifier": "for every buffer, max_slices and history of calls (including rejected ones)", "why_tests_cant": "Memory-safety invariant over unbounded histories; the code indexes slices relying on it (comments 'Safe: ...').", "anchors": ["u8pool/src/core.rs:U8Pool::push", "u8pool/src/core.rs:U8Pool::push_assoc", "u8pool/src/core.rs:U8Pool::get_validated_assoc_positions", "u8pool/src/core.rs:U8Pool::pop"]}
{"id": "C04", "title": "Iterators enumerate the stack exactly, and size_hint is exact", "statement": "iter() yields all stored slices bottom to top; iter_rev() the same top to bottom; pairs() yields consecutive pairs and drops an odd last slice; iter_assoc / iter_assoc_rev yield all (value, data) items in the two orders. At every point of the iteration size_hint equals the number of items still to come, and after the end next() keeps returning None.", "quantifier": "for every reachable pool and every number of next() calls", "why_tests_cant": "Exhaustiveness and exactness at every iteration point for every content is not a finite set of cases.", "anchors": ["u8pool/src/iter.rs:U8PoolIter", "u8pool/src/iter.rs:U8PoolRevIter", "u8pool/src/iter.rs:U8PoolPairIter", "u8pool/src/iter.rs:U8PoolAssocIter", "u8pool/src/iter.rs:U8PoolAssocRevIter", "u8pool/src/slice_descriptor.rs:SliceDescriptorIter", "u8pool/src/slice_descriptor.rs:SliceDescriptorRevIter"]}
{"id": "C05", "title": "Associated values round-trip", "statement": "After a successful push_assoc(value, data), get_assoc / top_assoc / top_assoc_obj / top_assoc_bytes / pop_assoc at that position return exactly the bytes of value and exactly data, no matter which pushes, pops and rejected calls happened on top in between; the value's offset in the data area is a multiple of the type's alignment; items below are unaffected.", "quantifier": "for every type size and alignment, every data slice and every history", "why_tests_cant": "Padding depends on whatever was pushed before; only a few type layouts are tested.", "anchors": ["u8pool/src/core.rs:U8Pool::push_assoc", "u8pool/src/core.rs:U8Pool::get_assoc", "u8pool/src/core.rs:U8Pool::pop_assoc", "u8pool/src/core.rs:U8Pool::top_assoc", "u8pool/src/core.rs:U8Pool::top_assoc_obj", "u8pool/src/core.rs:U8Pool::top_assoc_bytes"]}
{"id": "C06", "title": "Associated references are properly aligned in memory", "statement": "The reference to the associated value handed out by the pool is aligned for its type (its absolute address is a multiple of the alignment).", "quantifier": "for every client buffer address, max_slices, type and history", "why_tests_cant": "Depends on the address the allocator gives to the client buffer; a misaligned reference usually goes unnoticed on x86 test machines.", "anchors": ["u8pool/src/core.rs:U8Pool::push_assoc", "u8pool/src/core.rs:U8Pool::extract_assoc_ref", "u8pool/src/core.rs:U8Pool::reserve_aligned_buffer_space"]}
{"id": "C07", "title": "replace_top_assoc_bytes replaces only the top data, all or nothing", "statement": "On success the top item keeps its associated value and its data becomes exactly the new bytes, every other item is unchanged; on any error the pool's contents are unchanged.", "quantifier": "for every reachable pool, type layout and new data", "why_tests_cant": "Needs all sizes (growing, shrinking, 16-bit overflow) in all states.", "anchors": ["u8pool/src/core.rs:U8Pool::replace_top_assoc_bytes"]}
{"id": "C08", "title": "U8Pool::new accepts exactly the usable buffers", "statement": "U8Pool::new(buffer, max_slices) succeeds exactly when max_slices >= 1 and the buffer has at least 4*max_slices+1 bytes; the new pool is empty whatever garbage the buffer contains, and can then hold max_slices empty slices.", "quantifier": "for every buffer and every max_slices (as a machine word)", "why_tests_cant": "All sizes and the multiplication overflow region cannot be enumerated.", "anchors": ["u8pool/src/core.rs:U8Pool::new", "u8pool/src/core.rs:U8Pool::with_default_max_slices"]}
{"id": "C09", "title": "Popping gives the space back", "statement": "After push / push_assoc followed by the matching pop, the pool is observationally the same as before the push, including how much can be pushed next: any further sequence of calls has the same outcomes as if the push/pop had not happened.", "quantifier": "for every reachable pool, every pushed item and every continuation", "why_tests_cant": "Space leaks only show after particular mixed histories.", "anchors": ["u8pool/src/core.rs:U8Pool::data_used", "u8pool/src/core.rs:U8Pool::pop", "u8pool/src/core.rs:U8Pool::pop_assoc"]}
{"id": "C10", "title": "No byte of the stream is lost, duplicated or reordered", "statement": "At every moment between calls that succeeded (or gave one of the two harmless answers: the token to skip is not there; there is more input after the document), the bytes already consumed followed by the bytes RJiter still holds followed by the bytes the reader has not delivered yet are exactly the original input.", "quantifier": "for every input, every reader schedule (how many bytes each read returns), every buffer size and every sequence of consuming calls", "why_tests_cant": "The shift/read bookkeeping depends on how the reader chunks the data; tests use one or two readers.", "anchors": ["rjiter/src/buffer.rs:Buffer::read_more", "rjiter/src/buffer.rs:Buffer::shift_buffer", "rjiter/src/rjiter.rs:RJiter::skip_spaces_feeding", "rjiter/src/rjiter.rs:RJiter::create_new_jiter"]}
{"id": "C11", "title": "skip_n_bytes skips exactly the requested number of bytes", "statement": "skip_n_bytes(n) consumes exactly min(n, bytes left in the stream) bytes, returns that number, and works for any n even if it is much larger than the buffer.", "quantifier": "for every stream, chunking, buffer size >= 1, start position and n", "why_tests_cant": "Incremental shift-and-read loop over arbitrary chunkings.", "anchors": ["rjiter/src/rjiter.rs:RJiter::skip_n_bytes", "rjiter/src/buffer.rs:Buffer::skip_n"]}
{"id": "C12", "title": "lookahead_n shows the next n bytes and consumes nothing", "statement": "lookahead_n(n) returns exactly the next min(n, bytes left) bytes of the stream and leaves the position unchanged whenever n does not exceed the buffer size; it can only report BufferFull if n is larger than the buffer and the stream is longer than the buffer; after BufferFull the position is unchanged too.", "quantifier": "for every stream, chunking, buffer size, start position and n", "why_tests_cant": "The one-time shift inside collect_count interacts with the reader's chunking.", "anchors": ["rjiter/src/rjiter.rs:RJiter::lookahead_n", "rjiter/src/buffer.rs:Buffer::collect_count"]}
{"id": "C13", "title": "lookahead_while shows the longest matching prefix and consumes nothing", "statement": "lookahead_while(p) returns exactly the longest prefix of the remaining stream whose bytes satisfy p, leaving the position unchanged, whenever that prefix is shorter than the buffer; it reports BufferFull only if the prefix fills the buffer; after an error the position is unchanged.", "quantifier": "for every predicate, stream, chunking, buffer size and start position", "why_tests_cant": "As for lookahead_n, plus arbitrary predicates.", "anchors": ["rjiter/src/rjiter.rs:RJiter::lookahead_while", "rjiter/src/buffer.rs:Buffer::collect_while"]}
{"id": "C14", "title": "known_skip_token is all-or-nothing", "statement": "known_skip_token(t) succeeds and consumes exactly t if the remaining stream starts with t; otherwise it fails with ExpectedSomeIdent and consumes nothing.", "quantifier": "for every token no longer than the buffer, stream, chunking and start position", "why_tests_cant": "The token can be split at any byte by the reader and by the buffer end.", "anchors": ["rjiter/src/rjiter.rs:RJiter::known_skip_token"]}
{"id": "C15", "title": "finish succeeds exactly at the end of the input", "statement": "finish() returns Ok exactly when only JSON whitespace remains in the stream, otherwise it reports an error and consumes at most whitespace; it always terminates.", "quantifier": "for every stream, chunking and buffer size >= 1", "why_tests_cant": "Whitespace runs may be arbitrarily longer than the buffer and split anywhere.", "anchors": ["rjiter/src/rjiter.rs:RJiter::finish"]}
{"id": "C16", "title": "peek reports the first significant byte, without consuming it", "statement": "peek() returns the first non-whitespace byte of the remaining stream and leaves it unconsumed (a second peek returns the same); it returns end-of-input exactly when only whitespace remains.", "quantifier": "for every stream, chunking and buffer size >= 1", "why_tests_cant": "Unbounded whitespace, any chunking.", "anchors": ["rjiter/src/rjiter.rs:RJiter::peek", "rjiter/src/rjiter.rs:RJiter::loop_until_success", "rjiter/src/buffer.rs:Buffer::skip_spaces"]}
{"id": "C17", "title": "Navigation calls do not depend on chunking", "statement": "If a navigation call (peek, known_array, array_step, next_object_bytes, next_key_bytes, known_null, known_bool, known_bytes) would succeed on the complete remaining document, then on the stream it returns the same value and leaves the same rest of the document, whatever the chunking, provided the token itself (without the skipped whitespace) fits in the buffer.", "quantifier": "for every document, every split of it into reads, every position and every buffer size large enough for the token", "why_tests_cant": "The number of chunkings is exponential in the document length; tests use a one-byte reader and a full reader.", "anchors": ["rjiter/src/rjiter.rs:RJiter::loop_until_success", "rjiter/src/rjiter.rs:RJiter::skip_spaces_feeding", "rjiter/src/error.rs:can_retry_if_partial"]}
{"id": "C18", "title": "Numbers are returned whole", "statement": "next_number_bytes() returns the complete number token of the document, never a truncated one, whatever the chunking, provided the token fits in the buffer with at least one byte to spare.", "quantifier": "for every number token, following bytes, chunking and buffer", "why_tests_cant": "A number has no terminator, so a chunk boundary inside a number looks like its end.", "anchors": ["rjiter/src/rjiter.rs:RJiter::next_number_bytes", "rjiter/src/rjiter.rs:RJiter::loop_until_success"]}
{"id": "C19", "title": "A final number is read at end of input", "statement": "If the document ends right after a number, a peek() followed by a number call returns that number.", "quantifier": "for every number, chunking and buffer size", "why_tests_cant": "Depends on where the last read ended; the test-suite only has inputs with a trailing newline or one-byte readers.", "anchors": ["rjiter/src/rjiter.rs:RJiter::loop_until_success", "rjiter/src/rjiter.rs:RJiter::next_number_bytes", "rjiter/src/rjiter.rs:RJiter::known_int"]}
{"id": "C20", "title": "write_long_bytes copies a string verbatim", "statement": "When the stream is positioned on a valid JSON string, write_long_bytes writes exactly the raw bytes between the quotes and leaves the stream right after the closing quote, whatever the length of the string, the chunking and the buffer size.", "quantifier": "for every valid string body, following bytes, chunking and buffer size (>= 8)", "why_tests_cant": "Segments are cut at chunk and buffer boundaries: splits inside escapes and code points multiply.", "anchors": ["rjiter/src/rjiter.rs:RJiter::write_long_bytes", "rjiter/src/rjiter.rs:RJiter::handle_long"]}
{"id": "C21", "title": "write_long_str writes the decoded string", "statement": "When the stream is positioned on a valid JSON string, write_long_str writes exactly the UTF-8 encoding of the decoded string and leaves the stream right after the closing quote, whatever the chunking and the buffer size.", "quantifier": "for every valid string body, chunking and buffer size (>= 8)", "why_tests_cant": "Same as for write_long_bytes, plus decoding per segment must compose.", "anchors": ["rjiter/src/rjiter.rs:RJiter::write_long_str", "rjiter/src/rjiter.rs:RJiter::handle_long"]}
{"id": "C22", "title": "An unterminated string is never accepted", "statement": "If the stream has no closing quote for the string, write_long_bytes / write_long_str never return Ok.", "quantifier": "for every stream without a terminator, chunking and buffer", "why_tests_cant": "All truncation points times all chunkings.", "anchors": ["rjiter/src/rjiter.rs:RJiter::handle_long"]}
{"id": "C23", "title": "current_index is the true stream offset", "statement": "After every successful call, current_index() equals the number of input bytes before the current position, and it never decreases over successful calls.", "quantifier": "for every sequence of successful calls, chunking and buffer size", "why_tests_cant": "Index bookkeeping across shifts depends on the schedule.", "anchors": ["rjiter/src/rjiter.rs:RJiter::current_index", "rjiter/src/buffer.rs:Buffer::shift_buffer"]}
{"id": "C24", "title": "Reported error indexes point at the offending byte", "statement": "The index in a returned JSON error is the offset in the stream of the byte where the parser detected the error.", "quantifier": "for every failing call, chunking and position", "why_tests_cant": "The index is assembled from three counters that change with the schedule.", "anchors": ["rjiter/src/error.rs:Error::from_jiter_error", "rjiter/src/rjiter.rs:RJiter::loop_until_success", "rjiter/src/rjiter.rs:RJiter::finish"]}
{"id": "C25", "title": "error_position converts a stream offset to line and column", "statement": "error_position(i) for an offset i that is still buffered equals the line/column of byte i of the whole input, counted as if the input had never been chunked.", "quantifier": "for every input, chunking, buffer size and offset still in the buffer", "why_tests_cant": "Depends on which newlines were already shifted out.", "anchors": ["rjiter/src/rjiter.rs:RJiter::error_position", "rjiter/src/buffer.rs:Buffer::shift_buffer"]}
{"id": "C26", "title": "An I/O error does not corrupt the position", "statement": "If the reader fails during a call, the call returns that I/O error and no input byte is lost: current_index is unchanged by the failure and calling again once the reader recovers continues as if the error had not happened.", "quantifier": "for every position of the I/O error in the schedule and every call", "why_tests_cant": "Fault position times schedule times call.", "anchors": ["rjiter/src/rjiter.rs:RJiter::lookahead_while", "rjiter/src/rjiter.rs:RJiter::lookahead_n", "rjiter/src/rjiter.rs:RJiter::skip_n_bytes", "rjiter/src/rjiter.rs:RJiter::skip_spaces_feeding", "rjiter/src/buffer.rs:Buffer::read_more"]}
{"id": "C27", "title": "Every call terminates on finite input", "statement": "Every RJiter call returns after finitely many reads when the input is finite.", "quantifier": "for every finite reader schedule and every buffer size", "why_tests_cant": "Non-termination cannot be observed by a passing test-suite.", "anchors": ["rjiter/src/buffer.rs:Buffer::skip_spaces", "rjiter/src/buffer.rs:Buffer::collect_while", "rjiter/src/buffer.rs:Buffer::collect_count", "rjiter/src/buffer.rs:Buffer::skip_n", "rjiter/src/rjiter.rs:RJiter::finish", "rjiter/src/rjiter.rs:RJiter::handle_long"]}
{"id": "C28", "title": "Copying long strings never panics", "statement": "write_long_bytes and write_long_str never index outside the buffer, for any stream contents.", "quantifier": "for every stream (valid or not), chunking and buffer length >= 7 (the documented minimum)", "why_tests_cant": "Out-of-bounds indexes need a precise fill level and byte pattern.", "anchors": ["rjiter/src/rjiter.rs:RJiter::handle_long", "rjiter/src/rjiter.rs:RJiter::write_long_str"]}
{"id": "C29", "title": "The fill level never exceeds the buffer", "statement": "After any sequence of calls the number of valid bytes is at most the buffer length and the stored line/column totals equal those of the bytes shifted out.", "quantifier": "for every well-behaved reader, history and buffer", "why_tests_cant": "Invariant over all histories.", "anchors": ["rjiter/src/buffer.rs:Buffer::read_more", "rjiter/src/buffer.rs:Buffer::shift_buffer"]}
{"id": "C30", "title": "iter_match is prefix matching on the path", "statement": "iter_match(names, event, path) is true exactly when names is empty, or the event is structural, the first name is the event's pseudo-name and the remaining names are a prefix of the path (innermost first), or the event is a key and names is a prefix of the path.", "quantifier": "for every list of names, event and path", "why_tests_cant": "All lengths and contents.", "anchors": ["scan_json/src/matcher.rs:iter_match"]}
{"id": "C31", "title": "scan reports exactly the structure of the document, in order", "statement": "For every well-formed document, scan with observing callbacks calls find_action / find_end_action exactly once per begin/end of array, object, key and atom, in document order, each with the path of that element (keys and #array up to #top).", "quantifier": "for every JSON document (any nesting, any whitespace), every chunking, every buffer large enough for its tokens", "why_tests_cant": "Unbounded nesting and all chunkings.", "anchors": ["scan_json/src/scan.rs:scan", "scan_json/src/scan.rs:handle_object", "scan_json/src/scan.rs:handle_array", "scan_json/src/stack.rs:ContextIter"]}
{"id": "C32", "title": "scan consumes exactly the document", "statement": "After a successful scan with stop_early, exactly the first top-level value (with preceding whitespace) is consumed and the rest of the stream is untouched; without stop_early a sequence of values is consumed to the end of input.", "quantifier": "for every document, following bytes, chunking and buffer", "why_tests_cant": "All documents and chunkings.", "anchors": ["scan_json/src/scan.rs:scan", "scan_json/src/scan.rs:Options"]}
{"id": "C33", "title": "scan leaves the context stack as it found it", "statement": "After a successful scan the working pool contains what it contained before the call.", "quantifier": "for every document and every initial pool", "why_tests_cant": "Needs all nesting shapes; tests always create a fresh pool.", "anchors": ["scan_json/src/scan.rs:scan", "scan_json/src/scan.rs:handle_object", "scan_json/src/scan.rs:handle_array"]}
{"id": "C34", "title": "A truncated document is never accepted", "statement": "If the input ends before all opened arrays/objects are closed, scan returns an error.", "quantifier": "for every proper prefix of every document that cuts inside a structure, every chunking", "why_tests_cant": "All truncation points times all chunkings.", "anchors": ["scan_json/src/scan.rs:scan"]}
{"id": "C35", "title": "Nesting is limited by the working pool, never by a crash", "statement": "If the document nests deeper than the pool has slots, scan returns MaxNestingExceeded; if it fits, nesting never causes an error.", "quantifier": "for every document and pool size", "why_tests_cant": "Unbounded depth.", "anchors": ["scan_json/src/scan.rs:scan", "scan_json/src/scan.rs:handle_array", "scan_json/src/scan.rs:handle_object"]}
{"id": "C36", "title": "ValueIsConsumed resumes after the consumed value", "statement": "If an action consumes exactly the value it was called for and returns ValueIsConsumed, scan continues with the next sibling (or end of the parent) and reports no event for the consumed value.", "quantifier": "for every document and every set of consumed values", "why_tests_cant": "All combinations of consumed subtrees.", "anchors": ["scan_json/src/scan.rs:handle_object", "scan_json/src/scan.rs:handle_array", "scan_json/src/scan.rs:scan", "scan_json/src/matcher.rs:StreamOp"]}
{"id": "C37", "title": "An error from an action stops the scan at once", "statement": "If an action or end action reports an error, scan returns ActionError with that message and the parser's position, calls no further callback, and (for an action) returns the parser as the action left it. It returns ActionError in no other case.", "quantifier": "for every input, well-formed or not, every callback set, every pool and every failing call", "why_tests_cant": "Any event of any document may be the failing one.", "anchors": ["scan_json/src/scan.rs:scan", "scan_json/src/scan.rs:handle_object", "scan_json/src/scan.rs:handle_array"]}
{"id": "C38", "title": "idtransform outputs the document with the whitespace between tokens removed", "statement": "For every well-formed document idtransform writes exactly the document's tokens in order without whitespace between them, copying strings and numbers byte for byte.", "quantifier": "for every document, chunking, buffer large enough for the tokens and pool large enough for the nesting", "why_tests_cant": "All documents and all chunkings.", "anchors": ["scan_json/src/idtransform.rs:idtransform", "scan_json/src/idtransform.rs:IdTransform", "scan_json/src/idtransform.rs:copy_atom", "scan_json/src/idtransform.rs:find_action"]}
{"id": "C39", "title": "idtransform reports write errors", "statement": "If the writer fails, idtransform returns IOError with the writer's error kind and writes nothing after the failure.", "quantifier": "for every document and every failing write", "why_tests_cant": "Any write may fail.", "anchors": ["scan_json/src/idtransform.rs:idtransform", "scan_json/src/idtransform.rs:on_atom", "scan_json/src/idtransform.rs:on_struct"]}
{"id": "C40", "title": "SSE tokens are skipped at the top level only", "statement": "At the top level, configured SSE tokens between values are skipped and produce no event; inside objects or nested arrays they are an error. (False as it stands: a token is reported as an atom, a token that starts like a value is not skipped, and an empty token makes scan run for ever.)", "quantifier": "for every token list, document sequence and chunking", "why_tests_cant": "All token placements.", "anchors": ["scan_json/src/scan.rs:scan", "rjiter/src/rjiter.rs:RJiter::known_skip_token"]}
{"id": "C41", "title": "A call that fails on the complete document fails on the stream", "statement": "If a call would fail at the current position on the complete document, it also fails when the document arrives in pieces; in particular a comma before a closing bracket is rejected by array_step.", "quantifier": "for every document, chunking, buffer size, position and call", "why_tests_cant": "The retry after the first failed attempt starts from a different position, depending on how much is buffered.", "anchors": ["rjiter/src/rjiter.rs:RJiter::loop_until_success", "rjiter/src/rjiter.rs:RJiter::array_step"]}
{"id": "C42", "title": "A failed lookahead does not change what later calls return", "statement": "If lookahead_n or lookahead_while fails, every later call returns what it would have returned without the lookahead.", "quantifier": "for every document, chunking, buffer size, position, lookahead and later call", "why_tests_cant": "Needs a buffer that is filled by the failed lookahead behind jiter's back.", "anchors": ["rjiter/src/rjiter.rs:RJiter::lookahead_n", "rjiter/src/rjiter.rs:RJiter::lookahead_while"]}
{"id": "C43", "title": "write_long_* writes what it consumes", "statement": "Whatever the stream holds: if write_long_bytes returns Ok, the bytes it appended to the writer are exactly the consumed bytes without the first and the last, and the last one is a quote. If write_long_str returns Ok, the consumed bytes between the first and the last are a valid JSON string body and the writer received exactly its characters in UTF-8.", "quantifier": "for every stream (valid or not, also invalid UTF-8), chunking, buffer size, stale buffer contents and writer", "why_tests_cant": "Quantifies over invalid inputs and all ways of cutting them; a test can only sample accepted garbage.", "anchors": ["rjiter/src/rjiter.rs:RJiter::handle_long", "rjiter/src/rjiter.rs:RJiter::write_long_bytes", "rjiter/src/rjiter.rs:RJiter::write_long_str"]}
{"id": "C44", "title": "A value is returned only if it is there", "statement": "If known_str, known_bytes, next_str, next_bytes, next_null, next_bool or next_number_bytes returns Ok(v), the stream at the old position holds (behind whitespace) a token that stands for v, and the new position is right behind it. A number is not cut short unless the stream or the buffer ends with it.", "quantifier": "for every stream (valid or not), chunking, buffer size and position", "why_tests_cant": "Quantifies over all invalid inputs, chunkings and the retry after the first attempt.", "anchors": ["rjiter/src/rjiter.rs:RJiter::loop_until_success", "rjiter/src/rjiter.rs:RJiter::known_str", "rjiter/src/rjiter.rs:RJiter::next_str", "rjiter/src/rjiter.rs:RJiter::next_bytes", "rjiter/src/rjiter.rs:RJiter::next_number_bytes"]}
{"id": "C45", "title": "convert_normal_to_ddb reports a failing writer", "statement": "If a write_all or flush fails while convert_normal_to_ddb runs, the call returns an I/O error with the kind of one of the failures; if none fails, it returns no I/O error of the writer.", "quantifier": "for every input (valid or not), chunking, buffer, writer and combination of the flags", "why_tests_cant": "Each of the some sixty writes can fail, in any state; tests use writers that never fail.", "anchors": ["examples/dynamodb/src/normal_to_ddb.rs:convert_normal_to_ddb", "examples/dynamodb/src/normal_to_ddb.rs:NormalToDdbConverter::try_write_any", "examples/dynamodb/src/normal_to_ddb.rs:on_string_value_toddb"]}
{"id": "C46", "title": "convert_normal_to_ddb returns", "statement": "convert_normal_to_ddb returns after finitely many steps.", "quantifier": "for every finite input (valid or not), chunking, buffer and writer", "why_tests_cant": "A test that runs into the endless case does not end; the inputs that do not end are invalid JSON.", "anchors": ["examples/dynamodb/src/normal_to_ddb.rs:convert_normal_to_ddb", "examples/dynamodb/src/normal_to_ddb.rs:on_bool_value_toddb", "examples/dynamodb/src/normal_to_ddb.rs:on_null_value_toddb"]}
{"id": "C47", "title": "convert_normal_to_ddb writes the documents with their types", "statement": "If the input is a stream of JSON documents that fit in the buffers, convert_normal_to_ddb returns Ok and writes for each document its DynamoDB form and a newline: a string s as {\"S\":s} with the same bytes, a number n as {\"N\":\"n\"} with the same digits, true and false as {\"BOOL\":..}, null as {\"NULL\":true}, an array as {\"L\":[..]}, an object inside of a document as {\"M\":{..}}, an object that is a document as {..} or {\"Item\":{..}}, with the flag for indentation indented by two spaces per level.", "quantifier": "for every stream of documents, chunking, buffer size and combination of the flags", "why_tests_cant": "Quantifies over all nestings and sequences of documents; tests have one document per run.", "anchors": ["examples/dynamodb/src/normal_to_ddb.rs:convert_normal_to_ddb", "examples/dynamodb/src/normal_to_ddb.rs:find_action", "examples/dynamodb/src/normal_to_ddb.rs:find_end_action", "examples/dynamodb/src/normal_to_ddb.rs:on_atom_value_toddb", "examples/dynamodb/src/normal_to_ddb.rs:NormalToDdbConverter::write_comma"]}
{"id": "C48", "title": "convert_ddb_to_normal reports a failing writer", "statement": "If a write_all or flush fails while convert_ddb_to_normal runs, the call returns an error that names the kind of a failure (an I/O error, or, for a write made by the parser inside of a string, a parser error around the I/O error); if none fails, it returns no I/O error of the writer.", "quantifier": "for every input (valid or not), chunking, buffer, writer and combination of the flags", "why_tests_cant": "Each of the some forty writes can fail, in any state; tests use writers that never fail.", "anchors": ["examples/dynamodb/src/ddb_to_normal.rs:convert_ddb_to_normal", "examples/dynamodb/src/ddb_to_normal.rs:DdbConverter::try_write_any", "examples/dynamodb/src/ddb_to_normal.rs:on_type_key"]}
{"id": "C49", "title": "What convert_ddb_to_normal writes", "statement": "From a stream of items in DynamoDB JSON, each either an object of typed fields or, in wrapper mode, {\"Item\": such an object}, convert_ddb_to_normal writes, for each item, the plain JSON it stands for and a newline, and returns Ok: S and B become strings, N the text of its string, BOOL a literal, NULL null, SS, BS and NS arrays, L an array of the items, M an object of the fields, in the same order; with pretty, fields are indented by their depth. (False as it stands: a set in a list is not preceded by a comma, and a field #array in a map in a list loses the brace of the map.)", "quantifier": "for every nesting of types, spacing, text of strings, chunking, buffer, flags and number of items", "why_tests_cant": "The converter is a state machine over the calls of scan, with a phase, a type, a depth and a pending comma that all nested values share; tests use single examples.", "anchors": ["examples/dynamodb/src/ddb_to_normal.rs:convert_ddb_to_normal", "examples/dynamodb/src/ddb_to_normal.rs:find_action", "examples/dynamodb/src/ddb_to_normal.rs:find_end_action", "examples/dynamodb/src/ddb_to_normal.rs:on_type_key", "examples/dynamodb/src/ddb_to_normal.rs:on_field_key"]}
{"id": "C50", "title": "convert_normal_to_ddb writes well-formed JSON, and pretty changes only space", "statement": "For a stream of JSON documents, the output of convert_normal_to_ddb is one well-formed JSON document for each of them, each followed by a newline; the output with pretty and the output without are the same documents up to space between tokens. (False as it stands, for the reasons in C47.)", "quantifier": "for every stream of documents, chunking, buffer and combination of the flags", "why_tests_cant": "Commas, braces, indentation and line breaks are written by separate actions that communicate through the converter's state; a test compares single outputs.", "anchors": ["examples/dynamodb/src/normal_to_ddb.rs:convert_normal_to_ddb", "examples/dynamodb/src/normal_to_ddb.rs:write_comma", "examples/dynamodb/src/normal_to_ddb.rs:newline", "examples/dynamodb/src/normal_to_ddb.rs:indent"]}
{"id": "C52", "title": "The two converters are inverse to each other", "statement": "If a stream of JSON objects is converted by convert_normal_to_ddb (with or without the wrapper Item, indented or not) and the output is converted by convert_ddb_to_normal (in the wrapper mode if the wrapper was written; in either mode otherwise), then the second call returns Ok and the output is the original documents without space between tokens, each followed by a newline; with pretty they differ from them only by space. The 68 slots of the second converter's context stack suffice for whatever fits in the 34 slots of the first. (False as it stands, for the reasons in C47, and if a document without the wrapper has a key Item: {\"Item\":{}} comes back as {\"M\":}, with Ok.)", "quantifier": "for every stream of objects, nesting, flags, buffers and chunking of the first input", "why_tests_cant": "Quantifies over all documents and two state machines; the tests compare a few files.", "anchors": ["examples/dynamodb/src/normal_to_ddb.rs:convert_normal_to_ddb", "examples/dynamodb/src/ddb_to_normal.rs:convert_ddb_to_normal"]}
{"id": "C53", "title": "convert_ddb_to_normal writes well-formed JSON, and pretty changes only space", "statement": "For a stream of items in DynamoDB JSON, the output of convert_ddb_to_normal is one well-formed JSON document for each of them, each followed by a newline; the output with pretty and the output without are the same documents up to space between tokens. (False as it stands: the text of N is copied without a check, and for the reasons in C49.)", "quantifier": "for every stream of items, chunking, buffer and combination of the flags", "why_tests_cant": "As C50; no test has an N that is not a number.", "anchors": ["examples/dynamodb/src/ddb_to_normal.rs:convert_ddb_to_normal", "examples/dynamodb/src/ddb_to_normal.rs:write_string_value", "examples/dynamodb/src/ddb_to_normal.rs:write_comma_if_pending", "examples/dynamodb/src/ddb_to_normal.rs:newline_if_pretty", "examples/dynamodb/src/ddb_to_normal.rs:indent_if_pretty"]}
{"id": "C51", "title": "convert_ddb_to_normal rejects what is not DynamoDB JSON", "statement": "If convert_ddb_to_normal returns Ok for a stream of JSON documents, then each of them is an item in DynamoDB JSON: an object (in the wrapper mode possibly inside {\"Item\": ...}) whose fields are objects with exactly one member, named by a known type and with a value of that type. Otherwise it returns an error. (False as it stands: {\"a\":{}}, {\"a\":{\"L\":[{}]}}, {\"a\":{\"S\":\"x\",\"N\":{\"S\":\"y\"}}}, {\"a\":{\"SS\":[[\"x\"]]}} and fields beside the wrapper are accepted.)", "quantifier": "for every stream of documents of any depth, chunking, buffer and combination of the flags", "why_tests_cant": "Quantifies over all documents that are not DynamoDB JSON; the tests try a handful of wrong inputs and miss these.", "anchors": ["examples/dynamodb/src/ddb_to_normal.rs:convert_ddb_to_normal", "examples/dynamodb/src/ddb_to_normal.rs:find_action", "examples/dynamodb/src/ddb_to_normal.rs:on_type_key"]}
{"id": "C54", "title": "The indentation level of convert_ddb_to_normal does not underflow", "statement": "On no stream of JSON documents does convert_ddb_to_normal subtract from an indentation level of 0, which is a panic in builds with overflow checks. (False as it stands: {\"a\":{\"S\":\"\",\"b\":{\"S\":\"\",\"c\":{\"S\":\"\",\"d\":{\"S\":\"\",\"e\":{\"S\":\"\"}}}}}}.)", "quantifier": "for every stream of documents, chunking, buffer and combination of the flags", "why_tests_cant": "The level is changed by callbacks whose pairing depends on the phase; a counterexample needs a nesting that no test has.", "anchors": ["examples/dynamodb/src/ddb_to_normal.rs:on_map_end", "examples/dynamodb/src/ddb_to_normal.rs:find_end_action_key"]}
{"id": "C55", "title": "A syntax error is reported at its place, after exactly the events before it", "statement": "If the input is documents and then a broken document, scan calls the callbacks for what is before the first byte that cannot be there, in their order, and none more; then it returns an error. If a value should start at that byte, the error is UnhandledPeek with the byte and its position, also if the byte starts a literal or a number that is misspelled further on, or a string with a control character or a wrong escape in it; otherwise it is an error of the parser, also if the byte is the quote in front of a broken key, or in front of a key without a colon behind it. (False as it stands: a second brace behind the first is ignored; the position for a broken string depends on the chunks; and as C31.)", "quantifier": "for every stream of documents, broken document, chunking, buffer, pool and callbacks that do not touch the parser", "why_tests_cant": "The tests have a few malformed inputs; that no callback is called behind the error, for all places of the error, is not tested.", "anchors": ["scan_json/src/scan.rs:scan", "scan_json/src/scan.rs:handle_object", "scan_json/src/scan.rs:handle_array", "scan_json/src/scan.rs:skip_basic_values", "rjiter/src/error.rs"]}
{"id": "C56", "title": "scan returns on any input", "statement": "Whatever the bytes of the input are (JSON or not), however they arrive, and whether or not the reader fails, scan returns Ok or an error; it does not panic and it does not run for ever. (False as it stands: with a buffer of seven bytes; with an empty token; with a callback that says ValueIsConsumed without consuming; and with tokens and a reader that fails behind a form feed.)", "quantifier": "for every byte sequence, chunking, failure of the reader, buffer, pool, options and callbacks that return", "why_tests_cant": "Quantifies over all byte sequences and all failures; the tests have a few malformed inputs in one or two chunks.", "anchors": ["scan_json/src/scan.rs:scan", "scan_json/src/scan.rs:handle_object", "scan_json/src/scan.rs:handle_array", "scan_json/src/scan.rs:skip_basic_values", "rjiter/src/rjiter.rs:RJiter::lookahead_n"]}
{"id": "C57", "title": "idtransform returns on any input", "statement": "Whatever the bytes of the input are, however they arrive, and whether or not the reader or the writer fails, idtransform returns Ok or an error; it does not panic and it does not run for ever. (False with a buffer of seven bytes.)", "quantifier": "for every byte sequence, chunking, failure of the reader and of the writer, buffer and pool", "why_tests_cant": "As C56, and every callback has to consume what it says it has consumed.", "anchors": ["scan_json/src/idtransform.rs:idtransform", "scan_json/src/idtransform.rs:on_atom", "scan_json/src/idtransform.rs:copy_atom", "scan_json/src/scan.rs:scan"]}
{"id": "C58", "title": "convert_ddb_to_normal returns on any input", "statement": "Whatever the bytes of the input are, however they arrive, and whether or not the reader or the writer fails, convert_ddb_to_normal returns Ok or an error; it does not panic and it does not run for ever. (False with an input buffer of seven bytes; and see C54.)", "quantifier": "for every byte sequence, chunking, failure of the reader, of the writer and of flush, both buffers and combination of the flags", "why_tests_cant": "As C56; the counterpart convert_normal_to_ddb does run for ever on some inputs (C46), which no test found.", "anchors": ["examples/dynamodb/src/ddb_to_normal.rs:convert_ddb_to_normal", "examples/dynamodb/src/ddb_to_normal.rs:write_string_value", "examples/dynamodb/src/ddb_to_normal.rs:handle_bool_based_type", "scan_json/src/scan.rs:scan"]}
{"id": "C59", "title": "The index of an I/O error is the position of the failure", "statement": "When a parser call returns an I/O error, the index in it is the number of bytes that the reader had delivered before it failed, and error_position converts it to a line and column. (False as it stands: the index is the number of bytes in the buffer; the bytes that were shifted out are not counted, and error_position underflows.)", "quantifier": "for every sequence of parser calls, chunking, buffer and failure", "why_tests_cant": "No test looks at the index of an I/O error after a shift.", "anchors": ["rjiter/src/buffer.rs:Buffer::read_more", "rjiter/src/rjiter.rs:RJiter::error_position", "rjiter/src/error.rs"]}
{"id": "C60", "title": "Every failure of the reader is reported once, as itself, and nothing else is reported as one", "statement": "In a sequence of parser calls, the I/O errors that the calls return are, in this order, the failures of the reader so far: none is dropped, doubled, reordered or invented, whether other calls in between succeed or fail with other errors. For write_long_bytes and write_long_str, an I/O error is the next failure of the reader or of the writer, and the other one did not fail.", "quantifier": "for every sequence of calls, input, chunking, buffer and set of failures", "why_tests_cant": "Quantifies over all sequences of calls and all places of failures; tests have one failure in one call.", "anchors": ["rjiter/src/rjiter.rs:RJiter::loop_until_success", "rjiter/src/rjiter.rs:RJiter::finish", "rjiter/src/buffer.rs:Buffer::read_more", "rjiter/src/buffer.rs:Buffer::skip_spaces", "rjiter/src/buffer.rs:Buffer::collect_while", "rjiter/src/buffer.rs:Buffer::collect_count"]}
{"id": "C61", "title": "scan reports a failing reader", "statement": "If the reader fails during scan, scan returns its error; if scan returns an I/O error, the reader has failed with that kind. (False as it stands: a failure in the middle of a number or literal becomes UnhandledPeek, and with tokens a failure can be dropped, so that scan returns Ok.)", "quantifier": "for every input (valid or not), chunking, buffer, pool, options, place of the failure and callbacks that return an error if a parser call failed them", "why_tests_cant": "Quantifies over all places at which the reader can fail; tests use readers that do not fail.", "anchors": ["scan_json/src/scan.rs:scan", "scan_json/src/scan.rs:handle_object", "scan_json/src/scan.rs:handle_array", "scan_json/src/scan.rs:skip_basic_values", "rjiter/src/error.rs"]}
{"id": "C62", "title": "idtransform reports a failing reader", "statement": "If the reader fails during idtransform, idtransform returns its error; in particular it does not return Ok. (The first half is false: a failure in the middle of a number becomes UnhandledPeek.)", "quantifier": "for every input, chunking, buffer, pool, writer and place of the failure", "why_tests_cant": "As C61.", "anchors": ["scan_json/src/idtransform.rs:idtransform", "scan_json/src/idtransform.rs:on_atom", "scan_json/src/idtransform.rs:copy_atom"]}
{"id": "C63", "title": "convert_ddb_to_normal reports a failing reader", "statement": "If the reader fails at least once, convert_ddb_to_normal does not return Ok.", "quantifier": "for every input, chunking, failure of the reader, writer, both buffers and combination of the flags", "why_tests_cant": "As C61.", "anchors": ["examples/dynamodb/src/ddb_to_normal.rs:convert_ddb_to_normal", "examples/dynamodb/src/ddb_to_normal.rs:write_string_value", "examples/dynamodb/src/ddb_to_normal.rs:handle_bool_based_type"]}
{"id": "C64", "title": "convert_normal_to_ddb reports a failing reader", "statement": "If the reader fails at least once, convert_normal_to_ddb does not return Ok; if it returns an I/O error of the parser, the reader has failed with that kind. (The first half is false: the handlers of true, false and null ignore the error of the parser; a failure in the middle of true makes the converter write the document twice and return Ok.)", "quantifier": "for every input, chunking, failure of the reader, writer, buffers and combination of the flags", "why_tests_cant": "As C61.", "anchors": ["examples/dynamodb/src/normal_to_ddb.rs:convert_normal_to_ddb", "examples/dynamodb/src/normal_to_ddb.rs:on_bool_value_toddb", "examples/dynamodb/src/normal_to_ddb.rs:on_null_value_toddb"]}
{"id": "C65", "title": "scan accepts only JSON", "statement": "If scan returns Ok, then the input is a sequence of JSON documents (with stop_early: begins with one), and the callbacks were called for the values of these documents, in order. (The first half is false as it stands: scan accepts a doubled brace, form feeds, strings with bad escapes or bytes that are not UTF-8, and, depending on the chunks, half an escape.)", "quantifier": "for every input (valid or not), chunking, buffer of at least eight bytes, reader that may fail, pool, and client that does not touch the parser", "why_tests_cant": "Quantifies over all inputs that are not JSON, and all ways to cut them; tests try a few malformed inputs.", "anchors": ["scan_json/src/scan.rs:scan", "scan_json/src/scan.rs:handle_object", "scan_json/src/scan.rs:handle_array", "scan_json/src/scan.rs:skip_basic_values", "rjiter/src/rjiter.rs:loop_until_success", "rjiter/src/rjiter.rs:handle_long"]}
{"id": "C66", "title": "idtransform never invents or drops bytes", "statement": "If idtransform returns Ok, then the input begins with a JSON document and the output is this document without the space between its tokens, or the input is blank and the output empty. (False as it stands, as C65.)", "quantifier": "for every input (valid or not), chunking, buffer of at least eight bytes, reader that may fail and pool", "why_tests_cant": "As C65.", "anchors": ["scan_json/src/idtransform.rs:idtransform", "scan_json/src/idtransform.rs:on_atom", "scan_json/src/idtransform.rs:copy_atom"]}
{"id": "C67", "title": "Whole values are read whatever the chunks are", "statement": "If the stream continues with a JSON value (behind whitespace, for the next_ calls) that fits into the buffer with a byte to spare and is followed by something, then next_value returns it with all strings decoded, next_skip skips it, next_int, next_number and next_float return the number, and so do the known_ calls; the position is then just behind the value. (False for known_value and known_skip right after peek on an array or object that is cut by a read: an attempt has consumed a part of it.)", "quantifier": "for every value nested at most 200 levels deep, every chunking, buffer, earlier use of the parser and reader that does not fail", "why_tests_cant": "Quantifies over all documents and all ways to cut them; tests cut a few documents.", "anchors": ["rjiter/src/rjiter.rs:next_value", "rjiter/src/rjiter.rs:known_value", "rjiter/src/rjiter.rs:next_skip", "rjiter/src/rjiter.rs:known_skip", "rjiter/src/rjiter.rs:next_int", "rjiter/src/rjiter.rs:known_int", "rjiter/src/rjiter.rs:next_float", "rjiter/src/rjiter.rs:known_float", "rjiter/src/rjiter.rs:next_number", "rjiter/src/rjiter.rs:known_number", "rjiter/src/rjiter.rs:loop_until_success"]}
{"id": "C68", "title": "The last value of the stream is read", "statement": "As C67 for a value with which the stream ends. (False if the value is at the start of the buffer when the call begins, as after peek: then all ten calls fail.)", "quantifier": "for every value nested at most 200 levels deep that fits into the buffer, every chunking and reader that does not fail", "why_tests_cant": "As C67.", "anchors": ["rjiter/src/rjiter.rs:next_value", "rjiter/src/rjiter.rs:known_value", "rjiter/src/rjiter.rs:next_skip", "rjiter/src/rjiter.rs:known_skip", "rjiter/src/rjiter.rs:loop_until_success"]}
{"id": "C69", "title": "A returned value was in the stream", "statement": "If next_value or known_value returns Ok(x), the stream continued (behind whitespace) with a JSON document whose value is x, and the position is just behind it; if next_skip or known_skip returns Ok, exactly a document has been skipped; if one of the calls for numbers returns Ok, the longest number was returned. (False for values right after peek on an array or object: on [1 \"x\"] the call next_value returns the string x.)", "quantifier": "for every input (valid or not), chunking, buffer and reader that may fail", "why_tests_cant": "Quantifies over all inputs that are not JSON, and all ways to cut them.", "anchors": ["rjiter/src/rjiter.rs:next_value", "rjiter/src/rjiter.rs:known_value", "rjiter/src/rjiter.rs:next_skip", "rjiter/src/rjiter.rs:known_skip", "rjiter/src/rjiter.rs:next_int", "rjiter/src/rjiter.rs:next_float", "rjiter/src/rjiter.rs:next_number", "rjiter/src/rjiter.rs:loop_until_success"]}
{"id": "C70", "title": "A returned value does not change", "statement": "The strings of a JsonValue that next_value returned stay the same for as long as the value lives, whatever calls follow. (False: JsonValue<'rj> borrows strings without escapes from the working buffer, the lifetime 'rj lets the client keep it over later calls, and these move other bytes there; the string can even stop being UTF-8.)", "quantifier": "for every value, state of the parser and sequence of later calls, whatever their outcomes", "why_tests_cant": "Quantifies over all later calls; tests look at a returned value before they make the next call.", "anchors": ["rjiter/src/rjiter.rs:next_value", "rjiter/src/rjiter.rs:new", "rjiter/src/rjiter.rs:create_new_jiter", "rjiter/src/buffer.rs:shift_buffer", "rjiter/src/buffer.rs:read_more"]}
{"id": "C71", "title": "scan does not depend on the chunks", "statement": "If the input is a stream of documents that fits in the buffer, scan reports its events whatever pieces the reader delivers it in. (False if a piece ends within the first key of an object that this piece starts with, as in {\"k | ey\":1}: then scan fails with WrongType, whatever follows. True if no piece does so, and true for any buffer that has room for the longest number and key if objects have space between the brace and the first key.)", "quantifier": "for every stream of documents, chunking, buffer and pool with room for the names", "why_tests_cant": "Quantifies over all documents and all ways to cut them; tests cut a few documents.", "anchors": ["scan_json/src/scan.rs:scan", "scan_json/src/scan.rs:handle_object", "rjiter/src/rjiter.rs:next_object_bytes", "rjiter/src/rjiter.rs:peek", "rjiter/src/rjiter.rs:loop_until_success"]}
{"id": "C72", "title": "What idtransform writes means what it read", "statement": "If idtransform copies a document, then what it wrote can be read again: a second idtransform writes the same bytes, scan reports the events of the original document, and next_value returns the value the original document stands for. (False for a number: its copy ends with the input, and is not read.)", "quantifier": "for every document that C38 covers, every way it was read the first time, and any chunks for next_value the second time", "why_tests_cant": "Quantifies over all documents; the tests compare the output with a few expected texts.", "anchors": ["scan_json/src/idtransform.rs:idtransform", "scan_json/src/idtransform.rs:copy_atom", "scan_json/src/scan.rs:scan", "rjiter/src/rjiter.rs:next_value"]}
{"id": "C73", "title": "DynamoDB JSON survives the way to plain JSON and back", "statement": "If a stream of items in DynamoDB JSON is converted by convert_ddb_to_normal and the output is converted by convert_normal_to_ddb, then the second call returns Ok and its output is the original items without space between tokens, each followed by a newline, with these changes only: SS, NS and BS become L with typed elements, B becomes S, and the wrapper Item is there or not as the flag of the second call says; with pretty the output differs from that only by space. Items without sets and binary values come back unchanged. (False as it stands, for the reasons in C47, C49 and C53.)", "quantifier": "for every stream of items of any nesting up to 67 levels, all flags of both calls, and any chunking of either input that the modes cover", "why_tests_cant": "Quantifies over all items and two state machines; the tests compare a few files, in the other direction.", "anchors": ["examples/dynamodb/src/ddb_to_normal.rs:convert_ddb_to_normal", "examples/dynamodb/src/normal_to_ddb.rs:convert_normal_to_ddb"]}
{"id": "C74", "title": "What a failing writer has received is the beginning of the output; success means all of it", "statement": "If idtransform, convert_normal_to_ddb or convert_ddb_to_normal does not return an error, then the bytes that the writer has received are exactly those that a writer that never fails receives from the same input, and the flag unbuffered makes no difference to them. If it returns an error, for whatever reason, they are the first of those bytes: nothing is written behind a failed write. (False of convert_normal_to_ddb: if the input is a single string and the write of its bytes fails, the final newline is written nevertheless.)", "quantifier": "for all readers and inputs, all writers with any sequence of failing and accepted writes and flushes and any partial writes, all buffer sizes, flags and client states", "why_tests_cant": "Quantifies over every point at which a write or flush may fail; a test fails at a few points of a few inputs.", "anchors": ["scan_json/src/idtransform.rs:idtransform", "examples/dynamodb/src/normal_to_ddb.rs:convert_normal_to_ddb", "examples/dynamodb/src/ddb_to_normal.rs:convert_ddb_to_normal"]}
{"id": "C75", "title": "Exit status 0 of ddb_convert means that the output was written", "statement": "If the command line tool exits with status 0, then the whole converted output has reached standard output or the output file. (False without --unbuffered: the BufWriter is flushed only when it is dropped, and drop ignores errors. If the output is shorter than 8192 bytes and the channel refuses it, the tool exits with status 0 and nothing has been written. At most the last 8192 bytes can be lost so. True with --unbuffered.)", "quantifier": "for all inputs and readers, all flags, and all channels with any sequence of failing and partial writes and failing flushes", "why_tests_cant": "Quantifies over every point at which the operating system may refuse a write; the tests write to files that accept everything.", "anchors": ["examples/dynamodb/src/main.rs:main", "examples/dynamodb/src/main.rs:convert_to_ddb", "examples/dynamodb/src/main.rs:convert_from_ddb", "examples/dynamodb/src/normal_to_ddb.rs:convert_normal_to_ddb", "examples/dynamodb/src/ddb_to_normal.rs:convert_ddb_to_normal"]}
{"id": "C76", "title": "What ddb_convert has converted before an error is written", "statement": "If the conversion fails, then everything it had written until then has reached the output. (False without --unbuffered: process::exit is called while the BufWriter still holds bytes and does not run its destructor; the last bytes, at most 8192, are lost even if the channel never fails, and so everything if it was less than 8192. True with --unbuffered.)", "quantifier": "for all inputs whose conversion fails, all flags and all channels that do not fail, with any partial writes", "why_tests_cant": "Quantifies over all inputs and all ways the channel divides the output.", "anchors": ["examples/dynamodb/src/main.rs:main", "examples/dynamodb/src/normal_to_ddb.rs:convert_normal_to_ddb", "examples/dynamodb/src/ddb_to_normal.rs:convert_ddb_to_normal"]}
{"id": "C77", "title": "ddb_convert to-ddb | ddb_convert from-ddb gives the documents back", "statement": "If a stream of JSON objects goes through ddb_convert to-ddb and what reaches its output through ddb_convert from-ddb, then both exit with status 0, and the second has written the original documents without space between tokens, each followed by a newline; with --pretty they differ from that only by space. (False as it stands, for the reasons in C47 and C52.)", "quantifier": "for all streams of objects, all flags of both calls, all channels that do not fail with any partial writes, any chunking of either input that the modes cover", "why_tests_cant": "Quantifies over all documents, flags and divisions of the output; the tests compare a few files.", "anchors": ["examples/dynamodb/src/main.rs:main", "examples/dynamodb/src/normal_to_ddb.rs:convert_normal_to_ddb", "examples/dynamodb/src/ddb_to_normal.rs:convert_ddb_to_normal"]}
{"id": "C78", "title": "Items of 32 levels can be converted, deeper ones are refused", "statement": "Both converters have room for the 32 levels of nesting that DynamoDB supports: in either direction a stream whose attributes have at most 32 levels of lists, maps and sets is never refused as too deep, with or without the wrapper Item. A document that needs more than the 34 or 68 entries is always answered with an error. (False if a set does not count as a level: a set in 32 maps in an item with the wrapper is refused.)", "quantifier": "for all items and documents of any shape with names that fit in the context buffer, all flags, and any chunking that the modes cover", "why_tests_cant": "Quantifies over all shapes of items with 32 levels; the tests have one of each kind.", "anchors": ["examples/dynamodb/src/ddb_to_normal.rs:convert_ddb_to_normal", "examples/dynamodb/src/normal_to_ddb.rs:convert_normal_to_ddb"]}
{"id": "C79", "title": "An Ok for JSON means the right events, however the input is cut", "statement": "If the input is a sequence of JSON documents and scan returns Ok, then the callbacks were called for just these documents; so two scans of the same documents that both return Ok call the callbacks in the same way. With stop_early this holds for the first document, and just this document is consumed; if idtransform returns Ok for a JSON document, its output is this document without the space between tokens. (False if a top-level number is longer than the buffer, which is reported as two numbers, and with stop_early for backslashes in input that is not ASCII.)", "quantifier": "for all documents, all chunkings, failing readers, all buffers of at least eight bytes, all sizes of the context stack, and all clients that only watch", "why_tests_cant": "A statement about every way to cut the input and every buffer size at once: the tests cannot tell a wrong Ok for one cut from the many that are right.", "anchors": ["scan_json/src/scan.rs:scan", "scan_json/src/scan.rs:handle_array", "scan_json/src/scan.rs:handle_object", "scan_json/src/idtransform.rs:idtransform", "rjiter/src/rjiter.rs:RJiter::next_number_bytes", "rjiter/src/rjiter.rs:RJiter::write_long_bytes"]}
{"id": "C80", "title": "An Ok of convert_ddb_to_normal means the right output, however the input is cut", "statement": "If convert_ddb_to_normal returns Ok, then the input is a stream of items in DynamoDB JSON, and what was written is these items as plain JSON, one per line. So if the input is a stream of such items, an Ok means that just they were written; and two runs on the same JSON that both return Ok write the same. (False for documents that are not items, some of which are accepted, for a field named #array and for a set that is not the first item of a list.)", "quantifier": "for all inputs, all chunkings, failing readers and writers, all buffers of at least eight bytes, all context buffers, all flags", "why_tests_cant": "A statement about every way to cut the input, every buffer size and every writer at once; C49 and C51 cover only inputs and chunkings for which the parser is known to succeed.", "anchors": ["examples/dynamodb/src/ddb_to_normal.rs:convert_ddb_to_normal", "examples/dynamodb/src/ddb_to_normal.rs:find_action", "examples/dynamodb/src/ddb_to_normal.rs:find_end_action", "scan_json/src/scan.rs:scan", "rjiter/src/rjiter.rs:RJiter::write_long_bytes"]}
{"id": "C81", "title": "An Ok of convert_normal_to_ddb means the right output, however the input is cut", "statement": "If convert_normal_to_ddb returns Ok, then the input is a stream of JSON documents, and what was written is these documents in DynamoDB JSON, one per line. So if the input is such a stream, an Ok means that just its documents were written; and two runs on the same JSON that both return Ok write the same. (False with a reader that fails in the middle of true, false or null, for a number that is a document of its own and longer than the buffer, and where C47 is false.)", "quantifier": "for all inputs, all chunkings by a reader that does not fail, failing writers, all buffers of at least eight bytes, all context buffers, all flags", "why_tests_cant": "A statement about every way to cut the input, every buffer size and every writer at once; the converter ignores errors of known_bool and known_null, so that it has to be shown that no run in which one of them fails gets to an Ok.", "anchors": ["examples/dynamodb/src/normal_to_ddb.rs:convert_normal_to_ddb", "examples/dynamodb/src/normal_to_ddb.rs:on_bool_value_toddb", "examples/dynamodb/src/normal_to_ddb.rs:on_null_value_toddb", "examples/dynamodb/src/normal_to_ddb.rs:find_action", "scan_json/src/scan.rs:scan", "rjiter/src/rjiter.rs:RJiter::known_bool", "rjiter/src/rjiter.rs:RJiter::known_null"]}
{"id": "C82", "title": "convert_normal_to_ddb returns, except at a broken word between documents", "statement": "On every input convert_normal_to_ddb returns Ok or an error, within a number of turns of the loop that is linear in the length of the input, and it never panics; the only exception is an input that consists of documents and then, behind space, of something that begins like true, false or null and is not it. For each such input it does not return: it writes the documents, and then the completed word over and over. In particular it returns on every stream of JSON documents. (The last sentence is false for JSON with backslashes that is not ASCII: there is a document, an array of two strings, on which it writes true for ever.)", "quantifier": "for all inputs, all chunkings by a reader that does not fail, failing writers, all buffers of at least eight bytes, all context buffers, all flags, all numbers of turns", "why_tests_cant": "No test can see that a program does not return, and none can show that it returns on every input; the statement says exactly where it does not.", "anchors": ["examples/dynamodb/src/normal_to_ddb.rs:convert_normal_to_ddb", "examples/dynamodb/src/normal_to_ddb.rs:on_bool_value_toddb", "examples/dynamodb/src/normal_to_ddb.rs:on_null_value_toddb", "examples/dynamodb/src/normal_to_ddb.rs:on_root_literal", "scan_json/src/scan.rs:scan", "rjiter/src/rjiter.rs:RJiter::known_bool", "rjiter/src/rjiter.rs:RJiter::known_null", "rjiter/src/rjiter.rs:RJiter::write_long_bytes"]}
{"id": "C83", "title": "Exit status 0 of ddb_convert means that the input was converted", "statement": "If ddb_convert exits with status 0, then what has reached the output is the conversion of the input: from-ddb has written the items of the stream as plain JSON, to-ddb the documents of the stream with their types; however the input is cut into reads and the output into writes, and whatever fails. Two runs that exit with 0 on the same JSON write the same, with and without --unbuffered. The tool always exits, with status 0 or 1: it does not panic or hang. (Without --unbuffered the last 8192 bytes may be missing if a write fails, see C75. to-ddb hangs on documents that are followed by an incomplete true, false or null.)", "quantifier": "for all inputs, all chunkings, all sequences of read errors (from-ddb), all channels with failing and partial writes and failing flushes, all flags", "why_tests_cant": "Quantifies over every cut of every input into reads of at most 64 kB and every point of failure; the tests of the tool read small files in one piece.", "anchors": ["examples/dynamodb/src/main.rs:main", "examples/dynamodb/src/main.rs:convert_to_ddb", "examples/dynamodb/src/main.rs:convert_from_ddb", "examples/dynamodb/src/normal_to_ddb.rs:convert_normal_to_ddb", "examples/dynamodb/src/ddb_to_normal.rs:convert_ddb_to_normal", "scan_json/src/scan.rs:scan"]}
{"id": "C84", "title": "The reference converter of the benchmark is a round trip", "statement": "to_dynamodb succeeds on every JSON object, with and without the Item wrapper, and from_dynamodb gives exactly the object back: the same fields in the same order. Conversely, if from_dynamodb accepts a document then to_dynamodb turns the result into a document that from_dynamodb takes for the same. (False without the wrapper for an object whose only field is Item, and for numbers that serde_json does not read as it writes them; sets come back as lists.)", "quantifier": "for all objects of any depth and size, all numbers and all strings", "why_tests_cant": "A round trip over all values of unbounded depth; the benchmark only compares two tools on generated files.", "anchors": ["benchmarks/dynamodb/ddb_convert_rust/src/main.rs:from_dynamodb", "benchmarks/dynamodb/ddb_convert_rust/src/main.rs:to_dynamodb", "benchmarks/dynamodb/ddb_convert_rust/src/main.rs:unmarshall_value", "benchmarks/dynamodb/ddb_convert_rust/src/main.rs:marshall_value"]}
{"id": "C85", "title": "The streaming converters agree with the reference converter", "statement": "If convert_normal_to_ddb returns Ok on a stream of objects, then it has written one document per object, and each stands for the value that the reference converter to_dynamodb (in memory, with serde_json) returns for that object. If convert_ddb_to_normal returns Ok on a stream of items, then it has written one document per item, and each stands for the value that from_dynamodb returns. (False for numbers that serde_json does not write as it has read them, as 1e2; and for {\"N\":\"x\"} with a text that is no number, which only the reference converter refuses.)", "quantifier": "for all streams of objects and items, all chunkings, failing writers and (from DynamoDB) readers, all buffers of at least eight bytes, all flags", "why_tests_cant": "Two independent implementations, one streaming and one in memory, compared on all inputs and all chunkings; the benchmark compares them on some generated files.", "anchors": ["examples/dynamodb/src/normal_to_ddb.rs:convert_normal_to_ddb", "examples/dynamodb/src/ddb_to_normal.rs:convert_ddb_to_normal", "benchmarks/dynamodb/ddb_convert_rust/src/main.rs:from_dynamodb", "benchmarks/dynamodb/ddb_convert_rust/src/main.rs:to_dynamodb", "benchmarks/dynamodb/ddb_convert_rust/src/main.rs:unmarshall_value", "benchmarks/dynamodb/ddb_convert_rust/src/main.rs:marshall_value"]}
{"id": "C86", "title": "The benchmark's program on streams of documents, and against the streaming tools", "statement": "A stream of documents that are on lines of their own, the first on the first line, is converted document by document, and the results are printed one per document in the same order; so is one document in any layout between spaces. Conversely, if the program ends without an error, then the input was one document, or each of its lines was blank or held one document, and what was printed is the converted documents. A line that is no document stops the program after the documents before it, and the error names the line. Where the streaming converters return Ok on such a stream, the program ends without an error and prints values that the streaming output stands for. (False in part: two documents of which the first is not alone on the first line are refused, empty input is refused, no-break spaces around a document are accepted, and for a .jsonl file the line in the error is wrong by one.)", "quantifier": "for all streams of documents of at most 127 levels, all layouts, both directions, all flags; any input for what is accepted", "why_tests_cant": "Detection of the format looks at the first line only; which streams fall to which of the two code paths depends on line breaks anywhere in the input.", "anchors": ["benchmarks/dynamodb/ddb_convert_rust/src/main.rs:main", "benchmarks/dynamodb/ddb_convert_rust/src/main.rs:detect_jsonl_from_content", "benchmarks/dynamodb/ddb_convert_rust/src/main.rs:process_jsonl", "benchmarks/dynamodb/ddb_convert_rust/src/main.rs:process_json", "examples/dynamodb/src/normal_to_ddb.rs:convert_normal_to_ddb", "examples/dynamodb/src/ddb_to_normal.rs:convert_ddb_to_normal"]}
{"id": "C87", "title": "The benchmark's converter reads exactly DynamoDB JSON, loosely, and writes it", "statement": "from_dynamodb returns Ok exactly for a document (in an Item wrapper or not) whose fields are DynamoDB attribute values, where only the contents of S, B, BOOL, NULL, SS and BS are not checked, and then returns the object of the plain values that they mean, with the names in the same order. All DynamoDB JSON is accepted. to_dynamodb returns Ok for every object, with DynamoDB JSON that means this object; for anything but an object it returns an error. (False in the strict sense: {\"a\":{\"S\":true}} is accepted.)", "quantifier": "for all documents of any depth and size, with all numbers and strings", "why_tests_cant": "An exact description of the accepted documents, in both directions, over nested values of unbounded size.", "anchors": ["benchmarks/dynamodb/ddb_convert_rust/src/main.rs:from_dynamodb", "benchmarks/dynamodb/ddb_convert_rust/src/main.rs:to_dynamodb", "benchmarks/dynamodb/ddb_convert_rust/src/main.rs:unmarshall_value", "benchmarks/dynamodb/ddb_convert_rust/src/main.rs:marshall_value"]}
{"id": "C88", "title": "What scan has reported before an error belongs to the text in front of the error", "statement": "If scan returns an error (a syntax error, the end of the input inside of a document, a read error, too deep nesting, an error of a callback), then the input starts with complete documents and the beginning of one more, and the callbacks that were called are exactly, in order and with their paths, those for the complete documents and for what is in front of the stop in the last one: nothing is reported that is not in the text, nothing in front of the stop is left out, and a container is reported as ended only if its closing bracket is there. With stop_early there is no complete document in front of the last one. (As in C65, 'document' is meant a bit looser than in JSON.)", "quantifier": "for all inputs, all chunkings, all sequences of read errors, all buffers of at least eight bytes, all context stacks, all clients that do not touch the parser, including those whose callbacks fail, without SSE tokens", "why_tests_cant": "Quantifies over every place where any input can go wrong, together with every cut of the input into reads; tests look at single broken inputs and mostly only at the error.", "anchors": ["scan_json/src/scan.rs:scan", "scan_json/src/scan.rs:handle_object", "scan_json/src/scan.rs:handle_array", "scan_json/src/scan.rs:skip_basic_values", "rjiter/src/rjiter.rs:RJiter::known_array", "rjiter/src/rjiter.rs:RJiter::array_step", "rjiter/src/rjiter.rs:RJiter::next_object_bytes", "rjiter/src/rjiter.rs:RJiter::next_key_bytes", "rjiter/src/rjiter.rs:RJiter::peek"]}
{"id": "C89", "title": "What write_long_str and write_long_bytes have written is a beginning of the string, whatever they return", "statement": "After write_long_str (success, any error of the parser, the reader or the writer): the bytes behind the opening quote start with well-formed content of a string, and what was written is a beginning of the UTF-8 encoding of the characters it stands for, and all of this encoding if the writer did not fail, so no character is written in part. If the reader is on a well-formed string, what was written is a beginning of this string. After write_long_bytes: what was written is a beginning of some of the bytes behind the opening quote in which a quote only stands behind a backslash, and all of them if the writer did not fail; if the reader is on a well-formed string, and the buffer holds only ASCII or there is no backslash in the data, it is a beginning of this string.", "quantifier": "for all inputs, buffers (of any length, with any stale bytes), chunkings, and sequences of read errors and write errors, also after a part of a write", "why_tests_cant": "The cut between two segments depends on the fill of the buffer, and the state after an error on the place of the cut: tests look at the error and not at what was written in front of it.", "anchors": ["rjiter/src/rjiter.rs:RJiter::write_long_str", "rjiter/src/rjiter.rs:RJiter::write_long_bytes", "rjiter/src/rjiter.rs:RJiter::handle_long"]}
{"id": "C90", "title": "What idtransform has written before an error is the beginning of the document in front of the error", "statement": "If idtransform returns an error (a syntax error, the end of the input inside of the document, a read error, too deep nesting) and the writer did not fail, then the input starts with space and the beginning of a document, and the output is this beginning without the space between its tokens: every token in front of the stop, in order, with a comma only in front of an element that is there, and of an atom at the stop a beginning of it if it is a string, and nothing else. (As in C65, 'document' is meant a bit looser than in JSON.)", "quantifier": "for all inputs, all chunkings, all sequences of read errors, all buffers of at least eight bytes, all context stacks", "why_tests_cant": "Quantifies over every place where any input can go wrong, together with every cut of the input into reads; tests compare the output of runs that succeed.", "anchors": ["scan_json/src/idtransform.rs:idtransform", "scan_json/src/idtransform.rs:copy_atom", "scan_json/src/idtransform.rs:on_atom", "scan_json/src/idtransform.rs:on_struct", "scan_json/src/idtransform.rs:on_struct_end", "scan_json/src/idtransform.rs:on_key", "scan_json/src/idtransform.rs:IdTransform::write_seqpos", "scan_json/src/scan.rs:scan", "rjiter/src/rjiter.rs:RJiter::write_long_bytes"]}
{"id": "C91", "title": "On the beginning of a JSON text, scan and idtransform do the beginning of what they do on the whole", "statement": "If the input is the beginning of a text of JSON documents (cut off anywhere, or the whole of it), then whatever scan returns, the callbacks it has called are the first ones of those for the whole text: nothing is reported that is not there, nothing is left out, and nothing is in another order. Likewise, what idtransform has written, with an Ok or an error, is the beginning of what it writes for the whole document. So a client that sees a document arrive piece by piece never has to take back what was done for the first pieces.", "quantifier": "for all sequences of JSON documents, all places at which they are cut off, all chunkings, all sequences of read errors, all buffers of at least eight bytes, all context stacks", "why_tests_cant": "Quantifies over all documents, all cuts and all chunkings together, and compares two runs; tests look at single documents, mostly complete ones.", "anchors": ["scan_json/src/scan.rs:scan", "scan_json/src/scan.rs:handle_object", "scan_json/src/scan.rs:handle_array", "scan_json/src/idtransform.rs:idtransform", "scan_json/src/idtransform.rs:copy_atom", "scan_json/src/idtransform.rs:on_atom", "rjiter/src/rjiter.rs:RJiter::write_long_bytes"]}
{"id": "C92", "title": "On the beginning of a stream of items, convert_ddb_to_normal writes the beginning of the right output", "statement": "If the input is the beginning of a stream of items in DynamoDB JSON (cut off anywhere, or the whole of it), then whatever convert_ddb_to_normal returns, what it has written is a beginning of these items as plain JSON, one per line: a connection that breaks, a reader that fails, a writer that fails or a context buffer that is too small cost the end of the output, but never make it wrong. And for any JSON on which a run returns Ok, a run on any beginning of it, in other chunks and with other buffers, writes a beginning of what was written for the whole. (False where write_long_bytes runs past a closing quote, see C89.)", "quantifier": "for all streams of items, all places at which they are cut off, all chunkings, all sequences of read and write errors, all buffers of at least eight bytes, all context buffers", "why_tests_cant": "Quantifies over all streams, all cuts, all chunkings and all faults together, and compares what a broken run has written with what a complete one writes; tests look at complete runs, and at the error of broken ones.", "anchors": ["examples/dynamodb/src/ddb_to_normal.rs:convert_ddb_to_normal", "examples/dynamodb/src/ddb_to_normal.rs:find_action", "examples/dynamodb/src/ddb_to_normal.rs:find_end_action", "examples/dynamodb/src/ddb_to_normal.rs:write_string_value", "examples/dynamodb/src/ddb_to_normal.rs:handle_bool_based_type", "scan_json/src/scan.rs:scan", "rjiter/src/rjiter.rs:RJiter::write_long_bytes"]}
{"id": "C93", "title": "On the beginning of a stream of objects and arrays, convert_normal_to_ddb writes the beginning of the right output", "statement": "If the input is the beginning of a stream of JSON objects and arrays and does not end in a digit, then whatever convert_normal_to_ddb returns, what it has written is a beginning of these documents in DynamoDB JSON, one per line; a writer that fails can add one line feed to it. And for any such stream on which a run returns Ok, a run on any such beginning of it, in other chunks and with other buffers, writes a beginning of what was written for the whole. It holds also where the input ends in the middle of true, false or null: the converter writes the whole literal after its first letter. (False if the input ends in a number, which is then written as if it were complete; for a number longer than the buffer; for strings and literals on the top level; and where write_long_bytes runs past a closing quote, see C89.)", "quantifier": "for all streams of JSON objects and arrays, all places at which they are cut off except behind a digit, all chunkings, all sequences of write errors, all buffers of at least eight bytes, all context buffers", "why_tests_cant": "Quantifies over all streams, all cuts, all chunkings and all faults together, and compares what a broken run has written with what a complete one writes; tests look at complete runs, and at the error of broken ones.", "anchors": ["examples/dynamodb/src/normal_to_ddb.rs:convert_normal_to_ddb", "examples/dynamodb/src/normal_to_ddb.rs:find_action", "examples/dynamodb/src/normal_to_ddb.rs:find_end_action", "examples/dynamodb/src/normal_to_ddb.rs:on_atom_value_toddb", "scan_json/src/scan.rs:scan", "rjiter/src/rjiter.rs:RJiter::write_long_bytes"]}
{"id": "C94", "title": "Whatever the exit status of ddb_convert is, its output is a beginning of the right output", "statement": "If the input of ddb_convert is a stream of documents or the beginning of one, cut off anywhere (to-ddb: not behind a digit), then whatever the exit status is, and whatever failed, what the tool has added to its output is a beginning of the conversion of the documents: from-ddb of the items as plain JSON, to-ddb of the objects and arrays with their types. If writing fails, to-ddb can add one line feed. (False for to-ddb if the input ends in a number; see C92 and C93.)", "quantifier": "for all streams of documents (from-ddb: items; to-ddb: objects and arrays), all cuts, all chunkings, all read errors (from-ddb), all channels with failing and partial writes and failing flushes, all flags", "why_tests_cant": "Quantifies over every place at which an input can break off together with every point at which a read, a write or a flush can fail, with and without a BufWriter; tests look at the output of runs that succeed.", "anchors": ["examples/dynamodb/src/main.rs:main", "examples/dynamodb/src/main.rs:convert_to_ddb", "examples/dynamodb/src/main.rs:convert_from_ddb", "examples/dynamodb/src/normal_to_ddb.rs:convert_normal_to_ddb", "examples/dynamodb/src/ddb_to_normal.rs:convert_ddb_to_normal", "scan_json/src/scan.rs:scan"]}
{"id": "C95", "title": "The position in an error is a place of the input", "statement": "If scan, idtransform, convert_ddb_to_normal or convert_normal_to_ddb returns an error, then the position in it, if it has one, is not in front of the place where the call began and not behind the end of the input; for an error that is not one of the parser it is where the parser stopped. So is the number in the message `Error at position` of ddb_convert.", "quantifier": "For all inputs, chunkings by a reader that does not fail, buffers of at least eight bytes, context buffers, options and writers; for scan, all callbacks that keep to the input.", "why_tests_cant": "Quantifies over every malformed input, every point of failure and every state of the buffer at that point; tests compare a few positions, and those of the parser only where the buffer was not shifted.", "anchors": ["scan_json/src/scan.rs:scan", "scan_json/src/scan.rs:handle_object", "scan_json/src/scan.rs:handle_array", "rjiter/src/rjiter.rs:loop_until_success", "rjiter/src/rjiter.rs:current_index", "rjiter/src/error.rs:from_jiter_error", "scan_json/src/idtransform.rs:idtransform", "rjiter/src/rjiter.rs:RJiter::write_long_bytes", "examples/dynamodb/src/normal_to_ddb.rs:convert_normal_to_ddb", "examples/dynamodb/src/ddb_to_normal.rs:convert_ddb_to_normal", "examples/dynamodb/src/main.rs:main"]}
{"id": "C96", "title": "What ddb_convert writes to the standard error", "statement": "If the conversion fails, ddb_convert writes exactly one line to the standard error: no control character but the newline at its end, at most 310 bytes and those of one text of jiter or embedded_io, whatever the input contains. The position can be read from it; if the error is one of scan_json, the position in its text is the same number. If the conversion does not fail, nothing is written.", "quantifier": "all inputs, all divisions of the input into reads, all failures of reading and writing, both directions, all options, and all texts of jiter and embedded_io that have no control characters", "why_tests_cant": "Tests look at the error of a few broken documents; the message has bytes of the input in it (the unknown type descriptor), and that none of all inputs can break the line or flood the terminal is not seen from examples.", "anchors": ["examples/dynamodb/src/main.rs:133-136", "examples/dynamodb/src/lib.rs:48-80", "scan_json/src/error.rs:42-69", "rjiter/src/error.rs:34-63", "examples/dynamodb/src/ddb_to_normal.rs:110-127"]}
{"id": "C97", "title": "Nothing is held back", "statement": "Whatever scan reports to its callbacks, and whatever idtransform, convert_ddb_to_normal and convert_normal_to_ddb write and flush, for an input that ends, they report and write also if the reader, asked for more than this input, fails instead. So what can be told from the input that has arrived is told before more is asked for; for complete documents this is all of their events and all of their output.", "quantifier": "all inputs (well-formed or not) that do not end with a digit, all divisions of the input into reads and failures in between, buffers of at least eight bytes, options without SSE tokens, all writers; for scan, all callbacks that leave the parser alone", "why_tests_cant": "A test feeds a finite input and sees the output at its end; that nothing waits for the next read is a statement about two runs, for every place at which the input may pause.", "anchors": ["scan_json/src/scan.rs:scan", "scan_json/src/scan.rs:handle_object", "scan_json/src/scan.rs:handle_array", "rjiter/src/rjiter.rs:loop_until_success", "rjiter/src/rjiter.rs:skip_spaces_feeding", "examples/dynamodb/src/normal_to_ddb.rs:convert_normal_to_ddb", "examples/dynamodb/src/ddb_to_normal.rs:convert_ddb_to_normal", "scan_json/src/idtransform.rs:idtransform"]}
{"id": "C98", "title": "description says where an error is", "statement": "When peek or a call on null, a boolean or a string fails for another reason than the reader, Error::description (and write_description) of the error gives its type, the line of the offending byte (of the last byte read, if the input ends or the buffer is full) and its column.", "quantifier": "all inputs, all divisions into reads, buffers of at least two bytes, all sequences of calls before the failing one that did not fail", "why_tests_cant": "The tests describe one error behind spaces. The line and the column are put together from what was shifted out of the buffer, in an order that depends on the reads, and what is still there; no finite set of cuts covers this.", "anchors": ["rjiter/src/error.rs:description", "rjiter/src/error.rs:write_description", "rjiter/src/error.rs:get_position", "rjiter/src/rjiter.rs:error_position", "rjiter/src/buffer.rs:shift_buffer"]}
{"id": "C99", "title": "A byte that cannot be in a string is reported, also in a long string", "statement": "If the string at the position has a control character or an escape that does not exist in it, behind a well-formed beginning, write_long_bytes and write_long_str return ControlCharacterWhileParsingString or InvalidEscape, at the place of that byte; nothing from there on is consumed, and the position is in front of a quote. (False as it stands: an escape cut by a read can hide the control character; and the place is wrong if the string is not at the start of the buffer.)", "quantifier": "for every string of any length, every division into reads, every buffer of eight bytes or more and every state of it", "why_tests_cant": "A string is copied in segments that depend on the reads; the tests have no broken long string.", "anchors": ["rjiter/src/rjiter.rs:RJiter::write_long_bytes", "rjiter/src/rjiter.rs:RJiter::write_long_str", "rjiter/src/rjiter.rs:RJiter::handle_long"]}
{"id": "C100", "title": "A stream can be read document by document", "statement": "Calling scan with stop_early once per document, on the same RJiter and with the working pool cleared in between, makes the same calls of the callbacks as one scan of the whole stream, and leaves exactly what follows the last document; if a callback fails, the scans stop there, as one scan does. Calling idtransform once per document writes the documents one after the other. (False if the pool is not cleared: scan leaves #top in it. And the copies of numbers run together.)", "quantifier": "for every number of documents of any size and nesting, every division into reads in the situations of C31, any callbacks that do to the parser what they announce", "why_tests_cant": "The tests with stop_early scan one document once; what a scan leaves behind in the parser, the buffer and the pool for the next scan depends on the reads and on all documents before.", "anchors": ["scan_json/src/scan.rs:scan", "scan_json/src/idtransform.rs:idtransform", "u8pool/src/core.rs:clear"]}
{"id": "C101", "title": "A client that picks values out of a stream gets exactly these", "statement": "If find_action selects places by event and path, and the action there calls next_value (or next_skip) on the parser and answers ValueIsConsumed, then scan succeeds and the client gets, one by one and in the order of the stream, the values that stand at the selected places of the documents, with their paths, and nothing else; nothing inside of a selected value is reported, and the whole input is consumed. (False for a selected value that does not fit in the buffer with the byte behind it, and for a value at the very end of the input that arrived in one piece.)", "quantifier": "for every selection, every stream of documents of any size and nesting that ends with space, every division into reads in the situations of C31, selected values that fit in the buffer", "why_tests_cant": "Tests pick one or two values out of fixed inputs; whether the position is right after a picked value depends on what the buffer held when the action was called, on every value before, and on the selection.", "anchors": ["scan_json/src/scan.rs:scan", "rjiter/src/rjiter.rs:next_value", "rjiter/src/rjiter.rs:next_skip"]}
{"id": "C102", "title": "The converter of LLM streams in the README writes the contents", "statement": "scan_llm_output of scan_json/README.md, on a feed of JSON documents with server-sent-event tokens between them, writes the texts of the strings at the keys content, wherever they are, in their order and as they stand in the documents, with the line (new message) in front and a newline behind each value of a key message, and nothing else, and consumes the whole input; strings may be longer than the buffer. (False if a content is not a string: on null it writes ull and the text up to the next quote, then fails.)", "quantifier": "for every feed of documents of any size and nesting, every list of tokens, every division into reads in the situations of C31 and C40", "why_tests_cant": "The documentation test runs two fixed inputs, in one piece and with strings as contents; where the parser stands when the action is called, and behind a string that is longer than the buffer, depends on the reads and on everything before.", "anchors": ["scan_json/README.md:scan_llm_output", "scan_json/src/scan.rs:scan", "rjiter/src/rjiter.rs:write_long_bytes"]}
{"id": "C103", "title": "The README's peek that skips tokens skips exactly the tokens", "statement": "peek_skipping_tokens of rjiter/README.md (and rjiter_test.rs), called where the stream continues with any sequence of the given tokens and whitespace, skips that sequence and nothing more: it returns the first byte of what is behind it, with the parser in front of that byte, or the error of the end of the input if nothing is behind it. Of several tokens that match at a place, the first in the list is taken. (False for tokens longer than the buffer, which are silently not skipped; for an empty token, with which the function never returns; and for I/O errors, which are dropped.)", "quantifier": "for every list of tokens, every text, every division into reads, every buffer at least as long as the longest token", "why_tests_cant": "The one test runs a fixed input in one piece; a token can be cut by a read or by the end of the buffer at any place, and how often the loop turns is not bounded by anything in the code.", "anchors": ["rjiter/README.md:peek_skipping_tokens", "rjiter/src/rjiter.rs:known_skip_token", "rjiter/src/rjiter.rs:peek"]}
{"id": "C104", "title": "A pool holds what its buffer has room for", "statement": "U8Pool::new(buffer, max_slices), followed by pushes of any byte strings, accepts all of them exactly if there are at most max_slices of them and their total length is at most buffer.len() - 4 * max_slices; it then holds them all, in order. (False for buffers with more than 65535 bytes of data: an empty slice behind byte 65535 is refused.)", "quantifier": "for every buffer, every max_slices, every sequence of byte strings", "why_tests_cant": "The tests fill pools of a few fixed sizes; the statement is about every number and size of slices, also empty ones, and says that no byte is lost.", "anchors": ["u8pool/src/core.rs:U8Pool::new", "u8pool/src/core.rs:push", "u8pool/src/slice_descriptor.rs:set"]}
{"id": "C105", "title": "The errors of push_assoc and replace_top_assoc_bytes, and their texts, say what is missing", "statement": "After any history of calls, push_assoc succeeds exactly if there is a slot and the padding to the alignment of the type, the value and the data fit in what is free, and 16 bits suffice; replace_top_assoc_bytes exactly if there is an item that is long enough for the type, and the new data fits in the room behind the value. Otherwise the error is the documented one, with the true numbers. The Display texts of two different errors are different, so that the numbers can be read back.", "quantifier": "for every history of calls, every layout, every value and data", "why_tests_cant": "The tests trigger a few errors and mostly check only that there is an error, not its numbers; padding depends on everything pushed before.", "anchors": ["u8pool/src/core.rs:push_assoc", "u8pool/src/core.rs:replace_top_assoc_bytes", "u8pool/src/core.rs:reserve_aligned_buffer_space", "u8pool/src/error.rs:fmt"]}
{"id": "C106", "title": "An Ok of scan with SSE tokens says that the input is documents and tokens", "statement": "If scan is given SSE tokens and returns Ok, then the whole input is a sequence of documents and tokens with space between them; a token only stands in the place of a document, or of an item of an array that is a document, never inside of an object or a nested array; and the callbacks that were called are exactly, in order and with their paths, those for these documents, with one call for an atom for each token. With stop_early, it is one document or token, and what is behind it is not consumed. (False in three ways: a token that begins with a quote is found in a string that is not closed, and then need not be in the input at all; [data:,] is accepted, a comma in front of the end of the array behind a token; a number that fills the buffer is skipped together with a token directly behind it, as one atom. As in C65, 'document' is meant a bit looser than in JSON.)", "quantifier": "for all inputs, all chunkings, all lists of tokens, all buffers of at least eight bytes, all context stacks, all clients that do not touch the parser", "why_tests_cant": "A token is tried only after the attempt to skip a value has failed and has moved the parser and its buffer; what is in front of the parser then depends on the fill of the buffer. Tests try a few streams with the token data: that are well-formed.", "anchors": ["scan_json/src/scan.rs:scan", "scan_json/src/scan.rs:skip_basic_values", "rjiter/src/rjiter.rs:RJiter::known_skip_token", "rjiter/src/rjiter.rs:RJiter::write_long_bytes", "rjiter/src/rjiter.rs:RJiter::next_number_bytes", "rjiter/src/rjiter.rs:RJiter::known_null", "rjiter/src/rjiter.rs:RJiter::known_bool", "rjiter/src/rjiter.rs:RJiter::array_step"]}
{"id": "C107", "title": "What scan with SSE tokens has reported before an error belongs to the text in front of the error", "statement": "If scan is given SSE tokens and returns an error, then the input starts with complete documents and tokens and the beginning of one more document, and the callbacks that were called are exactly, in order and with their paths, those for the complete documents (one call for an atom for each token) and for what is in front of the stop in the last one. With stop_early there is no complete document and no token in front of it. (False in the ways C106 is: for [data:,] x the end of the array is reported, as if it were a well-formed one.)", "quantifier": "for all inputs, all chunkings, all lists of tokens, all buffers of at least eight bytes, all context stacks, all clients that do not touch the parser, including those whose callbacks fail", "why_tests_cant": "Quantifies over every place where any stream of events can go wrong, together with every cut of the input into reads and every fill of the buffer in front of a token; tests look at streams that are well-formed.", "anchors": ["scan_json/src/scan.rs:scan", "scan_json/src/scan.rs:handle_object", "scan_json/src/scan.rs:handle_array", "scan_json/src/scan.rs:skip_basic_values", "rjiter/src/rjiter.rs:RJiter::known_skip_token", "rjiter/src/rjiter.rs:RJiter::array_step"]}
{"id": "C108", "title": "Not more than a buffer is read in advance", "statement": "At any time the number of bytes taken from the reader is at most the current position plus the length of the buffer; if no call failed, it is also at least the position. This holds for an RJiter after any calls, whatever they returned, and for scan (for a client that uses the parser only by its calls, whenever one of its actions is called), idtransform, convert_normal_to_ddb and convert_ddb_to_normal after any number of turns and whatever they return.", "quantifier": "all inputs (well-formed or not), all divisions into reads, all failures of the reader and the writer, buffers of any length, all sequences of calls, all clients, options and tokens", "why_tests_cant": "Tests look at what is returned and written; how far the reading runs in advance at each point depends on the chunks and on what was shifted out, and a single place where a function reads on without shifting or counting would be seen on long inputs only.", "anchors": ["rjiter/src/rjiter.rs:current_index", "rjiter/src/rjiter.rs:loop_until_success", "rjiter/src/rjiter.rs:RJiter::write_long_bytes", "rjiter/src/buffer.rs:read_more", "rjiter/src/buffer.rs:shift_buffer", "scan_json/src/scan.rs:scan", "scan_json/src/idtransform.rs:idtransform", "examples/dynamodb/src/normal_to_ddb.rs:convert_normal_to_ddb", "examples/dynamodb/src/ddb_to_normal.rs:convert_ddb_to_normal"]}
{"id": "C109", "title": "An answer does not change with what arrives later", "statement": "If a call of RJiter returns Ok(v) and leaves the parser in some state, then it returns Ok(v) and leaves the parser in the same state (up to what the reader has still to give) if the input goes on behind its end, with more data or with a failure of the reader; in particular it has not asked for more than it had. The same holds for write_long_* with what was written, and for sequences of such calls. (False for a number that is the end of the input, which is continued; next_value and next_skip return a complete value only after they have asked for more.)", "quantifier": "all inputs (well-formed or not), all divisions into reads, all failures in between, all continuations, buffers of any length (sequences: at least two bytes), all states of the parser, all calls but finish; numbers and whole values that are not the end of the input; skip_n_bytes and lookahead_n if all bytes are there, lookahead_while if a byte follows that does not match", "why_tests_cant": "A test feeds one input; it would have to be repeated with every continuation of it, and a call that looks too far ahead blocks only with a live source, which tests do not have.", "anchors": ["rjiter/src/rjiter.rs:loop_until_success", "rjiter/src/rjiter.rs:skip_spaces_feeding", "rjiter/src/rjiter.rs:handle_long", "rjiter/src/rjiter.rs:lookahead_n", "rjiter/src/rjiter.rs:lookahead_while", "rjiter/src/rjiter.rs:skip_n_bytes", "rjiter/src/rjiter.rs:known_skip_token", "rjiter/src/buffer.rs:collect_while", "rjiter/src/buffer.rs:collect_count", "rjiter/src/buffer.rs:skip_n"]}
{"id": "C110", "title": "What is reported does not change with what arrives later", "statement": "Whatever scan does to the state of a client for some input, it does for every longer input too, and in the same order; it may then do more. So the callbacks called for an input are the first ones of those called for any continuation of it, whether the continuation is well-formed, broken, or a failure of the reader; and what idtransform or convert_ddb_to_normal has written for an input is the beginning of what it writes for any continuation. Exception: an input that ends with a digit, because a number may go on (negation proved). It is false for convert_normal_to_ddb: a newline is written behind a string that is a document even if the string is not complete, and an incomplete true, false or null is written as a value, again and again (negations proved). With stop_early, an Ok for an input that is not only white space is final: for every continuation scan returns Ok, has called the same callbacks, and has not taken anything of the continuation from the reader.", "quantifier": "all inputs (well-formed or not) that do not end with a digit, all continuations, all divisions into reads, all failures of the reader and the writer, all buffers of at least eight bytes, all context stacks, all clients that do not touch the parser, idtransform, convert_ddb_to_normal (all of its modes), and the command line tool from-ddb with an output that accepts what is written; no SSE tokens", "why_tests_cant": "A test feeds one input and compares with one expected list of calls; here two runs are compared, for every place where any document can be cut, and for everything that can follow the cut.", "anchors": ["scan_json/src/scan.rs:scan", "scan_json/src/scan.rs:handle_object", "scan_json/src/scan.rs:handle_array", "scan_json/src/scan.rs:skip_basic_values", "rjiter/src/rjiter.rs:loop_until_success", "rjiter/src/rjiter.rs:handle_long", "scan_json/src/idtransform.rs:idtransform", "examples/dynamodb/src/ddb_to_normal.rs:convert_ddb_to_normal", "examples/dynamodb/src/normal_to_ddb.rs:on_root_literal", "examples/dynamodb/src/normal_to_ddb.rs:on_bool_value_toddb", "examples/dynamodb/src/main.rs:main"]}
