import Verif.Conform.Basic
import Verif.RJiter.Tokens

/-!
# The tests of `rjiter`

`/repo/rjiter/tests/rjiter_test.rs`, `/repo/rjiter/tests/lookahead_test.rs`, `/repo/rjiter/tests/error_test.rs`.
The model keeps a number as its text, so `NumberInt::Int(42)` is `42` here.
-/

namespace Verif.Conform
open Verif.RJiter

/-- The value is an empty object. -/
def emptyObject : JsonValue → Bool
  | .obj [] => true
  | _ => false

/-- The value is this string. -/
def string (t : Bytes) : JsonValue → Bool
  | .str t' => t' == t
  | _ => false

/-! ## `rjiter_test.rs` -/

-- sanity_check
example : passes (rj (sliceReader (utf8 "{}")) 16) [givesIf (·.nextValue F) emptyObject] = true := by decide +kernel

-- many_known_foo
example : passes (rj (oneByteReader (utf8 "  42  \"hello\"  true  false  null  []  {}")) 10)
    [gives (·.knownInt F 52) (utf8 "42"), gives (·.knownStr F) (utf8 "hello"), gives (·.knownBool F 116) true,
      gives (·.knownBool F 102) false, gives (·.knownNull F) (), gives (·.knownArray F) none,
      gives (·.knownObject F) none, succeeds (·.finish F)] = true := by decide +kernel

/-- The document of `jiter_doc_example`. -/
def docExample : Bytes := utf8 "
    {
        \"name\": \"John Doe\", 
        \"age\": 43,
        \"phones\": [
            \"+44 1234567\",
            \"+44 2345678\"
        ]
    }"

-- jiter_doc_example
example : passes (rj (sliceReader docExample) 16)
    [gives (·.nextObject F) (some (utf8 "name")), gives (·.nextStr F) (utf8 "John Doe"),
      gives (·.nextKey F) (some (utf8 "age")), gives (·.nextInt F) (utf8 "43"),
      gives (·.nextKey F) (some (utf8 "phones")), gives (·.nextArray F) (some 34),
      gives (·.knownStr F) (utf8 "+44 1234567"), gives (·.arrayStep F) (some 34),
      gives (·.knownStr F) (utf8 "+44 2345678"), gives (·.arrayStep F) none, gives (·.nextKey F) none,
      succeeds (·.finish F)] = true := by decide +kernel

/-- The document of `/repo/rjiter/README.md` lines 22-31. -/
def readmeExample : Bytes := utf8 "
{
    \"name\": \"John Doe\", 
    \"age\": 43,
    \"phones\": [
        \"+44 1234567\",
        \"+44 2345678\"
    ]
}"

-- README.md, "the error with a too small buffer": `EofWhileParsingString, index: 79`
example : passes (rj (sliceReader readmeExample) 12)
    [gives (·.nextObject F) (some (utf8 "name")), gives (·.nextStr F) (utf8 "John Doe"),
      gives (·.nextKey F) (some (utf8 "age")), gives (·.nextInt F) (utf8 "43"),
      gives (·.nextKey F) (some (utf8 "phones")), gives (·.nextArray F) (some 34),
      fun s => ((s.knownStr F).1, decide ((s.knownStr F).2 = .err ⟨.json .eofWhileParsingString, 79⟩))] = true := by
  decide +kernel

-- skip_spaces
example : passes (rj (sliceReader (utf8 "               {}")) 16) [givesIf (·.nextValue F) emptyObject] = true := by
  decide +kernel

-- pass_through_small_bytes
example : passes (rj (sliceReader (utf8 "\"small text\"")) 100) [writes (·.writeLongBytes F ·) (utf8 "small text")] = true := by
  decide +kernel

-- pass_through_long_bytes, pass_through_long_string, regression_pass_through_long_string_with_chunk_reader
example : passes (rj (oneByteReader (utf8 "\"very very very long string\"")) 5)
    [writes (·.writeLongBytes F ·) (utf8 "very very very long string")] = true := by decide +kernel
example : passes (rj (oneByteReader (utf8 "\"very very very long string\"")) 5)
    [writes (·.writeLongStr F ·) (utf8 "very very very long string")] = true := by decide +kernel
example : passes (rj (sliceReader (utf8 "\"very very very long string\"")) 5)
    [writes (·.writeLongStr F ·) (utf8 "very very very long string")] = true := by decide +kernel

-- write_long_with_unicode_code_point_on_border
example : (List.range' (utf8 "\"Viele Grüße\"").length 10).all (fun n =>
    passes (rj (oneByteReader (utf8 "\"Viele Grüße\"")) n) [writes (·.writeLongBytes F ·) (utf8 "Viele Grüße")] &&
    passes (rj (oneByteReader (utf8 "\"Viele Grüße\"")) n) [writes (·.writeLongStr F ·) (utf8 "Viele Grüße")]) = true := by
  decide +kernel

-- escapes_in_pass_through_long_bytes
example : (List.range' 9 14).all (fun n =>
    passes (rj (oneByteReader (utf8 "\"escapes X\\n\\\\\\\"\\u0410\"")) n)
      [writes (·.writeLongBytes F ·) (utf8 "escapes X\\n\\\\\\\"\\u0410")]) = true := by decide +kernel

-- pass_through_long_string_with_escapes
example : (List.range' 38 14).all (fun n =>
    passes (rj (oneByteReader (utf8 "\"I'm a very long string with escapes X\\n\\\\\\\"\\u0410\"")) n)
      [writes (·.writeLongStr F ·) (utf8 "I'm a very long string with escapes X\n\\\"\u0410")]) = true := by
  decide +kernel

-- long_write_regression_segment_from_quote, long_write_regression_quote_last_buffer_byte
example : [8, 7].all (fun n => passes (rj (sliceReader (utf8 "      \"bar\" true")) n)
    [fails (·.finish F), writes (·.writeLongBytes F ·) (utf8 "bar"), gives (·.peek F) 116]) = true := by decide +kernel

-- write_long_with_bs_in_first_position
example : passes (rj (sliceReader (utf8 "\"\\\\ how can I help you?\"")) 10)
    [writes (·.writeLongStr F ·) (utf8 "\\ how can I help you?")] = true := by decide +kernel

-- write_long_with_unicode_bs_in_first_position
example : passes (rj (sliceReader (utf8 "\"\\u4F60\\u597d, how can I help you?\"")) 10)
    [writes (·.writeLongStr F ·) (utf8 "\u4F60\u597d, how can I help you?")] = true := by decide +kernel

-- skip_spaces_for_next_key
example : passes (rj (sliceReader (spaces 32 ++ utf8 "," ++ spaces 32 ++ utf8 "\"foo\": \"bar\"")) 10)
    [gives (·.nextKey F) (some (utf8 "foo")), gives (·.nextStr F) (utf8 "bar")] = true := by decide +kernel

-- next_key_from_one_byte_reader
example : passes (rj (oneByteReader (utf8 " , \"foo\": \"bar\"}")) 10)
    [gives (·.nextKey F) (some (utf8 "foo")), gives (·.nextStr F) (utf8 "bar")] = true := by decide +kernel

-- next_str_with_spaces_one_byte_reader
example : passes (rj (oneByteReader (spaces 32 ++ utf8 "\"hello\"")) 10) [gives (·.nextStr F) (utf8 "hello")] = true := by
  decide +kernel

-- finish_yes_when_in_buffer, finish_no_when_in_buffer, finish_yes_when_need_feed, finish_no_when_need_feed
example : passes (rj (sliceReader (utf8 "  \n\t  ")) 10) [succeeds (·.finish F)] = true := by decide +kernel
example : passes (rj (sliceReader (utf8 "    x")) 10) [fails (·.finish F)] = true := by decide +kernel
example : passes (rj (oneByteReader (spaces 32)) 10) [succeeds (·.finish F)] = true := by decide +kernel
example : passes (rj (oneByteReader (spaces 32 ++ utf8 "42")) 10) [fails (·.finish F)] = true := by decide +kernel

-- handle_buffer_end_pos_in_finish
example : passes (rj (sliceReader (utf8 "true  }  false")) 7)
    [gives (·.nextBool F) true, gives (·.nextKey F) none, index 7, fails (·.finish F)] = true := by decide +kernel

-- current_index
example : (List.range' 8 20).all (fun n => passes (rj (sliceReader (utf8 " data+   {  \"foo\":  \"bar\"}  ")) n)
    [fails (·.finish F), index 1, succeeds (·.knownSkipToken F (utf8 "data+")), index 6,
      gives (·.nextObject F) (some (utf8 "foo")), index 18, gives (·.peek F) 34, index 20,
      writes (·.writeLongStr F ·) (utf8 "bar"), index 25, gives (·.nextKey F) none, index 26,
      succeeds (·.finish F), index 28]) = true := by decide +kernel

-- regression_next_value_empty_object_with_extra_bracket
example : passes (rj (sliceReader (utf8 "{}}")) 16) [givesIf (·.nextValue F) emptyObject] = true := by decide +kernel

-- regression_oversize_string_with_long_unicode_code_point
example : passes (rj (sliceReader (utf8 "\"AAA\\n├AAAAAAAAAAAAAAAAAAAAAAAAAAAAAAAAA\"")) 16)
    [writes (·.writeLongStr F ·) (utf8 "AAA\n\u251cAAAAAAAAAAAAAAAAAAAAAAAAAAAAAAAAA")] = true := by decide +kernel

-- regression_long_writer_search_escape_in_nbytes, regression_long_writer_search_escape_in_nbytes_2
example : passes (.new (chunkReader 64 (utf8 "\"123@456\"")) (utf8 "AAAAAA\\n"))
    [writes (·.writeLongStr F ·) (utf8 "123456")] = true := by decide +kernel
example : passes (.new (oneByteReader (utf8 "\"123456\"")) (utf8 "\"*\\n****"))
    [writes (·.writeLongStr F ·) (utf8 "123456")] = true := by decide +kernel

/-! The tests "auto-generated from a template": 32 spaces before the value, one byte at a time, ten bytes of buffer. -/

/-- The `RJiter` of these tests. -/
def padded (t : String) : RJ := rj (oneByteReader (spaces 32 ++ utf8 t)) 10

-- peek, next_null, known_null, next_bool, known_bool
example : passes (padded "\"hello\"") [gives (·.peek F) 34] = true := by decide +kernel
example : passes (padded "null") [succeeds (·.nextNull F)] = true := by decide +kernel
example : passes (padded "null") [gives (·.peek F) 110, succeeds (·.knownNull F)] = true := by decide +kernel
example : passes (padded "true") [gives (·.nextBool F) true] = true := by decide +kernel
example : passes (padded "false") [gives (·.peek F) 102, gives (·.knownBool F 102) false] = true := by decide +kernel

-- next_number, known_number, next_int, known_int, next_float, known_float, next_number_bytes
example : passes (padded "123.45") [gives (·.nextNumber F) (utf8 "123.45")] = true := by decide +kernel
example : passes (padded "123.45") [gives (·.peek F) 49, gives (·.knownNumber F 49) (utf8 "123.45")] = true := by decide +kernel
example : passes (padded "42") [gives (·.nextInt F) (utf8 "42")] = true := by decide +kernel
example : passes (padded "42") [gives (·.peek F) 52, gives (·.knownInt F 52) (utf8 "42")] = true := by decide +kernel
example : passes (padded "3.14") [gives (·.nextFloat F) (utf8 "3.14")] = true := by decide +kernel
example : passes (padded "3.14") [gives (·.peek F) 51, gives (·.knownFloat F 51) (utf8 "3.14")] = true := by decide +kernel
example : passes (padded "123.45") [gives (·.nextNumberBytes F) (utf8 "123.45")] = true := by decide +kernel

-- next_str, known_str, next_bytes, known_bytes
example : passes (padded "\"hello\"") [gives (·.nextStr F) (utf8 "hello")] = true := by decide +kernel
example : passes (padded "\"hello\"") [called (·.finish F), gives (·.knownStr F) (utf8 "hello")] = true := by decide +kernel
example : passes (padded "\"hello\"") [gives (·.nextBytes F) (utf8 "hello")] = true := by decide +kernel
example : passes (padded "\"hello\"") [called (·.finish F), gives (·.knownBytes F) (utf8 "hello")] = true := by decide +kernel

-- next_value, known_value (also next_value_owned, known_value_owned: the model does not distinguish them)
example : passes (padded "\"hello\"") [givesIf (·.nextValue F) (string (utf8 "hello"))] = true := by decide +kernel
example : passes (padded "\"hello\"") [gives (·.peek F) 34, givesIf (·.knownValue F 34) (string (utf8 "hello"))] = true := by
  decide +kernel

-- next_skip, known_skip
example : passes (padded "\"hello\"  42") [succeeds (·.nextSkip F), gives (·.nextNumber F) (utf8 "42")] = true := by decide +kernel
example : passes (padded "\"hello\"  42")
    [gives (·.peek F) 34, succeeds (·.knownSkip F 34), gives (·.nextNumber F) (utf8 "42")] = true := by decide +kernel

-- next_array, known_array, array_step
example : passes (rj (oneByteReader (spaces 32 ++ utf8 "[" ++ spaces 32 ++ utf8 "false" ++ spaces 32 ++ utf8 ", 2, 3]")) 10)
    [gives (·.nextArray F) (some 102)] = true := by decide +kernel
example : passes (rj (oneByteReader (spaces 32 ++ utf8 "[" ++ spaces 32 ++ utf8 "\"hello\"" ++ spaces 32 ++ utf8 ", 2, 3]")) 10)
    [called (·.finish F), gives (·.knownArray F) (some 34)] = true := by decide +kernel
example : passes (rj (oneByteReader (spaces 32 ++ utf8 "," ++ spaces 33 ++ utf8 "true" ++ spaces 32 ++ utf8 ", 3]")) 10)
    [gives (·.arrayStep F) (some 116)] = true := by decide +kernel

-- next_object, known_object, next_object_bytes, next_key_bytes
example : passes (rj (oneByteReader (spaces 32 ++ utf8 "{" ++ spaces 32 ++ utf8 "\"key\": \"value\"}")) 10)
    [gives (·.nextObject F) (some (utf8 "key"))] = true := by decide +kernel
example : passes (rj (oneByteReader (spaces 32 ++ utf8 "{" ++ spaces 32 ++ utf8 "\"key\": \"value\"}")) 10)
    [called (·.finish F), gives (·.knownObject F) (some (utf8 "key"))] = true := by decide +kernel
example : passes (rj (oneByteReader (spaces 32 ++ utf8 "{" ++ spaces 32 ++ utf8 "\"key\": \"value\"}")) 10)
    [gives (·.nextObjectBytes F) (some (utf8 "key"))] = true := by decide +kernel
example : passes (rj (oneByteReader (spaces 32 ++ utf8 "," ++ spaces 32 ++ utf8 "\"key\": \"value\"}")) 10)
    [gives (·.nextKeyBytes F) (some (utf8 "key"))] = true := by decide +kernel

/-! ## `lookahead_test.rs` -/

/-- `u8::is_ascii_digit` -/
def digit (c : Byte) : Bool := 48 ≤ c && c ≤ 57

-- skip_tokens_example_for_readme
example : passes (rj (sliceReader (utf8 "\n        event: ping\n        data: {\"type\": \"ping\"}\n    ")) 10)
    [gives (peekSkippingTokens F [utf8 "data:", utf8 "event:", utf8 "ping"] 20) 123,
      gives (·.nextObject F) (some (utf8 "type"))] = true := by decide +kernel

-- known_skip_token
example : (List.range' 6 9).all (fun n => passes (rj (sliceReader (utf8 "      trux true")) n)
    [called (·.peek F), succeeds (·.knownSkipToken F (utf8 "trux")), gives (·.peek F) 116,
      fails (·.knownSkipToken F (utf8 "trux")), gives (·.nextBool F) true]) = true := by decide +kernel

-- test_lookahead_while_without_shift
example : passes (rj (sliceReader (utf8 "12345abc")) 16)
    [index 0, gives (·.lookaheadWhile F digit) (utf8 "12345"), index 0, gives (·.peek F) 49, index 0] = true := by decide +kernel

-- test_lookahead_while_with_shift
example : passes (rj (sliceReader (utf8 "   12345abc")) 16)
    [called (·.peek F), index 3, gives (·.lookaheadWhile F digit) (utf8 "12345"), index 3, gives (·.peek F) 49, index 3] = true := by
  decide +kernel

-- test_lookahead_while_buffer_full
example : passes (rj (sliceReader (utf8 "123456789012345678901234567890abc")) 4)
    [failsWith (·.lookaheadWhile F digit) .bufferFull] = true := by decide +kernel

-- test_lookahead_while_with_buffer_read
example : passes (rj (oneByteReader (utf8 "{\"key\":\"value\",\"num\":12345}")) 20)
    [gives (·.nextObject F) (some (utf8 "key")), gives (·.nextStr F) (utf8 "value"), gives (·.nextKey F) (some (utf8 "num")),
      index 21, gives (·.lookaheadWhile F digit) (utf8 "12345"), index 21, gives (·.nextInt F) (utf8 "12345")] = true := by
  decide +kernel

-- test_lookahead_n_*: normal_get, buffer_too_small, eof_less_than_n, shift_in_collect, read_in_collect,
-- after_consume, zero_bytes, multiple_sizes, one_byte_reader, exact_buffer_size
example : passes (rj (sliceReader (utf8 "1234567890abcdef")) 32)
    [gives (·.lookaheadN F 5) (utf8 "12345"), gives (·.lookaheadN F 3) (utf8 "123"),
      gives (·.lookaheadN F 10) (utf8 "1234567890")] = true := by decide +kernel
example : passes (rj (sliceReader (utf8 "1234567890abcdef")) 8) [failsWith (·.lookaheadN F 20) .bufferFull] = true := by
  decide +kernel
example : passes (rj (sliceReader (utf8 "12345")) 32) [gives (·.lookaheadN F 10) (utf8 "12345")] = true := by decide +kernel
example : passes (rj (oneByteReader (utf8 "false1234567890abcdefghij")) 12)
    [gives (·.nextBool F) false, gives (·.lookaheadN F 8) (utf8 "12345678")] = true := by decide +kernel
example : passes (rj (chunkReader 102 (utf8 "1234567890abcdefghijklmnop")) 32)
    [gives (·.lookaheadN F 15) (utf8 "1234567890abcde")] = true := by decide +kernel
example : passes (rj (sliceReader (utf8 "{\"key\":\"value\"}")) 32)
    [gives (·.nextObject F) (some (utf8 "key")), gives (·.lookaheadN F 7) (utf8 "\"value\"")] = true := by decide +kernel
example : passes (rj (sliceReader (utf8 "1234567890")) 16) [gives (·.lookaheadN F 0) []] = true := by decide +kernel
example : passes (rj (sliceReader (utf8 "abcdefghijklmnop")) 32)
    [gives (·.lookaheadN F 3) (utf8 "abc"), gives (·.lookaheadN F 7) (utf8 "abcdefg"), gives (·.lookaheadN F 2) (utf8 "ab")] = true := by
  decide +kernel
example : passes (rj (oneByteReader (utf8 "The quick brown fox")) 32) [gives (·.lookaheadN F 10) (utf8 "The quick ")] = true := by
  decide +kernel
example : passes (rj (sliceReader (utf8 "1234567890abcdefghij")) 10) [gives (·.lookaheadN F 10) (utf8 "1234567890")] = true := by
  decide +kernel

-- test_skip_n_bytes_*: no_read_no_shift, read_no_shift, read_and_shift, eof, zero, after_consume, small_buffer
example : passes (rj (sliceReader (utf8 "1234567890abcdef")) 32)
    [index 0, gives (·.skipNBytes F 5) 5, index 5, gives (·.peek F) 54, gives (·.skipNBytes F 3) 3, index 8, gives (·.peek F) 57] = true := by
  decide +kernel
example : passes (rj (oneByteReader (utf8 "1234567890abcdefghij")) 32)
    [index 0, gives (·.skipNBytes F 10) 10, index 10, gives (·.peek F) 97] = true := by decide +kernel
example : passes (rj (oneByteReader (utf8 "false1234567890abcdefghij")) 12)
    [gives (·.nextBool F) false, index 5, gives (·.skipNBytes F 8) 8, index 13, gives (·.peek F) 57] = true := by decide +kernel
example : passes (rj (sliceReader (utf8 "12345")) 32) [gives (·.skipNBytes F 10) 5, index 5] = true := by decide +kernel
example : passes (rj (sliceReader (utf8 "1234567890")) 16) [index 0, gives (·.skipNBytes F 0) 0, index 0] = true := by decide +kernel
example : passes (rj (sliceReader (utf8 "{\"key\":\"value\"}")) 32)
    [gives (·.nextObject F) (some (utf8 "key")), index 7, gives (·.skipNBytes F 7) 7, index 14] = true := by decide +kernel
example : passes (rj (sliceReader (utf8 "1234567890abcdefghijklmnopqrstuvwxyz")) 8)
    [gives (·.skipNBytes F 20) 20, index 20, gives (·.peek F) 107, gives (·.skipNBytes F 10) 10, index 30, gives (·.peek F) 117] = true := by
  decide +kernel

/-! ## `error_test.rs`; the texts of the errors are in `Verif.Ddb.Describe` -/

-- index_in_error
example : passes (rj (sliceReader (spaces 32 ++ utf8 "\"hello\"")) 16) [failsAt (·.nextBool F) 32] = true := by decide +kernel

-- position_for_error, display_of_error
example : passes (rj (sliceReader (utf8 "\n \n  \n   \n    \n      \n   null null")) 10)
    [failsAt (·.nextStr F) 25, fun s => (s, s.errorPosition 25 == some (7, 4))] = true := by decide +kernel

end Verif.Conform
