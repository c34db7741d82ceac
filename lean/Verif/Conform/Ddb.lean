import Verif.Conform.Basic
import Verif.Ddb.ToDdb
import Verif.Ddb.ToNormal

/-!
# The tests of the DynamoDB converter

`toddb_tests.rs`, `fromddb_tests.rs`, `fromddb_invalid_tests.rs` and `nesting_tests.rs` of
`/repo/examples/dynamodb/tests`. The buffers are those of the tests (4096 and 2048 bytes), which is too much for
the kernel: all tests are `#guard`s. The tests of invalid input look for words in the `Debug` text of the error;
here the words are looked up in the context string, or the message of the action, that is part of it.
-/

namespace Verif.Conform
open Verif.RJiter Verif.Ddb

/-- `convert_to_ddb_test`, `toddb_tests.rs` lines 1-33: what is written, if the conversion succeeds. -/
def toDdb (input : String) (wrapper : Bool) (pretty : Bool := false) : Option Bytes :=
  match convertNormalToDdb 100000 100000 (sliceReader (utf8 input)) ⟨⟨[], []⟩, []⟩ (List.replicate 4096 0)
      (List.replicate 2048 0) pretty false wrapper with
  | (b, .ok) => some b.d.w.out
  | _ => none

/-- `convert_test`, `fromddb_tests.rs` lines 1-38: what is written, if the conversion succeeds. -/
def fromDdb (input : String) (asWrapper : Bool := true) (pretty : Bool := false) : Option Bytes :=
  match convertDdbToNormal 100000 100000 (sliceReader (utf8 input)) ⟨⟨[], []⟩, []⟩ (List.replicate 4096 0)
      (List.replicate 2048 0) pretty false asWrapper with
  | (b, .ok) => some b.d.w.out
  | _ => none

/-- Whether one of the words is in the text. -/
def mentions (words : List String) (text : String) : Bool := words.any fun w => (text.splitOn w).length > 1

/-- `convert_test_expect_error`, `fromddb_invalid_tests.rs` lines 4-22, with the check of the text. -/
def rejected (input : String) (words : List String) : Bool :=
  match convertDdbToNormal 100000 100000 (sliceReader (utf8 input)) ⟨⟨[], []⟩, []⟩ (List.replicate 4096 0)
      (List.replicate 2048 0) false false true with
  | (_, .err (.parse text _) _) => mentions words text
  | (_, .err (.scan (.action text _)) _) => mentions words text
  | _ => false

/-- A conversion there and back. -/
def thereAndBack (input : String) : Option Bytes :=
  match toDdb input true with
  | some bs => fromDdb (String.ofList (bs.map fun b => Char.ofNat b.toNat))
  | none => none

/-! ## `toddb_tests.rs` -/

-- test_to_ddb_string
#guard toDdb "{\"name\": \"Alice\"}" true == some (utf8 "{\"Item\":{\"name\":{\"S\":\"Alice\"}}}\n")
-- test_to_ddb_number_integer
#guard toDdb "{\"age\": 42}" true == some (utf8 "{\"Item\":{\"age\":{\"N\":\"42\"}}}\n")
-- test_to_ddb_number_float
#guard toDdb "{\"price\": 3.14159}" true == some (utf8 "{\"Item\":{\"price\":{\"N\":\"3.14159\"}}}\n")
-- test_to_ddb_boolean_true
#guard toDdb "{\"active\": true}" true == some (utf8 "{\"Item\":{\"active\":{\"BOOL\":true}}}\n")
-- test_to_ddb_boolean_false
#guard toDdb "{\"inactive\": false}" true == some (utf8 "{\"Item\":{\"inactive\":{\"BOOL\":false}}}\n")
-- test_to_ddb_null
#guard toDdb "{\"empty\": null}" true == some (utf8 "{\"Item\":{\"empty\":{\"NULL\":true}}}\n")
-- test_to_ddb_array_strings
#guard toDdb "{\"tags\": [\"apple\", \"banana\", \"cherry\"]}" true == some (utf8 "{\"Item\":{\"tags\":{\"L\":[{\"S\":\"apple\"},{\"S\":\"banana\"},{\"S\":\"cherry\"}]}}}\n")
-- test_to_ddb_array_numbers
#guard toDdb "{\"scores\": [1, 2, 3, 5, 8]}" true == some (utf8 "{\"Item\":{\"scores\":{\"L\":[{\"N\":\"1\"},{\"N\":\"2\"},{\"N\":\"3\"},{\"N\":\"5\"},{\"N\":\"8\"}]}}}\n")
-- test_to_ddb_array_mixed
#guard toDdb "{\"items\": [\"string\", 123, true, null]}" true == some (utf8 "{\"Item\":{\"items\":{\"L\":[{\"S\":\"string\"},{\"N\":\"123\"},{\"BOOL\":true},{\"NULL\":true}]}}}\n")
-- test_to_ddb_empty_array
#guard toDdb "{\"empty\": []}" true == some (utf8 "{\"Item\":{\"empty\":{\"L\":[]}}}\n")
-- test_to_ddb_nested_object
#guard toDdb "{\"metadata\": {\"key1\": \"value1\", \"key2\": 999}}" true == some (utf8 "{\"Item\":{\"metadata\":{\"M\":{\"key1\":{\"S\":\"value1\"},\"key2\":{\"N\":\"999\"}}}}}\n")
-- test_to_ddb_empty_object
#guard toDdb "{\"empty\": {}}" true == some (utf8 "{\"Item\":{\"empty\":{\"M\":{}}}}\n")
-- test_to_ddb_nested_arrays
#guard toDdb "{\"nested\": [[\"a\", \"b\"], [1, 2]]}" true == some (utf8 "{\"Item\":{\"nested\":{\"L\":[{\"L\":[{\"S\":\"a\"},{\"S\":\"b\"}]},{\"L\":[{\"N\":\"1\"},{\"N\":\"2\"}]}]}}}\n")
-- test_to_ddb_array_with_objects
#guard toDdb "{\"users\": [{\"name\": \"Alice\", \"age\": 30}, {\"name\": \"Bob\", \"age\": 25}]}" true == some (utf8 "{\"Item\":{\"users\":{\"L\":[{\"M\":{\"name\":{\"S\":\"Alice\"},\"age\":{\"N\":\"30\"}}},{\"M\":{\"name\":{\"S\":\"Bob\"},\"age\":{\"N\":\"25\"}}}]}}}\n")
-- test_to_ddb_deeply_nested
#guard toDdb "{\"outer\": {\"inner\": {\"deep\": \"nested\"}}}" true == some (utf8 "{\"Item\":{\"outer\":{\"M\":{\"inner\":{\"M\":{\"deep\":{\"S\":\"nested\"}}}}}}}\n")
-- test_to_ddb_multiple_fields
#guard toDdb "{\"name\": \"Bob\", \"age\": 30, \"active\": true}" true == some (utf8 "{\"Item\":{\"name\":{\"S\":\"Bob\"},\"age\":{\"N\":\"30\"},\"active\":{\"BOOL\":true}}}\n")
-- test_to_ddb_all_types
#guard toDdb "{\"id\": \"test-001\", \"count\": 42, \"enabled\": false, \"nothing\": null, \"tags\": [\"tag1\", \"tag2\"]}" true == some (utf8 "{\"Item\":{\"id\":{\"S\":\"test-001\"},\"count\":{\"N\":\"42\"},\"enabled\":{\"BOOL\":false},\"nothing\":{\"NULL\":true},\"tags\":{\"L\":[{\"S\":\"tag1\"},{\"S\":\"tag2\"}]}}}\n")
-- test_to_ddb_without_item_wrapper
#guard toDdb "{\"name\": \"Alice\", \"age\": 30}" false == some (utf8 "{\"name\":{\"S\":\"Alice\"},\"age\":{\"N\":\"30\"}}\n")
-- test_to_ddb_special_characters
#guard toDdb "{\"message\": \"Hello \\\"World\\\"!\\nNew line\\tTab\"}" true == some (utf8 "{\"Item\":{\"message\":{\"S\":\"Hello \\\"World\\\"!\\nNew line\\tTab\"}}}\n")
-- test_to_ddb_unicode
#guard toDdb "{\"emoji\": \"🚀 Hello 世界\"}" true == some (utf8 "{\"Item\":{\"emoji\":{\"S\":\"🚀 Hello 世界\"}}}\n")
-- test_to_ddb_empty_string
#guard toDdb "{\"empty\": \"\"}" true == some (utf8 "{\"Item\":{\"empty\":{\"S\":\"\"}}}\n")
-- test_to_ddb_zero_number
#guard toDdb "{\"zero\": 0}" true == some (utf8 "{\"Item\":{\"zero\":{\"N\":\"0\"}}}\n")
-- test_to_ddb_negative_number
#guard toDdb "{\"temp\": -273.15}" true == some (utf8 "{\"Item\":{\"temp\":{\"N\":\"-273.15\"}}}\n")
-- test_to_ddb_large_number
#guard toDdb "{\"bigNum\": 123456789012345678901234567890}" true == some (utf8 "{\"Item\":{\"bigNum\":{\"N\":\"123456789012345678901234567890\"}}}\n")
-- test_to_ddb_nested_object_pretty_indentation
#guard toDdb "{\"name\":\"Test\",\"settings\":{\"theme\":\"dark\",\"notifications\":{\"email\":true,\"push\":false}}}" true true == some (utf8 "{\n  \"Item\":{\n    \"name\":{\n      \"S\":\"Test\"\n    },\n    \"settings\":{\n      \"M\":{\n        \"theme\":{\n          \"S\":\"dark\"\n        },\n        \"notifications\":{\n          \"M\":{\n            \"email\":{\n              \"BOOL\":true\n            },\n            \"push\":{\n              \"BOOL\":false\n            }\n          }\n        }\n      }\n    }\n  }\n}\n")
-- test_roundtrip_int_like_float
#guard thereAndBack "{\"value\": 4.0}" == some (utf8 "{\"value\":4.0}\n")
-- test_roundtrip_various_int_like_floats
#guard thereAndBack "{\"val\": 1.0}" == some (utf8 "{\"val\":1.0}\n")
-- test_roundtrip_various_int_like_floats
#guard thereAndBack "{\"val\": 0.0}" == some (utf8 "{\"val\":0.0}\n")
-- test_roundtrip_various_int_like_floats
#guard thereAndBack "{\"val\": -5.0}" == some (utf8 "{\"val\":-5.0}\n")
-- test_roundtrip_various_int_like_floats
#guard thereAndBack "{\"val\": 100.0}" == some (utf8 "{\"val\":100.0}\n")
-- test_to_ddb_root_string
#guard toDdb "\"hello world\"" false == some (utf8 "{\"S\":\"hello world\"}\n")
-- test_to_ddb_root_number_integer
#guard toDdb "42\n" false == some (utf8 "{\"N\":\"42\"}\n")
-- test_to_ddb_root_number_float
#guard toDdb "3.14159\n" false == some (utf8 "{\"N\":\"3.14159\"}\n")
-- test_to_ddb_root_boolean_true
#guard toDdb "true" false == some (utf8 "{\"BOOL\":true}\n")
-- test_to_ddb_root_boolean_false
#guard toDdb "false" false == some (utf8 "{\"BOOL\":false}\n")
-- test_to_ddb_root_null
#guard toDdb "null" false == some (utf8 "{\"NULL\":true}\n")
-- test_to_ddb_root_array_simple
#guard toDdb "[\"a\", \"b\", \"c\"]" false == some (utf8 "{\"L\":[{\"S\":\"a\"},{\"S\":\"b\"},{\"S\":\"c\"}]}\n")
-- test_to_ddb_root_array_mixed
#guard toDdb "[\"string\", 123, true, null]" false == some (utf8 "{\"L\":[{\"S\":\"string\"},{\"N\":\"123\"},{\"BOOL\":true},{\"NULL\":true}]}\n")
-- test_to_ddb_root_array_nested
#guard toDdb "[[\"a\", \"b\"], [1, 2]]" false == some (utf8 "{\"L\":[{\"L\":[{\"S\":\"a\"},{\"S\":\"b\"}]},{\"L\":[{\"N\":\"1\"},{\"N\":\"2\"}]}]}\n")
-- test_to_ddb_root_array_with_objects
#guard toDdb "[{\"name\": \"Alice\"}, {\"name\": \"Bob\"}]" false == some (utf8 "{\"L\":[{\"M\":{\"name\":{\"S\":\"Alice\"}}},{\"M\":{\"name\":{\"S\":\"Bob\"}}}]}\n")
-- test_to_ddb_root_empty_array
#guard toDdb "[]" false == some (utf8 "{\"L\":[]}\n")
-- test_to_ddb_root_string_with_item_wrapper
#guard toDdb "\"hello\"" true == some (utf8 "{\"S\":\"hello\"}\n")
-- test_to_ddb_root_array_with_item_wrapper
#guard toDdb "[1, 2, 3]" true == some (utf8 "{\"L\":[{\"N\":\"1\"},{\"N\":\"2\"},{\"N\":\"3\"}]}\n")

/-! ## `fromddb_tests.rs` -/

-- test_string_type
#guard fromDdb "{\"Item\":{\"name\": {\"S\": \"Alice\"}}}" == some (utf8 "{\"name\":\"Alice\"}\n")
-- test_number_type
#guard fromDdb "{\"Item\":{\"age\": {\"N\": \"42\"}}}" == some (utf8 "{\"age\":42}\n")
-- test_number_decimal
#guard fromDdb "{\"Item\":{\"price\": {\"N\": \"3.14159\"}}}" == some (utf8 "{\"price\":3.14159}\n")
-- test_boolean_true
#guard fromDdb "{\"Item\":{\"active\": {\"BOOL\": true}}}" == some (utf8 "{\"active\":true}\n")
-- test_boolean_false
#guard fromDdb "{\"Item\":{\"inactive\": {\"BOOL\": false}}}" == some (utf8 "{\"inactive\":false}\n")
-- test_null_type
#guard fromDdb "{\"Item\":{\"empty\": {\"NULL\": true}}}" == some (utf8 "{\"empty\":null}\n")
-- test_string_set
#guard fromDdb "{\"Item\":{\"tags\": {\"SS\": [\"apple\", \"banana\", \"cherry\"]}}}" == some (utf8 "{\"tags\":[\"apple\",\"banana\",\"cherry\"]}\n")
-- test_number_set
#guard fromDdb "{\"Item\":{\"scores\": {\"NS\": [\"1\", \"2\", \"3\", \"5\", \"8\"]}}}" == some (utf8 "{\"scores\":[1,2,3,5,8]}\n")
-- test_binary_type
#guard fromDdb "{\"Item\":{\"data\": {\"B\": \"VGhpcyBpcyBiYXNlNjQ=\"}}}" == some (utf8 "{\"data\":\"VGhpcyBpcyBiYXNlNjQ=\"}\n")
-- test_binary_set
#guard fromDdb "{\"Item\":{\"binaries\": {\"BS\": [\"Zmlyc3Q=\", \"c2Vjb25k\", \"dGhpcmQ=\"]}}}" == some (utf8 "{\"binaries\":[\"Zmlyc3Q=\",\"c2Vjb25k\",\"dGhpcmQ=\"]}\n")
-- test_list_type
#guard fromDdb "{\"Item\":{\"items\": {\"L\": [{\"S\": \"string\"}, {\"N\": \"123\"}, {\"BOOL\": true}]}}}" == some (utf8 "{\"items\":[\"string\",123,true]}\n")
-- test_list_with_maps
#guard fromDdb "{\"Item\":{\"users\": {\"L\": [{\"M\": {\"name\": {\"S\": \"Alice\"}, \"age\": {\"N\": \"30\"}}}, {\"M\": {\"name\": {\"S\": \"Bob\"}, \"age\": {\"N\": \"25\"}}}]}}}" == some (utf8 "{\"users\":[{\"name\":\"Alice\",\"age\":30},{\"name\":\"Bob\",\"age\":25}]}\n")
-- test_nested_lists
#guard fromDdb "{\"Item\":{\"nested\": {\"L\": [{\"L\": [{\"S\": \"a\"}, {\"S\": \"b\"}]}, {\"L\": [{\"N\": \"1\"}, {\"N\": \"2\"}]}]}}}" == some (utf8 "{\"nested\":[[\"a\",\"b\"],[1,2]]}\n")
-- test_empty_list
#guard fromDdb "{\"Item\":{\"empty\": {\"L\": []}}}" == some (utf8 "{\"empty\":[]}\n")
-- test_map_type
#guard fromDdb "{\"Item\":{\"metadata\": {\"M\": {\"key1\": {\"S\": \"value1\"}, \"key2\": {\"N\": \"999\"}}}}}" == some (utf8 "{\"metadata\":{\"key1\":\"value1\",\"key2\":999}}\n")
-- test_nested_map
#guard fromDdb "{\"Item\":{\"outer\": {\"M\": {\"inner\": {\"M\": {\"deep\": {\"S\": \"nested\"}}}}}}}" == some (utf8 "{\"outer\":{\"inner\":{\"deep\":\"nested\"}}}\n")
-- test_map_with_mixed_types
#guard fromDdb "{\"Item\":{\"data\": {\"M\": {\"str\": {\"S\": \"hello\"}, \"num\": {\"N\": \"123\"}, \"bool\": {\"BOOL\": true}, \"null\": {\"NULL\": true}}}}}" == some (utf8 "{\"data\":{\"str\":\"hello\",\"num\":123,\"bool\":true,\"null\":null}}\n")
-- test_empty_map
#guard fromDdb "{\"Item\":{\"empty\": {\"M\": {}}}}" == some (utf8 "{\"empty\":{}}\n")
-- test_multiple_fields
#guard fromDdb "{\"Item\":{\"name\": {\"S\": \"Bob\"}, \"age\": {\"N\": \"30\"}, \"active\": {\"BOOL\": true}}}" == some (utf8 "{\"name\":\"Bob\",\"age\":30,\"active\":true}\n")
-- test_mixed_types
#guard fromDdb "{\"Item\":{\n        \"id\":{\"S\": \"test-001\"},\n        \"count\":{\"N\": \"42\"},\n        \"enabled\":{\"BOOL\": false},\n        \"nothing\":{\"NULL\": true},\n        \"tags\":{\"SS\": [\"tag1\", \"tag2\"]}\n    }}" == some (utf8 "{\"id\":\"test-001\",\"count\":42,\"enabled\":false,\"nothing\":null,\"tags\":[\"tag1\",\"tag2\"]}\n")
-- test_empty_string_set
#guard fromDdb "{\"Item\":{\"tags\": {\"SS\": []}}}" == some (utf8 "{\"tags\":[]}\n")
-- test_empty_number_set
#guard fromDdb "{\"Item\":{\"numbers\": {\"NS\": []}}}" == some (utf8 "{\"numbers\":[]}\n")
-- test_empty_binary_set
#guard fromDdb "{\"Item\":{\"binaries\": {\"BS\": []}}}" == some (utf8 "{\"binaries\":[]}\n")
-- test_large_number
#guard fromDdb "{\"Item\":{\"bigNum\": {\"N\": \"123456789012345678901234567890\"}}}" == some (utf8 "{\"bigNum\":123456789012345678901234567890}\n")
-- test_negative_number
#guard fromDdb "{\"Item\":{\"temp\": {\"N\": \"-273.15\"}}}" == some (utf8 "{\"temp\":-273.15}\n")
-- test_special_characters_in_string
#guard fromDdb "{\"Item\":{\"message\": {\"S\": \"Hello \\\"World\\\"!\\nNew line\\tTab\"}}}" == some (utf8 "{\"message\":\"Hello \\\"World\\\"!\\nNew line\\tTab\"}\n")
-- test_unicode_in_string
#guard fromDdb "{\"Item\":{\"emoji\": {\"S\": \"🚀 Hello 世界\"}}}" == some (utf8 "{\"emoji\":\"🚀 Hello 世界\"}\n")
-- test_empty_string
#guard fromDdb "{\"Item\":{\"empty\": {\"S\": \"\"}}}" == some (utf8 "{\"empty\":\"\"}\n")
-- test_zero_number
#guard fromDdb "{\"Item\":{\"zero\": {\"N\": \"0\"}}}" == some (utf8 "{\"zero\":0}\n")
-- test_field_named_m_inside_m
#guard fromDdb "{\"Item\":{\"data\": {\"M\": {\"M\": {\"S\": \"value\"}}}}}" == some (utf8 "{\"data\":{\"M\":\"value\"}}\n")
-- test_field_named_l_inside_m
#guard fromDdb "{\"Item\":{\"data\": {\"M\": {\"L\": {\"S\": \"value\"}}}}}" == some (utf8 "{\"data\":{\"L\":\"value\"}}\n")
-- test_field_named_s_inside_m
#guard fromDdb "{\"Item\":{\"data\": {\"M\": {\"S\": {\"S\": \"value\"}}}}}" == some (utf8 "{\"data\":{\"S\":\"value\"}}\n")
-- test_field_named_n_inside_m
#guard fromDdb "{\"Item\":{\"data\": {\"M\": {\"N\": {\"N\": \"123\"}}}}}" == some (utf8 "{\"data\":{\"N\":123}}\n")
-- test_field_named_bool_inside_m
#guard fromDdb "{\"Item\":{\"data\": {\"M\": {\"BOOL\": {\"BOOL\": true}}}}}" == some (utf8 "{\"data\":{\"BOOL\":true}}\n")
-- test_field_named_null_inside_m
#guard fromDdb "{\"Item\":{\"data\": {\"M\": {\"NULL\": {\"NULL\": true}}}}}" == some (utf8 "{\"data\":{\"NULL\":null}}\n")
-- test_field_named_ss_inside_m
#guard fromDdb "{\"Item\":{\"data\": {\"M\": {\"SS\": {\"SS\": [\"a\", \"b\"]}}}}}" == some (utf8 "{\"data\":{\"SS\":[\"a\",\"b\"]}}\n")
-- test_field_named_item_inside_m
#guard fromDdb "{\"Item\":{\"data\": {\"M\": {\"Item\": {\"S\": \"value\"}}}}}" == some (utf8 "{\"data\":{\"Item\":\"value\"}}\n")
-- test_nested_m_fields
#guard fromDdb "{\"Item\":{\"a\": {\"M\": {\"M\": {\"M\": {\"b\": {\"S\": \"c\"}}}}}}}" == some (utf8 "{\"a\":{\"M\":{\"b\":\"c\"}}}\n")
-- test_mixed_confusing_fields
#guard fromDdb "{\"Item\":{\"test\": {\"M\": {\"M\": {\"S\": \"m\"}, \"L\": {\"L\": [{\"S\": \"l\"}]}, \"S\": {\"S\": \"s\"}}}}}" == some (utf8 "{\"test\":{\"M\":\"m\",\"L\":[\"l\"],\"S\":\"s\"}}\n")
-- test_no_item_wrapper_simple
#guard fromDdb "{\"name\":{\"S\": \"Alice\"}, \"age\": {\"N\": \"30\"}}" == some (utf8 "{\"name\":\"Alice\",\"age\":30}\n")
-- test_with_item_wrapper_simple
#guard fromDdb "{\"Item\":{\"name\": {\"S\": \"Alice\"}, \"age\": {\"N\": \"30\"}}}" == some (utf8 "{\"name\":\"Alice\",\"age\":30}\n")
-- test_nested_object_pretty_indentation
#guard fromDdb "{\"Item\":{\"name\":{\"S\":\"Test\"},\"settings\":{\"M\":{\"theme\":{\"S\":\"dark\"},\"notifications\":{\"M\":{\"email\":{\"BOOL\":true},\"push\":{\"BOOL\":false}}}}}}}" true true == some (utf8 "{\n  \"name\":\"Test\",\n  \"settings\":{\n    \"theme\":\"dark\",\n    \"notifications\":{\n      \"email\":true,\n      \"push\":false\n    }\n  }\n}\n")
-- test_item_as_field
#guard fromDdb "{\"Item\":{\"S\":\"test value\"},\"other\":{\"N\":\"42\"}}" false == some (utf8 "{\"Item\":\"test value\",\"other\":42}\n")
-- test_jsonl_four_records
#guard fromDdb "{\"Item\":{\"id\":{\"N\":\"1\"},\"name\":{\"S\":\"Alice\"}}}\n{\"Item\":{\"id\":{\"N\":\"2\"},\"name\":{\"S\":\"Bob\"}}}\n{\"Item\":{\"id\":{\"N\":\"3\"},\"name\":{\"S\":\"Charlie\"}}}\n{\"Item\":{\"id\":{\"N\":\"4\"},\"name\":{\"S\":\"Diana\"}}}\n" == some (utf8 "{\"id\":1,\"name\":\"Alice\"}\n{\"id\":2,\"name\":\"Bob\"}\n{\"id\":3,\"name\":\"Charlie\"}\n{\"id\":4,\"name\":\"Diana\"}\n")

/-! ## `fromddb_invalid_tests.rs` -/

-- test_unknown_type_descriptor_lowercase_s
#guard rejected "{\"Item\":{\"Field\": {\"s\": \"value\"}}}" ["unknown type descriptor", "'s'"]
-- test_string_type_with_number_value
#guard rejected "{\"Item\":{\"Field\": {\"S\": 123}}}" ["Expected string", "S"]
-- test_string_type_with_boolean_value
#guard rejected "{\"Item\":{\"Field\": {\"S\": true}}}" ["Expected string", "S"]
-- test_string_type_with_null_value
#guard rejected "{\"Item\":{\"Field\": {\"S\": null}}}" ["Expected string", "S"]
-- test_string_type_with_array_value
#guard rejected "{\"Item\":{\"Field\": {\"S\": [\"value\"]}}}" ["Expected string", "S"]
-- test_string_type_with_object_value
#guard rejected "{\"Item\":{\"Field\": {\"S\": {\"nested\": \"value\"}}}}" ["Expected string", "S"]
-- test_binary_type_with_number_value
#guard rejected "{\"Item\":{\"Field\": {\"B\": 123}}}" ["Expected string", "B"]
-- test_binary_type_with_boolean_value
#guard rejected "{\"Item\":{\"Field\": {\"B\": true}}}" ["Expected string", "B"]
-- test_binary_type_with_null_value
#guard rejected "{\"Item\":{\"Field\": {\"B\": null}}}" ["Expected string", "B"]
-- test_binary_type_with_array_value
#guard rejected "{\"Item\":{\"Field\": {\"B\": [\"dGVzdA==\"]}}}" ["Expected string", "B"]
-- test_binary_type_with_object_value
#guard rejected "{\"Item\":{\"Field\": {\"B\": {\"data\": \"dGVzdA==\"}}}}" ["Expected string", "B"]
-- test_number_type_with_number_value
#guard rejected "{\"Item\":{\"Field\": {\"N\": 123}}}" ["Expected string", "N"]
-- test_number_type_with_boolean_value
#guard rejected "{\"Item\":{\"Field\": {\"N\": true}}}" ["Expected string", "N"]
-- test_number_type_with_null_value
#guard rejected "{\"Item\":{\"Field\": {\"N\": null}}}" ["Expected string", "N"]
-- test_number_type_with_array_value
#guard rejected "{\"Item\":{\"Field\": {\"N\": [\"123\"]}}}" ["Expected string", "N"]
-- test_bool_type_with_string_true
#guard rejected "{\"Item\":{\"Field\": {\"BOOL\": \"true\"}}}" ["boolean", "BOOL"]
-- test_bool_type_with_string_false
#guard rejected "{\"Item\":{\"Field\": {\"BOOL\": \"false\"}}}" ["boolean", "BOOL"]
-- test_bool_type_with_number_zero
#guard rejected "{\"Item\":{\"Field\": {\"BOOL\": 0}}}" ["boolean", "BOOL"]
-- test_bool_type_with_number_one
#guard rejected "{\"Item\":{\"Field\": {\"BOOL\": 1}}}" ["boolean", "BOOL"]
-- test_bool_type_with_null_value
#guard rejected "{\"Item\":{\"Field\": {\"BOOL\": null}}}" ["boolean", "BOOL"]
-- test_null_type_with_false_value
#guard rejected "{\"Item\":{\"Field\": {\"NULL\": false}}}" ["true", "NULL"]
-- test_null_type_with_null_value
#guard rejected "{\"Item\":{\"Field\": {\"NULL\": null}}}" ["true", "NULL", "True"]
-- test_null_type_with_string_value
#guard rejected "{\"Item\":{\"Field\": {\"NULL\": \"true\"}}}" ["true", "NULL", "True"]
-- test_null_type_with_number_value
#guard rejected "{\"Item\":{\"Field\": {\"NULL\": 1}}}" ["true", "NULL", "True"]
-- test_map_type_with_string_value
#guard rejected "{\"Item\":{\"Field\": {\"M\": \"not-an-object\"}}}" ["object", "M", "Expected"]
-- test_map_type_with_number_value
#guard rejected "{\"Item\":{\"Field\": {\"M\": 123}}}" ["object", "M", "Expected"]
-- test_map_type_with_boolean_value
#guard rejected "{\"Item\":{\"Field\": {\"M\": true}}}" ["object", "M", "Expected"]
-- test_map_type_with_null_value
#guard rejected "{\"Item\":{\"Field\": {\"M\": null}}}" ["object", "M", "Expected"]
-- test_map_type_with_array_value
#guard rejected "{\"Item\":{\"Field\": {\"M\": [{\"S\": \"value\"}]}}}" ["array", "unexpected"]
-- test_map_type_with_nested_missing_type_descriptor
#guard rejected "{\"Item\":{\"Field\": {\"M\": {\"Nested\": \"value\"}}}}" ["atom", "array", "Invalid"]
-- test_list_type_with_string_value
#guard rejected "{\"Item\":{\"Field\": {\"L\": \"not-an-array\"}}}" ["array", "L", "Expected"]
-- test_list_type_with_number_value
#guard rejected "{\"Item\":{\"Field\": {\"L\": 123}}}" ["array", "L", "Expected"]
-- test_list_type_with_boolean_value
#guard rejected "{\"Item\":{\"Field\": {\"L\": true}}}" ["array", "L", "Expected"]
-- test_list_type_with_null_value
#guard rejected "{\"Item\":{\"Field\": {\"L\": null}}}" ["array", "L", "Expected"]
-- test_list_type_with_object_value
#guard rejected "{\"Item\":{\"Field\": {\"L\": {\"S\": \"value\"}}}}" ["array", "L", "Expected"]
-- test_list_type_with_elements_missing_type_descriptor
#guard rejected "{\"Item\":{\"Field\": {\"L\": [\"raw-value\"]}}}" ["atom", "array", "Invalid"]
-- test_string_set_with_string_value
#guard rejected "{\"Item\":{\"Field\": {\"SS\": \"not-an-array\"}}}" ["array", "SS", "Expected"]
-- test_string_set_with_number_value
#guard rejected "{\"Item\":{\"Field\": {\"SS\": 123}}}" ["array", "SS", "Expected"]
-- test_string_set_with_array_of_numbers
#guard rejected "{\"Item\":{\"Field\": {\"SS\": [123, 456]}}}" ["string", "SS", "Expected"]
-- test_number_set_with_string_value
#guard rejected "{\"Item\":{\"Field\": {\"NS\": \"not-an-array\"}}}" ["array", "NS", "Expected"]
-- test_number_set_with_number_value
#guard rejected "{\"Item\":{\"Field\": {\"NS\": 123}}}" ["array", "NS", "Expected"]
-- test_number_set_with_array_of_numbers
#guard rejected "{\"Item\":{\"Field\": {\"NS\": [1, 2]}}}" ["string", "NS", "Expected"]
-- test_binary_set_with_string_value
#guard rejected "{\"Item\":{\"Field\": {\"BS\": \"not-an-array\"}}}" ["array", "BS", "Expected"]
-- test_binary_set_with_number_value
#guard rejected "{\"Item\":{\"Field\": {\"BS\": 123}}}" ["array", "BS", "Expected"]
-- test_binary_set_with_array_of_numbers
#guard rejected "{\"Item\":{\"Field\": {\"BS\": [123, 456]}}}" ["string", "BS", "Expected"]
-- test_attribute_with_multiple_type_descriptors
#guard rejected "{\"Item\":{\"Field\": {\"S\": \"value\", \"N\": \"123\"}}}" ["atom", "array", "Invalid"]
-- test_attribute_without_type_descriptor
#guard rejected "{\"Item\":{\"Field\": \"value\"}}" ["atom", "array", "Invalid"]

/-! ## `nesting_tests.rs` -/

/-- `generate_nested_object_normal_json`, lines 6-22. -/
def nestedObject (depth : Nat) : String :=
  "{" ++ String.join ((List.range depth).map fun i => s!"\"level_{i}\":\u007b") ++ "\"value\":\"leaf\"" ++
    String.join (List.replicate depth "}") ++ "}"

/-- `generate_nested_object_ddb_json`, lines 64-88. -/
def nestedObjectDdb (depth : Nat) (wrapper : Bool) : String :=
  (if wrapper then "{\"Item\":" else "") ++ "{" ++
    String.join ((List.range depth).map fun i => s!"\"level_{i}\":\u007b\"M\":\u007b") ++
    "\"value\":{\"S\":\"leaf\"}" ++ String.join (List.replicate depth "}}") ++ "}" ++
    (if wrapper then "}" else "") ++ "\n"

/-- `generate_nested_array_normal_json`, lines 93-104. -/
def nestedArray (depth : Nat) : String :=
  "{\"data\":" ++ String.join (List.replicate depth "[") ++ "\"value\"" ++ String.join (List.replicate depth "]") ++ "}"

/-- `generate_nested_array_ddb_json`, lines 108-135. -/
def nestedArrayDdb (depth : Nat) (wrapper : Bool) : String :=
  (if wrapper then "{\"Item\":" else "") ++ "{\"data\":{\"L\":[" ++ String.join (List.replicate (depth - 1) "{\"L\":[") ++
    "{\"S\":\"value\"}" ++ String.join (List.replicate (depth - 1) "]}") ++ "]}}" ++ (if wrapper then "}" else "") ++ "\n"

-- test_helper_generate_nested_object_depth_0, _1, _2, _ddb_depth_0, _1, _2
#guard nestedObject 0 == "{\"value\":\"leaf\"}"
#guard nestedObject 1 == "{\"level_0\":{\"value\":\"leaf\"}}"
#guard nestedObject 2 == "{\"level_0\":{\"level_1\":{\"value\":\"leaf\"}}}"
#guard nestedObjectDdb 0 true == "{\"Item\":{\"value\":{\"S\":\"leaf\"}}}\n"
#guard nestedObjectDdb 1 true == "{\"Item\":{\"level_0\":{\"M\":{\"value\":{\"S\":\"leaf\"}}}}}\n"
#guard nestedObjectDdb 2 true == "{\"Item\":{\"level_0\":{\"M\":{\"level_1\":{\"M\":{\"value\":{\"S\":\"leaf\"}}}}}}}\n"

-- test_to_ddb_nested_objects_depth_1, _16, _31, _32, test_to_ddb_nested_arrays_depth_1, _16, _31, _32
#guard [1, 16, 31, 32].all fun n => toDdb (nestedObject n) true == some (utf8 (nestedObjectDdb n true))
#guard [1, 16, 31, 32].all fun n => toDdb (nestedArray n) true == some (utf8 (nestedArrayDdb n true))

-- test_from_ddb_nested_objects_depth_1, _16, _31, _32, test_from_ddb_nested_arrays_depth_1, _16, _31, _32
#guard [1, 16, 31, 32].all fun n => fromDdb (nestedObjectDdb n true) == some (utf8 (nestedObject n ++ "\n"))
#guard [1, 16, 31, 32].all fun n => fromDdb (nestedArrayDdb n true) == some (utf8 (nestedArray n ++ "\n"))

-- test_roundtrip_nested_objects_depth_16, _32, test_roundtrip_nested_arrays_depth_16, _32
#guard [16, 32].all fun n => thereAndBack (nestedObject n) == some (utf8 (nestedObject n ++ "\n"))
#guard [16, 32].all fun n => thereAndBack (nestedArray n) == some (utf8 (nestedArray n ++ "\n"))

-- test_nested_objects_without_item_wrapper
#guard toDdb (nestedObject 5) false == some (utf8 (nestedObjectDdb 5 false))

-- test_to_ddb_mixed_nesting_objects_and_arrays
#guard toDdb "{\"a\":{\"b\":[{\"c\":[\"value\"]}]}}" true == some (utf8 "{\"Item\":{\"a\":{\"M\":{\"b\":{\"L\":[{\"M\":{\"c\":{\"L\":[{\"S\":\"value\"}]}}}]}}}}}\n")
-- test_from_ddb_mixed_nesting_objects_and_arrays
#guard fromDdb "{\"Item\":{\"a\":{\"M\":{\"b\":{\"L\":[{\"M\":{\"c\":{\"L\":[{\"S\":\"value\"}]}}}]}}}}}" == some (utf8 "{\"a\":{\"b\":[{\"c\":[\"value\"]}]}}\n")
-- test_roundtrip_complex_mixed_structure
#guard thereAndBack "{\"users\":[{\"id\":\"user1\",\"settings\":{\"preferences\":{\"theme\":\"dark\",\"notifications\":[{\"type\":\"email\",\"enabled\":true}]}}}]}" == some (utf8 ("{\"users\":[{\"id\":\"user1\",\"settings\":{\"preferences\":{\"theme\":\"dark\",\"notifications\":[{\"type\":\"email\",\"enabled\":true}]}}}]}" ++ "\n"))
-- test_to_ddb_empty_nested_structures
#guard toDdb "{\"a\":{\"b\":{\"c\":{}}}}" true == some (utf8 "{\"Item\":{\"a\":{\"M\":{\"b\":{\"M\":{\"c\":{\"M\":{}}}}}}}}\n")
-- test_from_ddb_empty_nested_structures
#guard fromDdb "{\"Item\":{\"a\":{\"M\":{\"b\":{\"M\":{\"c\":{\"M\":{}}}}}}}}" == some (utf8 "{\"a\":{\"b\":{\"c\":{}}}}\n")

/-! ## The two tests of errors -/

/-- Whether the position is positive and the text says that the input ends too early, or that something else was expected. -/
def failsInside : Conv → Bool
  | .err (.scan (.rjiter _)) p => p > 0
  | .err (.parse text _) p => p > 0 && mentions ["Expected", "parsing", "EOF"] text
  | _ => false


-- test_error_incomplete_json_to_ddb, test_error_incomplete_json (the position, and that the input ends too early)
#guard failsInside (convertNormalToDdb 100000 100000 (sliceReader (utf8 "{\"name\": \"Alice\"")) ⟨⟨[], []⟩, []⟩ (List.replicate 4096 0) (List.replicate 2048 0) false false true).2
#guard failsInside (convertDdbToNormal 100000 100000 (sliceReader (utf8 "{\"aa\": 2")) ⟨⟨[], []⟩, []⟩ (List.replicate 4096 0) (List.replicate 2048 0) false false true).2

end Verif.Conform
