import Verif.Conform.Basic
import Verif.Scan.Idt

/-!
# The tests of `scan_json`

`/repo/scan_json/tests/scan_test.rs`, `/repo/scan_json/tests/matcher_test.rs`, `/repo/scan_json/tests/idtransform_test.rs`.
-/

namespace Verif.Conform
open Verif.RJiter Verif.Scan
open Verif.U8Pool (Pool)

/-- `U8Pool::new(&mut [0u8; bytes], slots).unwrap()` -/
def pool (bytes slots : Nat) : Pool :=
  match U8Pool.new (List.replicate bytes 0) slots with
  | .ok p => p
  | _ => ⟨0, 0, [], []⟩

/-- Turns of the main loop, enough for all the tests. -/
def T : Nat := 1000

/-- `find_action` and `find_end_action` that match nothing. -/
def silent {β : Type} : Callbacks β := ⟨fun _ _ b => (b, none), fun _ _ b => (b, none)⟩

/-- `Options::new()` -/
def noOptions : Options := ⟨[], false⟩

/-- The run of `scan` in a test: the input as a slice, the length of the buffer, the usual pool. -/
def run {β : Type} (cb : Callbacks β) (b : β) (opt : Options) (n : Nat) (input : String) : St β × SRes Unit :=
  scan T F cb opt ⟨rj (sliceReader (utf8 input)) n, b, pool 512 20⟩

/-- The run returns `Ok`, with this state behind the baton. -/
def ends {β : Type} [DecidableEq β] (x : St β × SRes Unit) (b : β) : Bool := decide (x.2 = .ok () ∧ x.1.baton = b)

/-- `find_action` and `find_end_action` from what they match and the actions. -/
def matching {β : Type} (at? : Pseudo → List Bytes → Bool) (act : Action β) (end? : Pseudo → List Bytes → Bool) (endAct : EndAction β) :
    Callbacks β :=
  ⟨fun p c b => (b, if at? p c.path then some act else none), fun p c b => (b, if end? p c.path then some endAct else none)⟩

/-- Nothing is matched. -/
def never : Pseudo → List Bytes → Bool := fun _ _ => false

/-- `iter_match(|| [...], ..)` -/
def path (l : List String) : Pseudo → List Bytes → Bool := fun p q => iterMatch (l.map utf8) p q

/-- `structural_pseudoname == None && context.next() == Some(key)` -/
def keyIs (k : String) : Pseudo → List Bytes → Bool := fun p q => p == .none && q.head? == some (utf8 k)

/-- An action that only changes the state. -/
def sets {β : Type} (f : β → β) : Action β := fun s b => ((s, f b), .op .none)

/-- An end action that changes the state. -/
def endSets {β : Type} (f : β → β) : EndAction β := fun b => (f b, none)

/-! ## `scan_test.rs` -/

-- test_scan_json_empty_input, test_scan_json_top_level_types, test_scan_json_simple_object, test_scan_json_simple_array
example : ends (run silent () noOptions 16 "") () = true := by decide +kernel
example : ends (run silent () noOptions 16 "null true false 42 3.14 \"hello\" [] {}") () = true := by decide +kernel
example : ends (run silent () noOptions 16
    "{\"null\": null, \"bool\": true, \"num\": 42, \"float\": 3.14, \"str\": \"hello\"}") () = true := by decide +kernel
example : ends (run silent () noOptions 16 "[null, true, false, 42, 3.14, \"hello\"]") () = true := by decide +kernel

-- test_scan_json_nested_complex (too long for the kernel; evaluated)
#guard ends (run silent () noOptions 64 "{
        \"array_of_objects\": [
            {\"name\": \"obj1\", \"values\": [1, 2, 3]},
            {\"name\": \"obj2\", \"nested\": {\"x\": 10, \"y\": 20}}
        ],
        \"object_with_arrays\": {
            \"nums\": [1, 2, [3, 4, [5, 6]], 7],
            \"mixed\": [
                {\"a\": 1},
                [true, false],
                {\"b\": [\"hello\", \"world\"]},
                42
            ]
        },
        \"deep_nesting\": {
            \"level1\": {
                \"level2\": [
                    {\"level3\": {\"value\": [1, {\"final\": \"deepest\"}]}}
                ]
            }
        }
    }") ()

-- skip_long_string
example : ends (scan T F silent noOptions ⟨rj (sliceReader (utf8 "{\"foo\": \"" ++ List.replicate 100 97 ++ utf8 "\", \"bar\": \"baz\"}")) 8,
    (), pool 512 20⟩) () = true := by decide +kernel

-- test_skip_sse_tokens
example : ends (run silent () ⟨[utf8 "data:", utf8 "DONE"], false⟩ 16 "data: {\"foo\": \"bar\"} [DONE] ") () = true := by decide +kernel

-- test_call_begin_dont_touch_value, test_call_begin_consume_value
example : ends (run (matching (keyIs "foo") (sets fun _ => true) never (endSets id)) false noOptions 16
    "{\"foo\": \"bar\", \"baz\": \"qux\"}") true = true := by decide +kernel
example : ends (run (matching (keyIs "foo")
      (fun s _ => (((s.nextValue F).1, match (s.nextValue F).2 with | .ok _ => true | _ => false), .op .valueIsConsumed))
      never (endSets id)) false noOptions 16 "{\"foo\": \"bar\", \"baz\": \"qux\"}") true = true := by decide +kernel

-- test_call_end
example : ends (run (matching never (sets id) (keyIs "foo") (endSets (· + 1))) 0 noOptions 32 "{\"aa\": \"bb\",
        \"foo\": {\"foo is an object\": true, \"foo\": \"nested foo, string\"},
        \"foo\": \"string\",
        \"foo\": [\"foo is an array\"],
        \"foo\": 42,
        \"foo\": true,
        \"foo\": null
    }") 7 = true := by decide +kernel

-- notify_for_top_level_object, notify_for_object_in_array, notify_for_array
example : ends (run (matching (path ["#object", "#top"]) (sets fun b => (true, b.2)) (path ["#object", "#top"]) (endSets fun b => (b.1, true)))
    (false, false) noOptions 16 "{}") (true, true) = true := by decide +kernel
example : ends (run (matching (path ["#object", "#array", "#top"]) (sets fun b => (b.1 + 1, b.2)) (path ["#object", "#array", "#top"])
    (endSets fun b => (b.1, b.2 + 1))) (0, 0) noOptions 16 "[{}, {}, {}]") (3, 3) = true := by decide +kernel
example : ends (run (matching (path ["#array", "items", "#top"]) (sets fun b => (true, b.2)) (path ["#array", "items", "#top"])
    (endSets fun b => (b.1, true))) (false, false) noOptions 16 "{\"items\": [1, 2, 3]}") (true, true) = true := by decide +kernel

/-- The value is an array of these numbers. -/
def numbers (l : List Bytes) : JsonValue → Bool
  | .arr items => items.map (fun v => match v with | .num t => t | _ => []) == l
  | _ => false

-- client_can_consume_array (the end action is not called)
example : ends (run (matching (path ["#array", "items", "#top"])
      (fun s b => (((s.nextValue F).1, b ++ match (s.nextValue F).2 with
        | .ok v => if numbers [utf8 "1", utf8 "2", utf8 "3"] v then utf8 "array" else utf8 "other"
        | _ => utf8 "error"), .op .valueIsConsumed))
      (path ["#array", "items", "#top"]) (endSets (· ++ utf8 "</array>"))) [] noOptions 16 "{\"items\": [1, 2, 3]}")
    (utf8 "array") = true := by decide +kernel

-- several_arrays_top_level, several_objects_top_level
example : ends (run (matching (path ["#array", "#top"]) (sets (· ++ utf8 "<array>")) (path ["#array", "#top"]) (endSets (· ++ utf8 "</array>")))
    [] noOptions 16 "[1,2,3]  [4,5,6]  [7,8,9]") (utf8 "<array></array><array></array><array></array>") = true := by decide +kernel
example : ends (run (matching (path ["foo", "#top"]) (sets (· ++ utf8 "<foo>")) (path ["foo", "#top"]) (endSets (· ++ utf8 "</foo>")))
    [] noOptions 16 "{\"foo\":1}  {\"foo\":2}  {\"foo\":3}") (utf8 "<foo></foo><foo></foo><foo></foo>") = true := by decide +kernel

-- max_nesting_array: "Max nesting exceeded at position 2 with level 3"
example : (scan T F silent noOptions ⟨rj (sliceReader (List.replicate 10 91)) 16, (), pool 64 3⟩).2 = .err (.maxNesting 2 3) := by decide +kernel

-- max_nesting_object: "Max nesting exceeded at position 15 with level 3"
example : (scan T F silent noOptions ⟨rj (sliceReader (List.replicate 10 (utf8 "{\"a\":")).flatten) 16, (), pool 64 3⟩).2 =
    .err (.maxNesting 15 3) := by decide +kernel

-- error_in_begin_action: "Action error: Test error in begin-action at position 7"
example : (scan T F (matching (path ["foo", "#top"]) (fun s b => ((s, b), .op (.error "Test error in begin-action"))) never (endSets id))
    noOptions ⟨rj (sliceReader (utf8 "{\"foo\": 123}")) 16, (), pool 64 3⟩).2 = .err (.action "Test error in begin-action" 7) := by decide +kernel

-- error_in_end_action: "Action error: Test error in end-action at position 11"
example : (run (matching never (sets id) (path ["foo", "#top"]) (fun b => (b, some "Test error in end-action"))) () noOptions 16
    "{\"foo\": 123}").2 = .err (.action "Test error in end-action" 11) := by decide +kernel

/-- `rjiter.peek().and_then(|_| rjiter.write_long_bytes(writer))` -/
def copyContent : Action Bytes := fun s b =>
  match s.peek F with
  | (s, .ok _) =>
    match s.writeLongBytes F ⟨b, []⟩ with
    | ((s, w), .ok _) => ((s, w.out), .op .valueIsConsumed)
    | ((s, w), _) => ((s, w.out), .op (.error "RJiter error: {:?}"))
  | (s, _) => ((s, b), .op (.error "RJiter error: {:?}"))

-- match_in_array_context
example : ends (run (matching (path ["name", "#array", "items", "#top"]) copyContent never (endSets id)) [] noOptions 16
    "{\"items\": [{\"name\": \"first\"}, {\"name\": \"second\"}]}") (utf8 "firstsecond") = true := by decide +kernel

/-- `write!(writer, "(matched {:?})", rjiter.peek().unwrap())`, here only the byte. -/
def notePeek : Action Bytes := fun s b =>
  match s.peek F with
  | (s, .ok c) => ((s, b ++ [c]), .op .none)
  | (s, _) => ((s, b), .panic)

-- atoms_on_top_level, atoms_in_array, atoms_in_object
example : ends (run (matching (path ["#atom", "#top"]) notePeek never (endSets id)) [] noOptions 16
    "null true false 42 3.14 \"hello\"") (utf8 "ntf43\"") = true := by decide +kernel
example : ends (run (matching (path ["#atom", "#array", "#top"]) notePeek never (endSets id)) [] noOptions 16
    "[null, true, false, 42, 3.14, \"hello\"]") (utf8 "ntf43\"") = true := by decide +kernel
example : ends (run (matching (fun p q => ["a", "b", "c", "d", "e", "f"].any fun k => path ["#atom", k, "#top"] p q) notePeek never (endSets id))
    [] noOptions 16 "{\"a\": null, \"b\": true, \"c\": false, \"d\": 42, \"e\": 3.14, \"f\": \"hello\"}") (utf8 "ntf43\"") = true := by
  decide +kernel

/-- `handle_peek_conditionally` -/
def conditionally : Action Bytes := fun s b =>
  match s.peek F with
  | (s, .ok 116) => (((s.nextValue F).1, b ++ utf8 "consumed,"), .op .valueIsConsumed)
  | (s, .ok 102) => ((s, b ++ utf8 "not consumed,"), .op .none)
  | (s, .ok _) => ((s, b ++ utf8 "unexpected,"), .op (.error "Expected error for the test"))
  | (s, _) => ((s, b), .panic)

-- atoms_stream_op_return_values
example : let x := run (matching (path ["#atom", "#top"]) conditionally never (endSets id)) [] noOptions 16 "true false 42 777"
    (x.1.baton = utf8 "consumed,not consumed,unexpected," ∧ (∃ i, x.2 = .err (.action "Expected error for the test" i))) ∧
      (x.1.rj.nextInt F).2 = .ok (utf8 "42") := by
  refine ⟨⟨by decide +kernel, 11, by decide +kernel⟩, by decide +kernel⟩

/-- The callbacks of `scan_llm_output`. -/
def llmOutput : Callbacks Bytes :=
  ⟨fun p c b => (b, if path ["message"] p c.path then some (sets (· ++ utf8 "(new message)\n"))
      else if path ["content"] p c.path then some copyContent else none),
   fun p c b => (b, if path ["message"] p c.path then some (endSets (· ++ [10])) else none)⟩

/-- The options of `scan_llm_output`. -/
def llmOptions : Options := ⟨[utf8 "data:", utf8 "DONE"], false⟩

-- scan_basic_llm_output (too long for the kernel; evaluated)
#guard ends (run llmOutput [] llmOptions 32 "{
  \"id\": \"chatcmpl-Ahpq4nZeP9mESaKsCVdmZdK96IrUH\",
  \"object\": \"chat.completion\",
  \"created\": 1735010736,
  \"model\": \"gpt-4o-mini-2024-07-18\",
  \"choices\": [
    {
      \"index\": 0,
      \"message\": {
        \"role\": \"assistant\",
        \"content\": \"Hello! How can I assist you today?\",
        \"refusal\": null
      },
      \"logprobs\": null,
      \"finish_reason\": \"stop\"
    }
  ],
  \"usage\": {
    \"prompt_tokens\": 9,
    \"completion_tokens\": 10,
    \"total_tokens\": 19,
    \"prompt_tokens_details\": {
      \"cached_tokens\": 0,
      \"audio_tokens\": 0
    },
    \"completion_tokens_details\": {
      \"reasoning_tokens\": 0,
      \"audio_tokens\": 0,
      \"accepted_prediction_tokens\": 0,
      \"rejected_prediction_tokens\": 0
    }
  },
  \"system_fingerprint\": \"fp_0aa8d3e20b\"
}") (utf8 "(new message)\nHello! How can I assist you today?\n")

/-- An event of `scan_streaming_llm_output`. -/
def event (delta reason : String) : Bytes :=
  utf8 "data: {\"choices\":[{\"index\":0,\"delta\":{" ++ utf8 delta ++ utf8 "},\"logprobs\":null,\"finish_reason\":" ++ utf8 reason ++
  utf8 "}],\"id\":\"chatcmpl-AgMB1khICnwswjgqIl2X2jr587Nep\",\"object\":\"chat.completion.chunk\",\"created\":1734658387,\"model\":\"gpt-4o-mini-2024-07-18\",\"system_fingerprint\":\"fp_d02d531b47\"}\n\n"

-- scan_streaming_llm_output (the words of the middle as in the test)
example : ends (scan T F llmOutput llmOptions ⟨rj (sliceReader (10 ::
      (event "\"role\":\"assistant\",\"content\":\"\",\"refusal\":null" "null" ++
      (["Hello", "!", " How", " can", " I", " assist", " you", " today", "?"].flatMap fun t =>
        event ("\"content\":\"" ++ t ++ "\"") "null") ++
      event "" "\"stop\"" ++ utf8 "data: [DONE]\n"))) 32, [], pool 512 20⟩)
    (utf8 "Hello! How can I assist you today?") = true := by decide +kernel

/-- `scan` with `stop_early`, `n` times, on the same parser and the same pool. -/
def scanEarly (st : St Unit) : Nat → St Unit × Bool
  | 0 => (st, true)
  | n + 1 =>
    let x := scan T F silent ⟨[], true⟩ st
    let y := scanEarly x.1 n
    (y.1, decide (x.2 = .ok ()) && y.2)

-- stop_early
example : let x := run silent () noOptions 16 "{} [] {\"foo\": \"bar\"} [{}, []] 777 true"
    x.2 = .ok () ∧ (x.1.rj.finish F).2 = .ok () := by decide +kernel
example : let x := scanEarly ⟨rj (sliceReader (utf8 "{} [] {\"foo\": \"bar\"} [{}, []] 777 true")) 16, (), pool 512 20⟩ 4
    x.2 = true ∧ (x.1.rj.nextInt F).2 = .ok (utf8 "777") := by decide +kernel

/-- `handle_f_number`; a number is written as its text. -/
def handleF : Action Bytes := fun s b =>
  match s.peek F with
  | (s, .ok c) =>
    if (48 ≤ c ∧ c ≤ 57) ∨ c = 45 then
      match s.nextNumber F with
      | (s, .ok n) => ((s, b ++ utf8 "[" ++ n ++ utf8 "]"), .op .valueIsConsumed)
      | (s, _) =>
        match s.lookaheadWhile F (· == 48) with
        | (s, .ok zeros) =>
          match s.lookaheadN F (zeros.length + 1) with
          | (s, .ok next) =>
            let after := (next[zeros.length]?).getD 0
            let skip := if (48 ≤ after ∧ after ≤ 57) ∨ after = 46 then zeros.length else zeros.length - 1
            let s := if skip > 0 then (s.skipNBytes F skip).1 else s
            match s.nextNumber F with
            | (s, .ok n) => ((s, b ++ utf8 "[" ++ n ++ utf8 "]"), .op .valueIsConsumed)
            | (s, _) => ((s, b), .panic)
          | (s, _) => ((s, b), .panic)
        | (s, _) => ((s, b), .panic)
    else ((s, b), .op .none)
  | (s, _) => ((s, b), .panic)

-- lookahead_repair (the test prints the numbers: `0.0` as `0`)
example : ends (run (matching (fun _ q => q.head? == some (utf8 "f")) handleF never (endSets id)) [] noOptions 16
    "{\"f\": 000000, \"f\": 0.0, \"f\": 001, \"f\": 0016, \"f\": 0017, \"f\": 0.42}") (utf8 "[0][0.0][1][16][17][0.42]") = true := by
  decide +kernel

/-! ## `matcher_test.rs` -/

/-- `iter_match` on a pool with these names, the first pushed first. -/
def matched (expected : List String) (p : Pseudo) (stack : List String) : Bool :=
  iterMatch (expected.map utf8) p
    (Ctx.of (stack.foldl (fun q k => (q.pushAssoc posLayout [Pos.objectMiddle.byte] (utf8 k)).1) (pool 1024 32))).path

-- test_iter_match_empty_iterator
example : matched [] .none ["any"] && matched [] .none ["parent", "name"] && matched [] .none ["grandparent", "parent", "field"] := by
  decide +kernel

-- test_iter_match_single_name
example : matched ["field"] .none ["field"] && !matched ["field"] .none ["other"] && matched ["field"] .none ["parent", "field"] := by
  decide +kernel

-- test_iter_match_name_and_parent
example : matched ["child", "parent"] .none ["parent", "child"] && !matched ["child", "parent"] .none ["parent", "wrong"] &&
    !matched ["child", "parent"] .none ["wrong", "child"] && !matched ["child", "parent"] .none ["child"] &&
    matched ["child", "parent"] .none ["grandparent", "parent", "child"] := by decide +kernel

-- test_iter_match_name_parent_grandparent
example : let e := ["child", "parent", "grandparent"]
    matched e .none ["grandparent", "parent", "child"] && !matched e .none ["grandparent", "parent", "wrong"] &&
    !matched e .none ["grandparent", "wrong", "child"] && !matched e .none ["wrong", "parent", "child"] &&
    !matched e .none ["parent", "child"] && matched e .none ["great", "grandparent", "parent", "child"] := by decide +kernel

-- test_iter_match_reusable
example : matched ["field", "parent"] .none ["parent", "field"] && !matched ["field", "parent"] .none ["parent", "wrong"] := by decide +kernel

-- test_iter_match_deep_nesting
example : let e := ["field", "level1", "level2", "level3", "level4"]
    matched e .none ["level4", "level3", "level2", "level1", "field"] && !matched e .none ["level4", "level3", "wrong", "level1", "field"] := by
  decide +kernel

-- test_iter_match_empty_iterator_structural_pseudonames, test_iter_match_structural_pseudonames
example : matched [] .array [] && matched [] .object [] && matched [] .atom [] := by decide +kernel
example : matched ["#array"] .array [] && !matched ["#object"] .array [] && !matched ["#atom"] .array [] &&
    matched ["#object"] .object [] && !matched ["#array"] .object [] && !matched ["#atom"] .object [] &&
    matched ["#atom"] .atom [] && !matched ["#array"] .atom [] && !matched ["#object"] .atom [] := by decide +kernel

-- test_iter_match_structural_pseudonames_with_context
example : matched ["#array", "parent"] .array ["parent"] && !matched ["#array", "parent"] .array ["wrong"] &&
    matched ["#object", "parent"] .object ["parent"] && !matched ["#object", "parent"] .object ["wrong"] &&
    matched ["#atom", "parent"] .atom ["parent"] && !matched ["#atom", "parent"] .atom ["wrong"] &&
    matched ["#array", "parent", "grandparent"] .array ["grandparent", "parent"] &&
    !matched ["#array", "parent", "grandparent"] .array ["grandparent", "wrong"] := by decide +kernel

/-! ## `idtransform_test.rs` -/

/-- `idtransform` on a text, with a writer that does this. -/
def idt (n : Nat) (w : Writer) (input : Bytes) : (RJ × Writer × Pool) × SRes Unit :=
  idtransform T F (rj (sliceReader input) n) w (pool 512 20)

/-- `input.split_whitespace().collect::<Vec<&str>>().join("")` -/
def joined (l : Bytes) : Bytes := l.filter fun c => !(c == 32 || c == 10)

/-- The output is the input without spaces. -/
def copies (n : Nat) (input : String) : Bool :=
  let x := idt n ⟨[], []⟩ (utf8 input)
  decide (x.2 = .ok () ∧ x.1.2.1.out = joined (utf8 input))

/-- `idtransform` `n` times, with a space behind each result. -/
def copyEach (s : RJ) (w : Writer) (p : Pool) : Nat → Writer × Bool
  | 0 => (w, true)
  | n + 1 =>
    let x := idtransform T F s w p
    let y := copyEach x.1.1 (x.1.2.1.writeAll [32]).1 x.1.2.2 n
    (y.1, decide (x.2 = .ok ()) && y.2)

-- idt_atomic_on_top
example :
    let input := utf8 "\n        null\n        true false\n        42 3.14\n        \"hello\"\n    "
    let x := copyEach (rj (sliceReader input) 16) ⟨[], []⟩ (pool 512 20) 6
    x.2 = true ∧ x.1.out = utf8 "null true false 42 3.14 \"hello\" " := by decide +kernel

-- idt_atomic_in_object, idt_atomic_in_array, idt_object_in_object, idt_array_in_array
example : copies 16 "
        {
            \"null\": null,
            \"bool\": true,
            \"number\": 42,
            \"float\": 3.14,
            \"string\": \"hello\"
        }
    " = true := by decide +kernel
example : copies 16 "
        [
            null,
            true,
            42,
            3.14,
            \"hello\"
        ]
    " = true := by decide +kernel
example : copies 16 "{ \"foo\": { \"bar\": \"baz\" } }" = true := by decide +kernel
example : copies 16 "
        [
            [1, 2, 3],
            [\"a\", \"b\", \"c\"],
            [true, false, null]
        ]
    " = true := by decide +kernel

-- idt_deeply_nested (too long for the kernel; evaluated)
#guard copies 32 "
        {
            \"name\": \"John\",
            \"age\": 42,
            \"address\": {
                \"street\": \"123_Main_St\",
                \"city\": \"Anytown\",
                \"country\": \"USA\",
                \"coordinates\": {
                    \"lat\": 40.7128,
                    \"long\": -74.0060
                }
            },
            \"contacts\": [
                {
                    \"type\": \"email\",
                    \"value\": \"john@example.com\",
                    \"tags\": [\"personal\", \"primary\"]
                },
                {
                    \"type\": \"phone\",
                    \"value\": \"+1-555-123-4567\",
                    \"tags\": [\"work\"],
                    \"hours\": {
                        \"mon-fri\": \"9-5\",
                        \"sat-sun\": \"closed\"
                    }
                }
            ],
            \"active\": true,
            \"preferences\": {
                \"notifications\": {
                    \"email\": true,
                    \"sms\": false,
                    \"frequency\": {
                        \"marketing\": \"weekly\",
                        \"updates\": \"daily\"
                    }
                }
            },
            \"x\": [{}, {}, [[],[]]]
        }
    "

-- idt_long_strings
example : copies 16 "
        {
            \"long_key\": \"this_is_a_much_longer_string_value_that_spans_multiple_words_and_includes_punctuation!\",
            \"array\": [
                \"another_lengthy_string_value_in_the_array_context_that_spans_multiple_words_and_includes_punctuation!\"
            ]
        }
    " = true := by decide +kernel

-- idt_special_symbols
example : copies 32 "
        {
            \"key!@#$%\": \"value!@#$%\",
            \"unicode★\": \"symbols★\",
            \"escaped\\\"quotes\\\"\": \"with\\\"quotes\\\"\",
            \"back\\\\slash\": \"with\\\\slash\",
            \"control\\n\\t\\r\": \"chars\\n\\t\\r\"
        }
    " = true := by decide +kernel

-- idt_stop_after_object
example : let x := idt 32 ⟨[], []⟩ (utf8 "
        {
            \"key1\": \"value1\",
            \"key2\": \"value2\"
        }
        {
            \"next_obj_key\": \"next_obj_value\"
        }
    ")
    x.2 = .ok () ∧ x.1.2.1.out = utf8 "{\"key1\":\"value1\",\"key2\":\"value2\"}" ∧
      (x.1.1.nextObject F).2 = .ok (some (utf8 "next_obj_key")) := by decide +kernel

-- idt_preserves_io_error_kind, idt_preserves_io_error_from_long_string: whichever of the first six writes fails (`7` for `WriteZero`)
example : (List.range 6).all (fun k =>
    decide ((idt 32 ⟨[], List.replicate k none ++ [some ⟨7, 0⟩]⟩ (utf8 "{\"key1\": \"value1\", \"key2\": \"value2\"}")).2 = .err (.io 7)) &&
    decide ((idt 16 ⟨[], List.replicate k none ++ [some ⟨7, 0⟩]⟩
      (utf8 "{\"key\": \"this_is_a_very_long_string_value_that_will_trigger_the_write_long_bytes_function\"}")).2 = .err (.io 7))) = true := by
  decide +kernel

-- idt_preserves_rjiter_error
example : (match (idt 32 ⟨[], []⟩ (utf8 "{\"key\": \"unclosed string}")).2 with
    | .err (.rjiter ⟨.json _, _⟩) => true
    | _ => false) = true := by decide +kernel

end Verif.Conform
