# Formal model of olpa/streaming_json

This directory holds a Lean 4 model of the three crates `u8pool`, `rjiter` and
`scan_json` (plus, as far as it has grown, `examples/dynamodb`), and machine-checked
proofs of the properties listed in `properties.jsonl`.

## Trusted base

* Lean 4.33.0's kernel. Axioms used: at most `propext`, `Classical.choice`, `Quot.sound`.
  No axiom is added, no `sorry`/`admit`, no `native_decide`, no `bv_decide`.
* The transcription of the Rust code into Lean (each definition cites file and lines).
* The external crate `jiter` 0.8.2 is not in the sandbox. Its parsing functions are modelled
  from their documented behaviour in `Verif/RJiter/Jiter.lean` and `JiterValue.lean`; these files are an assumption about
  jiter, not a transcription. Simplifications: `WrongType` carries no types; a `next_*` call on a
  value of another type always fails with `WrongType` (real jiter parses a number first and may report
  its error, and says `ExpectedSomeValue` for a byte that starts no value); a number is its text, not an `i64`, `BigInt` or
  `f64`; lax modes (`NaN`, `Infinity`) are not modelled. A float is read like any number (jiter's own float parser takes the
  same texts). The default recursion limit is taken to be 200 containers that are not empty. jiter's loops over a nested value
  are written as a recursion. The decoder of `next_int` looks at the byte behind the digits and refuses a float.
* `embedded_io::Read` is modelled as an arbitrary schedule of reads (each returning between 1
  and the requested number of bytes, or an I/O error), then end of input for ever. A reader
  that claims more bytes than it was given room for, or that writes outside the bytes it
  reports, is outside the model. `embedded_io::Write` is a sequence of `write_all` calls each
  of which may fail, with any error kind and behind any part of its bytes.
* For C75–C77: `std::io::BufWriter` (with its capacity of 8192 bytes), the adapter `embedded_io_adapters::std::FromStd` and
  `std::process::exit` are modelled from their documented behaviour in `Ddb/Cli`; the line buffer inside of `std::io::stdout()` and
  errors of kind `Interrupted` are not modelled.
* For C84 and C85: `serde_json` is not in the sandbox. Its `Value` and its `Map` with `preserve_order` are modelled in `Bench/Model`; `Number` is any type
  with any function to parse and any to print. Which document stands for which value is `Stands` in `Bench/Agree`: strings are decoded, of two members
  with one key the last counts. The recursion limit of 128 for reading is not modelled.
* For C86: `serde_json::from_str` is a parameter, and what is assumed of it is `Serde.Real` in `Bench/MainProps` (it takes one document between spaces, for what it
  stands for, and nothing else; documents of at most 127 levels are taken). `to_string` and `to_string_pretty` are any functions. `BufRead::read_line`,
  `BufRead::lines`, `read_to_string` and `str::trim` are modelled from their documentation in `Bench/Main`.

## Conventions

* `usize` is `Nat`; where a wrap-around could matter (`U8Pool::new`) it is modelled mod 2^64.
* Panics (slice index out of range, underflow) are explicit results, never hidden by totality.
* Loops take fuel; running out of fuel is a separate result `diverge`, and theorems show that the
  fuel used by the entry points always suffices (or that no fuel suffices, for real non-termination).
* A reference returned from a buffer is modelled by the bytes it points to (C70 looks at what becomes of these bytes).

## Modules

All under `lean/Verif/`; `lean/Verif.lean` imports every one of them.

* `Base` list lemmas and the byte type.
* `U8Pool/` (`u8pool/src/*.rs`, everything except `Debug`): `Model`, `Iter` (code), `Spec`
  (independent specification), `Lemmas`, `Refine`, `IterLemmas` (proofs), `Props`, `Props2` (C01–C09), `Props3` (C104, C105; also the model of `Display` in error.rs).
* `RJiter/`
  * code: `Basic` (errors, reader), `Buffer` (`buffer.rs`, complete), `Jiter`, `JiterValue` (assumed), `Model` and `ModelValue`
    (`rjiter.rs`, complete but for `Debug`; the `_owned` calls are the ones they copy from), `Ops` (the calls as data).
  * specification: `Spec` (`rest`, `Sync`, `Moved`), `StrSpec`, `NumSpec` (grammars).
  * proofs: `BufferLemmas`, `Collect`, `Steps`, `Loop`, `JiterLemmas`, `JiterGood`, `Calls`, `Sound`,
    `StrLemmas`, `StrSound`, `Long`, `LongDone`, `LongSafe`, `LongBad`, `Keyless`, `LongSound`, `LongPart`, `LongKept`, `LongCut`, `Tidy`, `Trace`, `OpLemmas`,
    `NumEnd`, `Value`, `Failed`, `PeekRoom`, `Hopeless` (calls that fail for good on a wrong byte), `Forward` (a successful call
    consumes something), `Loose` (what is left of the parser after a failed call), `Faults` (what becomes of
    the failures of the reader), `Whole`, `WholeFuel`, `WholeBound`, `CallEnd` (calls that read a whole value), `Held` (where it is in the buffer).
  * properties: `Props` (C10–C16, C23, C27, C29), `PropsCalls` (C17–C19, C41, C42), `PropsLong` (C20–C22,
    C28, C43), `PropsValue` (C41, C44), `PropsErr` (C24–C26, C42), `PropsIo` (C59, C60), `PropsPart` (C89), `PropsControl` (C99), `Tokens` (C103; also the model of the example in rjiter/README.md lines 138-149), `MoreProps` (C109; the proof is in `More`).
* `Scan/` (`scan_json/src`: `matcher.rs`, `stack.rs`, `scan.rs`, `idtransform.rs`)
  * code: `Matcher` (types, `iter_match`, context iterator), `Model` (`scan.rs`, complete). A callback is a function
    on the parser state and the client's state and may do anything to both. `Idt` (`idtransform.rs`, complete; the `RefCell` is its
    contents).
  * specification: `Doc` (documents with their text, what a scan should do), `Events`.
  * proofs: `Stack` (the pool as a stack of names), `Calls` (contracts of the parser calls), `Run` (the induction
    over documents), `Top` (streams of documents), `Modes` (the situations in which the contracts hold),
    `Sim` (two scans with callbacks that answer alike; invariants of the client's state, for any input).
  * properties: `Props` (C30–C33, C35, C36), `Stop` (C37), `IdtProps` (C38), `IdtFail` (C39), `Each` (C100), `Pick` (C101), `Llm` (C102; also the model of the example in scan_json/README.md lines 92-177),
    `CutProps` (C34; `RJiter/StepSound`, `CutCalls` and `Cut` lead there), `BadProps` (C40, C55; `Feed`: documents and tokens, `Bad`: documents with a
    syntax error; `RJiter/Words`, `RJiter/Numberless`: misspelled literals and numbers). `Guard`: as `Run`, for callbacks that are
    described only in some states of the client. `ReturnsProps` (C56, C57; the proof is in `Returns`),
    `IoProps` (C61, C62; the proof is in `Io`), `AcceptProps` (C65, C66; `LooseDoc` and `RJiter/SkimSpec` say what a loose document is, the
    proof is in `RJiter/Skim`, `RJiter/Accept` and `Accept`), `TokenBackProps` (C106: the same with SSE tokens; `TokenDoc` says what is let through then, the proof is in
    `RJiter/Refused` and `TokenBack`), `TokenPartProps` (C107: C88 with SSE tokens; `TokenPartSpec`, `TokenPart`), `PartProps` (C88; `PartSpec` says what the beginning of a document is, the proof is
    in `PartBack`), `IdtPart` (C90), `PartUnique` (C91), `PartOut` (the same for what a client writes, used in C92 and C93), `WholeProps` (C67, C68), `WholeSoundProps` (C69): the calls that read a whole
    value; `WholeSpec` says what a document stands for, the proofs are in `WholeFits`, `WholeCalls`, `WholeNum` and `WholeSound`.
    `HeldProps` (C70; `HeldSpec` says which strings of a returned value are in the buffer), `ChunkProps` (C71; `ChunkMode`: which chunks),
    `AgainProps` (C72), `LostProps` (C19, C68: exactly when they fail; the proof is in `RJiter/Lost`),
    `Faults` (C74; `Until`: two runs that agree until an action fails), `UniqueProps` (C79; `Unique`: a text of JSON documents has one reading),
    `PositionProps` (C95; `Position` says what a position has to be and has the proof, with `RJiter/ErrIndex`), `IdtPosition` (C95 for `idtransform`, and the errors of `write_long_bytes`), `Ahead` (C108, with `Ddb/Ahead`), `CausalProps` and `CausalStop` (C110; the proof for `scan` is in `Causal`, and `Ddb/Causal` is about the converters and the tool),
    `LateProps` (C97; the proof is in `RJiter/Late`, `Late` and `LateIdt`).
* `Ddb/` (`examples/dynamodb/src`): `Basic` (what both converters share), `ToDdb` (`normal_to_ddb.rs`, complete), `ToNormal`
  (`ddb_to_normal.rs`, complete; not modelled: `lib.rs` apart from `ConversionError`), `Cli` (`main.rs`; not modelled: parsing of the
  arguments, opening of files), `Message` (`Display` of `ConversionError`, of scan_json's and rjiter's `Error`, and the line `main` writes to the standard error; the
  texts of jiter's and embedded_io's types are parameters; not modelled: what a panic writes); `Spec` (the documents with types), `NormalSpec` (DynamoDB JSON);
  properties `Fail` (C45), `Endless` (C46), `ToDdbProps` (C46, C47), `NormalFail` (C48), `NormalProps` (C49), `RoundTrip` (C50, C52, C53), `BackTrip` (C73),
  `Reject` (C51, C54), `NormalReturns` (C58), `IoProps` (C63, C64), `Faults` (C74), `CliProps` (C75, C76),
  `CliTrip` (C77), `Levels` (C78), `Sound` (C80), `SoundDdb` (C81; `Stuck` and `RJiter/Words`: where the converter does not get on),
  `Halting` (C82), `CliSound` (C83), `Beginning` (C92), `BeginningDdb` (C93), `CliBeginning` (C94), `PositionProps` (C95; `Position`: the actions keep to the input),
  `MessageProps` (C96; `Said` and `Scan/Said`: what can be in an error), `LateProps` (C97; the proof is in `Late`, `LateDdb` and `RJiter/LateWord`),
  `Describe` (rjiter's `get_position`, `description` and `write_description`, and C98; `RJiter/Column`: the line and column of what was shifted out).
* `Bench/` (`benchmarks/dynamodb/ddb_convert_rust/src/main.rs`, a second converter, in memory): `Model` (lines 179-328), `Props` (C84), `Meaning` (C87), `Agree` (C85),
  `Main` (lines 41-177: telling the formats apart, lines, documents), `MainLemmas`, `MainProps`, `MainWhole`, `MainMore` (C86). Not modelled: parsing the
  arguments, opening files, errors of reading and writing, the text of messages.

* `Conform`: not properties. The inputs of the project's own test suites are run through the model and compared with what
  these tests expect of the real code: `RJiter` (rjiter_test.rs, lookahead_test.rs, error_test.rs), `Buffer` (buffer_test.rs),
  `Scan` (scan_test.rs, matcher_test.rs, idtransform_test.rs), `Pool` (u8pool/tests), `Ddb` (examples/dynamodb/tests), `Readme` (the examples of the four READMEs). Every
  test of these files is there, except for what it says about addresses and `Debug` texts. All agree. This is evidence that
  the model is faithful, in the cases the authors of the tests thought of; these are tests of the model (`example … decide`
  by the kernel where that is feasible, `#guard` by the interpreter otherwise), no theorem depends on them, and the manifest
  names none of them.

## Per property plan

| id | model | proof idea |
|----|-------|-----------|
| C01 | pool as bytes + slot table | refinement to a list of byte strings, induction over histories |
| C02 | `push` | case analysis against an independent acceptance predicate |
| C03 | pool invariant | invariant preserved by every call |
| C04 | iterators as state machines | iterate-to-end = list; size_hint = remaining |
| C05 | `push_assoc` etc. | refinement with typed items |
| C06 | base address parameter | false in general (witness); holds if the data area's base is aligned |
| C07 | `replace_top_assoc_bytes` | refinement; all-or-nothing false for 16-bit overflow (witness) |
| C08 | `new` with wrap-around | equivalence, with witness in the overflow region |
| C09 | push;pop | bisimulation of continuations |
| C10 | buffer + reader | stream-content invariant |
| C11–C14 | buffer loops | induction on reader size |
| C15, C16 | finish, peek | induction on reader size; form feed witness |
| C17, C18 | loop_until_success over an abstract parser contract | chunk-independence theorem, instances |
| C19 | same | false (witness), partial |
| C20–C22 | handle_long | loop invariant written ++ rest = body; witnesses for surrogate pairs, stale byte |
| C23–C25 | index bookkeeping | invariants; witnesses for double counting and column |
| C26 | I/O error | witness; partial for calls that do not shift |
| C27 | termination | fuel bounds; witness for 1-byte buffers |
| C28 | bounds | invariant; witness at length 7 |
| C29 | buffer | invariant |
| C30 | iter_match | direct |
| C31–C37, C40, C55 | scan | induction over document trees, triples for each RJiter call |
| C38, C39 | idtransform | induction over document trees |
| C41 | wrappers | soundness: `Ok` on a prefix implies `Ok` on the document; witnesses for commas and junk |
| C42 | lookahead | witness; partial for a full buffer |
| C43, C44 | wrappers, `handle_long` | soundness against the string and number grammars |
| C45 | normal_to_ddb | invariant of the client's state through `Scan/Sim` |
| C46 | normal_to_ddb | witness, for all bounds; returns on streams of documents by C47 |
| C47 | normal_to_ddb | `Scan/Guard` and induction over documents against `Ddb/Spec` |
| C48 | ddb_to_normal | invariant of the client's state through `Scan/Sim` |
| C49 | ddb_to_normal | `Scan/Guard` and induction over items against `Ddb/NormalSpec` |
| C50, C53 | normal_to_ddb, ddb_to_normal | induction over documents, on top of C47 and C49 |
| C51, C54 | ddb_to_normal | induction over arbitrary documents: the scan is stopped, or the document is DynamoDB JSON |
| C56–C58 | scan and its clients | a turn consumes something or enters an array or object: at most twice as many turns as bytes |
| C59, C60 | all calls | the failures ahead and the number of bytes delivered, through every loop |
| C61–C64 | scan and its clients | C60; the reader is at its end after `finish` |
| C65, C66 | scan, idtransform | induction over the calls: what an `Ok` says about the bytes consumed |
| C67, C68 | `next_value` etc. | chunk-independence: an attempt on a part of a document leaves nothing, or the start of an atom |
| C69 | `next_value` etc. | induction over the fuel of the assumed jiter functions; soundness of `loop_until_success` |
| C70 | `next_value` | every call is a sequence of shifts and reads (`Trace`) |
| C71 | scan | C31, with an invariant on the chunks still to come |
| C72 | idtransform | C38, then C31, C38 and C68 on the document without space |
| C73 | both | C49 and C47; the plain form of an item as a JSON document |
| C74 | idtransform, both | two runs of `scan` that agree until an action fails (`Scan/Until`) |
| C75, C76 | `main` | the calls of a converter as a list of writes, fed to the model of `BufWriter` (`Ddb/Cli`); C74 for the writer in between |
| C77 | `main`, twice | C76 and C52 |
| C78 | both | C47 and C49; a bound on the names of an item of so many levels; no callback takes a container as a whole |
| C79 | scan, idtransform | C65, and that a text of JSON documents has one reading as loose documents |
| C80 | convert_ddb_to_normal | C65 for its callbacks, C51 and C49 on the documents found, C79's one reading, C74 for the writer |
| C81 | convert_normal_to_ddb | a failed `known_bool` or `known_null` leaves the parser in front of a value from which no turn gets away, so an `Ok` is one of a converter that stops there; then as C80, with C47 |
| C82 | convert_normal_to_ddb | each turn of the converter is one of the converter that stops at a broken word, or it is at such a word: within the measure of C56 it returns or gets there; at the top level a turn in front of a broken word gives the same state with one more line written |
| C83 | main.rs with both converters | C75 puts the output of the conversion on the channel, C80 and C81 say what this output is, C58 and C82 that the conversion ends |
| C84 | the converter of the benchmark | induction over values |
| C85 | both converters against that of the benchmark | C80 and C81 give the output; that it stands for the right value is an induction over documents |
| C86 | the benchmark's program on lines and on one document, and against the streaming tools | what `trim` leaves of a line; where a document ends is unique, so the first line of a longer document is no document |
| C87 | meaning of DynamoDB JSON and the converter of the benchmark | a relation between attribute values and plain values; both directions by induction |
| C88 | scan | as C65, by induction over the calls: what an error says about the bytes in front of it |
| C89 | rjiter | induction over the rounds of `handle_long`: what the cut segments stand for; the decoding of a beginning is unique |
| C90 | idtransform | C88 for its callbacks, C89 for the atom at the stop |
| C91 | scan, idtransform | C88, C90 and C65, and that what is in front of the stop has one reading as the beginning of a JSON text |
| C92 | convert_ddb_to_normal | C88, C80 and C74; the reading of C91; each action writes only behind what is there, and where it fails in the middle of a value, the value's own output begins with what was written |
| C93 | convert_normal_to_ddb | as C92; where a literal is broken, the converter with the ignored result goes on and fails at the next call: its output is that of a converter that stops at the literal |
| C94 | main, BufWriter | C92 and C93 for the writer of the conversion; between it and the channel is at most a `BufWriter`, which loses an end of what was written |
| C95 | scan, idtransform, both, main | each call of the parser that fails leaves the position within the input; the bound of the index of its error, which counts the buffer position twice; by induction over the turns |
| C96 | main, both, scan | the names that callbacks get are keys, which have no control characters; the other texts are literals; by induction over the turns |
| C97 | scan, idtransform, both | side by side, for a reader that ends and one that fails there: each function of the buffer, each call of the parser, each action and each turn does the same, or both cannot go on |
| C105 | u8pool (push_assoc, replace_top_assoc_bytes, error.rs) | as C02; the digits of a number end where the next word starts |
| C106 | scan | as C65; what a value that could not be skipped leaves in front of the parser (`RJiter/Refused`), and that a token leaves the parser at the start of its buffer |
| C107 | scan | as C88, with what C106 needs |
| C108 | rjiter, scan, idtransform, both | an invariant of the calls (C29) is one of `scan`, for any client that uses the parser by its calls |
| C109 | rjiter | two parsers, one with more to come, do the same until the reader of the first has ended, and then the call does not succeed |
| C110 | scan_json | two scans, one with more to come, do the same until a parser call of the first meets the end; then the first does nothing more to the client, and the second only adds |
| C104 | u8pool | induction over the pushes, on the reference |
| C103 | peek_skipping_tokens of the README of rjiter | induction over the tokens in the text; C16 for peek, the lemma of known_skip_token that C14 uses as well |
| C102 | the example in the README | as C101, with a guard that asks for a string; C40 for the tokens |
| C101 | scan, rjiter (next_value, next_skip) | a client that fails unless it stands at a readable value implements a handler; the reading of a value is unique, so that the guard never fails; two runs agree until an action of the first fails |
| C100 | scan, idtransform | induction over the documents with the state that one scan leaves, which is one that the next can start from |
| C99 | `write_long_*` | induction over the segments, as C20; a segment that reaches the wrong byte fails |
| C98 | `description` | the bytes shifted out are those in front of the position, except that one structural character may be out of order; the position of a failed token is the start of the buffer |
| C52 | both | C47 and C49; the typed form of a document as DynamoDB JSON |

## Axioms

Every theorem named in `MANIFEST.json` depends on at most `propext`, `Classical.choice` and `Quot.sound`
(`vcheck` prints the list; no theorem depends on anything else).

## Found false

| id | what the code does | theorem |
|----|--------------------|---------|
| C06 | associated values are misaligned if the data area's base address is | `C06_*` |
| C07 | `replace_top_assoc_bytes` is not all-or-nothing beyond 16 bits | `C07_*` |
| C08 | wrap-around in `new` | `C08_*` |
| C12 | `lookahead_n` says `BufferFull` at the end of the input | `C12_buffer_full_at_end` |
| C13 | a failed `lookahead_while` moves the position | `C13_buffer_full_moves` |
| C16 | a form feed is skipped like whitespace | `C16_form_feed` |
| C17 | `known_object` / `next_object` on a partly buffered first key | `C17_object_chunks`, `C17_object_false_end`, `C17_next_object_key_cut` |
| C19 | a number at the very end of the input is lost | `C19_last_number_lost`, `C19_last_number_fails` |
| C20–C22 | `write_long_*`: surrogate pairs split over segments, a stale byte behind the valid ones | `C20_cut_in_escape`, `C21_split_pair`, `C21_cut_in_escape`, `C22_cut_in_escape`, `C22_cut_in_hex` |
| C89 | `write_long_bytes` on the well-formed string `"你\\"`, for the same reason: the closing quote and the beginning of the next string are written too, and the result is `Ok` | `C89_bytes_overrun` |
| C90 | the key `#top` in front of an error, as C38 | `C90_top_key` |
| C91 | of `["éé","\\"] "]`, in two chunks, `scan` reports one event too many; of a similar one, `idtransform` writes something else; a top-level number longer than the buffer is reported twice | `C91_half_escape`, `C91_long_number` |
| C92 | for the item `{"éé":{"S":"\\"}}x"}}`, in two chunks, the converter closes the item inside of the string | `C92_half_escape` |
| C93 | an input that ends in a number, `{"a":12` of `{"a":123456789}`, gives `{"a":{"N":"12"}` | `C93_cut_number` |
| C93 | with a buffer of eight bytes, `{"a":123456789}` gives `{"a":{"N":"12345678"}` and an error | `C93_long_number` |
| C93 | `"x` gives `{"S":"` and a line feed | `C93_top_string` |
| C94 | `ddb_convert to-ddb` on an input that ends in a number, as C93 | `C94_cut_number` |
| C95 | the error at the missing colon of `{"a":1,"b" 2}` is at the position 16 of 13, for the reason of C24; likewise in `idtransform` and both converters | `C95_beyond`, `C95_idtransform_beyond`, `C95_from_ddb_beyond`, `C95_to_ddb_beyond` |
| C96 | an unknown type descriptor with the control character U+009B, which begins a control sequence of a terminal, is written to the standard error as it is | `C96_control` |
| C97 | a number at the end of what has arrived is taken at the end of the input, but not before (it may go on): `{"a":1`, `[1` | `C97_digit`, `C97_to_ddb_digit` |
| C106 | with a token that begins with a quote, a string that is not closed is accepted, although the token is not in the input | `C106_half_string` |
| C106 | behind a token, the comma in front of the end of an array is accepted: `[data:,]` | `C106_trailing_comma` |
| C106 | a number that fills the buffer and the token directly behind it are skipped as one atom | `C106_number` |
| C107 | as for C106: behind a token, the comma in front of the end of an array is accepted | `C107_trailing_comma` |
| C109 | a number or a whole value at the end of what has arrived is returned only after the reader was asked for more, and may be another one then | `C109_values_end` |
| C110 | `{"a":1`: a number at the end of the input is reported, but not if it goes on with something wrong | `C110_digit` |
| C110 | with `stop_early`, the `Ok` for an input of white space only is not final | `C110_blank` |
| C110 | `convert_normal_to_ddb` writes the final newline behind a string that is not complete, and an incomplete `true` as a value, again and again | `C110_to_ddb_string`, `C110_to_ddb_word` |
| C107 | for `[data:,] x` the end of the array is reported before the error | `C107_trailing_comma` |
| C104 | an empty slice behind byte 65535 of the data is refused | `C104_large` |
| C103 | a token that is longer than the buffer is not skipped, without an error | `C103_long_token` |
| C103 | with an empty token the function does not return, on any input | `C103_empty_token` |
| C103 | I/O errors are dropped, since only `is_ok` is looked at | `C103_lost_error` |
| C102 | with `"content":null` the example of the README writes `ull,`, then fails | `C102_null` |
| C101 | a selected value that is larger than the buffer makes scan fail, although the buffer is enough for the tokens | `C101_too_large` |
| C101 | a selected value at the very end of the input is lost if the input arrives in one piece | `C101_last` |
| C100 | without clearing the pool, the second scan reports its document below two `#top` | `C100_context` |
| C100 | `idtransform`, called twice on `1 2 `, writes `12` | `C100_numbers_run_together` |
| C99 | on `"你\"⏎x"`, byte by byte, `write_long_bytes` returns `Ok` | `C99_cut_in_escape` |
| C99 | in `["a⏎"` the error is said to be at 4, the control character is at 3 | `C99_index` |
| C98 | the column is one too large if a read ended in the space with a newline behind a comma or bracket (`[null,⏎` and then `null]`) | `C98_column` |
| C98 | the columns of the line before are added, if there is a newline in the token | `C98_newline` |
| C98 | `description` of an error of the reader panics (underflow) | `C98_panic` |
| C24 | error indexes count the buffer position twice | `C24_finish`, `C24_next_key` |
| C25 | column of `error_position` | `C25_column` |
| C26 | an I/O error loses a number, a comma, or the position | `C26_number_lost`, `C26_comma_lost`, `C26_index_moves` |
| C27 | one-byte buffer: no termination | `C27_one_byte_buffer` |
| C28 | panic with a buffer of 7 bytes | `C28_seven` |
| C31 | `scan` fails on an object whose first key is cut by a read, and on a final number | `C31_chunks`, `C31_final_number` |
| C33 | `scan` leaves `#top` in the pool; a reused pool fills up | `C33_top_is_left`, `C33_pool_used_up` |
| C34 | `scan` accepts `["你\"]` byte by byte, a part of `["你\"]"]` | `C34_cut_in_escape` |
| C38 | `idtransform` drops the keys `#top` and `#array` | `C38_top_key` |
| C40 | a token is reported as an atom; `[DONE]` is not skipped; `data:{"x…` fails if cut by a read; an empty token: no end | `C40_reported`, `C40_value_like`, `C40_chunks`, `C40_empty` |
| C41 | trailing and double commas, junk behind the brace are accepted | `C41_trailing_comma_accepted`, `C41_key_commas_accepted`, `C41_object_junk_accepted` |
| C42 | a failed lookahead truncates a following number | `C42_truncated_after_lookahead` |
| C45 | the kind of an I/O error inside of a string is lost | `C45_kind_lost` |
| C46 | `tru` makes `convert_normal_to_ddb` write for ever | `C46_endless` |
| C47 | numbers are cut to 32 bytes; a comma is written into a literal that follows an array or object; keys `#array`, `#top` | `C47_long_number`, `C47_comma`, `C47_array_key`, `C47_top_key` |
| C49 | no comma is written in front of a set in a list; in a list, the brace of a map with a field `#array` is lost | `C49_set_in_list`, `C49_array_field` |
| C50, C52 | as C47 | `C47_comma`, `C47_array_key`, `C47_long_number` |
| C52 | a document with the key `Item`, converted without the wrapper, does not come back if the wrapper is expected: `{"Item":{}}` comes back as `{"M":}`, with Ok | `C52_item_key` |
| C53 | the text of `N` is not checked; and as C49 | `C53_not_a_number` |
| C51 | an empty object where a type is expected, a value with two types, an array in a set, fields beside the wrapper | `C51_empty_type`, `C51_empty_item`, `C51_two_types`, `C51_array_in_set`, `C51_item_and_more` |
| C55 | `{{"a":1}` is accepted | `C55_double_brace` |
| C55 | the position in `UnhandledPeek` for a string with a wrong byte in it depends on the chunks | `C55_string_position` |
| C54 | values with more than one type | `C54_underflow` |
| C56 | panic behind a form feed if there are tokens and the reader fails; no end if a callback lies; panic with a buffer of 7 bytes | `C56_token_panic`, `C56_liar`, `C56_seven`, `C40_empty` |
| C57, C58 | panic with a buffer of 7 bytes | `C57_panic`, `C58_panic` |
| C59 | the index of an I/O error does not count what was shifted out; `error_position` underflows | `C59_wrong` |
| C61, C62 | a failure of the reader becomes `UnhandledPeek`; with tokens it is dropped | `C61_hidden`, `C61_dropped`, `C62_hidden` |
| C64 | a failure of the reader inside a literal is dropped, and the document is written twice, or an unrelated error is returned | `C64_twice`, `C64_wrong_error` |
| C65 | a second brace and strings in front of it, a form feed as space, bad `\u` escapes and bytes that are not UTF-8, half an escape | `C65_double_brace`, `C65_form_feed`, `C65_strings`, `C65_half_escape` |
| C66 | `idtransform` copies `["éé","\"]`, cut behind the second backslash-quote | `C66_not_json` |
| C67 | after `peek`, `known_value` and `known_skip` on an array whose first string is cut by a read fail, or succeed in the middle of it | `C67_known_value_fails`, `C67_known_value_wrong`, `C67_known_skip_wrong` |
| C68 | as C19: a value at the very end of the input is lost after `peek` | `C68_last_value_lost`, `C68_next_fails` |
| C69 | after `peek`, `next_value` on `[1 "x"]` returns `"x"`; `next_skip` skips `[1 "x"` | `C69_next_value_wrong`, `C69_next_skip_wrong` |
| C70 | `next_value` returns strings that are in the buffer, for the lifetime `'rj`: a later call overwrites them, also with bytes that are not UTF-8 | `C70_overwritten` |
| C71 | `scan` fails on every input whose first chunk ends within the first key of an object | `C71_cut` |
| C72 | `idtransform` does not copy its own output `1` | `C72_number` |
| C73 | as C49 and C47; sets come back as lists, binary values as strings (part of the statement) | `C49_set_in_list`, `C53_not_a_number`, `C47_long_number`, `C47_top_key` |
| C74 | normal_to_ddb, a string as root value whose write fails: the final newline is written nevertheless | `C74_newline` |
| C75 | without `--unbuffered` `ddb_convert` exits with status 0 though nothing was written, for every output of less than 8192 bytes and a channel that fails | `C75_silent` |
| C76 | without `--unbuffered` the last bytes in front of an error are not written (all of them if less than 8192) | `C76_nothing` |
| C77 | as C52 | `C47_long_number`, `C47_array_key`, `C52_item_key` |
| C78 | a set in 32 maps in an item with the wrapper is refused | `C78_set_in_maps` |
| C80 | a document that is not an item is accepted, and the output is not JSON | `C80_untidy` |
| C79 | a top-level number longer than the buffer is reported as two; with `stop_early`, `idtransform` stops in the middle of `["éé","\\"] "]` | `C79_long_number`, `C79_half_escape` |
| C81 | a number longer than the buffer becomes two documents | `C81_long_number` |
| C81 | a failure of the reader in the middle of `true`: the document is written twice, and the result is `Ok` | `C81_faulty` |
| C82 | `["éé","\"] tru"]` in two chunks, a JSON document: `convert_normal_to_ddb` writes `{"BOOL":true}` for ever | `C82_json_endless` |
| C83 | on documents followed by `fals` `ddb_convert to-ddb` does not exit | `C83_hangs` |
| C84 | `{"Item":1}` written without the wrapper is not read back; a number that `serde_json` reads differently from how it was written is not the same | `C84_item`, `C84_number` |
| C84 | a set is given back as a list; `{"S":true}` is taken | `C84_set`, `C84_loose` |
| C85 | a number that `serde_json` does not write as it reads it has another text in the reference output | `C85_number` |
| C85 | the reference converter refuses `{"N":"x"}`, the streaming one does not | `C85_not_a_number` |
| C86 | two documents or more, of which the first is not alone on the first line, are refused | `C86_refused` |
| C86 | empty input is refused | `C86_empty` |
| C86 | no-break spaces around a document are accepted | `C86_nbsp` |
| C86 | for a `.jsonl` file the error names the line after the one with the error | `C86_line_number` |
| C87 | `from_dynamodb` does not check what is in `S`, `B`, `BOOL`, `NULL`, `SS`, `BS` | `C87_loose` |

Properties found false of the code keep their statement in `properties.jsonl`; the negation is proved
with a concrete witness and the part that holds is proved under an explicit extra hypothesis in a
theorem with suffix `_partial`.
