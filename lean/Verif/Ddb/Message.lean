import Verif.Ddb.Cli

/-!
# Model of the messages: `Display` of the errors, and what `main` writes to the standard error

The texts of types that are not of this project (jiter, embedded_io) are parameters (`Texts`).
-/

namespace Verif.Ddb

open Verif.RJiter (JsonErr ErrType Err)
open Verif.RJiter.Jiter (isCont)
open Verif.Scan (SErr)

/-- The bytes of a text. -/
def utf8 (s : String) : Bytes := s.toUTF8.toList

/-- `Display` and `Debug` of foreign types. The model of jiter does not tell which types a `WrongType` is about, therefore its two texts are
parameters too; a statement for all `Texts` is one for all pairs of types. -/
structure Texts where
  /-- `Display` of `JsonErrorType` -/
  json : JsonErr → Bytes
  /-- `Debug` of `JsonErrorType` -/
  jsonDebug : JsonErr → Bytes
  /-- `{expected} but found {actual}` -/
  types : Bytes
  /-- `{ expected: .., actual: .. }` -/
  typesDebug : Bytes
  /-- `Display` of `embedded_io::ErrorKind` -/
  kind : Nat → Bytes
  /-- `Debug` of `embedded_io::ErrorKind` -/
  kindDebug : Nat → Bytes
  /-- `Debug` of `Peek` -/
  peek : Byte → Bytes

/-- `Display` of `usize`. -/
def decimal (n : Nat) : Bytes := if n < 10 then [UInt8.ofNat (48 + n)] else decimal (n / 10) ++ [UInt8.ofNat (48 + n % 10)]

/-- U+FFFD -/
def replacement : Bytes := [0xEF, 0xBF, 0xBD]

/-- A second byte that goes with the first one of three or four. -/
def secondOk (a b : Byte) : Bool :=
  isCont b && (a != 0xE0 || 0xA0 ≤ b) && (a != 0xED || b < 0xA0) && (a != 0xF0 || 0x90 ≤ b) && (a != 0xF4 || b < 0x90)

/-- `String::from_utf8_lossy`: every longest beginning of a character that is not one is replaced by U+FFFD. -/
def lossy : Bytes → Bytes
  | [] => []
  | a :: r =>
    if a < 0x80 then a :: lossy r
    else if 0xC2 ≤ a && a < 0xE0 then
      match r with
      | [] => replacement
      | b :: r1 => if isCont b then a :: b :: lossy r1 else replacement ++ lossy (b :: r1)
    else if 0xE0 ≤ a && a < 0xF0 then
      match r with
      | [] => replacement
      | b :: r1 =>
        if secondOk a b then
          match r1 with
          | [] => replacement
          | c :: r2 => if isCont c then a :: b :: c :: lossy r2 else replacement ++ lossy (c :: r2)
        else replacement ++ lossy (b :: r1)
    else if 0xF0 ≤ a && a < 0xF5 then
      match r with
      | [] => replacement
      | b :: r1 =>
        if secondOk a b then
          match r1 with
          | [] => replacement
          | c :: r2 =>
            if isCont c then
              match r2 with
              | [] => replacement
              | d :: r3 => if isCont d then a :: b :: c :: d :: lossy r3 else replacement ++ lossy (d :: r3)
            else replacement ++ lossy (c :: r2)
        else replacement ++ lossy (b :: r1)
    else replacement ++ lossy r

variable (T : Texts)

/-- `Display` of `ErrorType`, rjiter/src/error.rs lines 34-46. -/
def errTypeText : ErrType → Bytes
  | .json e => utf8 "JSON parsing error: " ++ T.json e
  | .wrongType => utf8 "expected " ++ T.types
  | .io k => utf8 "I/O operation failed: " ++ T.kind k
  | .bufferFull => utf8 "buffer is full"

/-- The derived `Debug` of `ErrorType`, rjiter/src/error.rs line 13. -/
def errTypeDebug : ErrType → Bytes
  | .json e => utf8 "JsonError(" ++ T.jsonDebug e ++ utf8 ")"
  | .wrongType => utf8 "WrongType " ++ T.typesDebug
  | .io k => utf8 "IoError { kind: " ++ T.kindDebug k ++ utf8 " }"
  | .bufferFull => utf8 "BufferFull"

/-- `Display` of `Error`, rjiter/src/error.rs lines 57-62. -/
def errText (e : Err) : Bytes := errTypeText T e.type ++ utf8 " at index " ++ decimal e.index

/-- `Display` of `Error`, scan_json/src/error.rs lines 42-68. -/
def scanText : SErr → Bytes
  | .rjiter e => errText T e
  | .unhandledPeek peek p => utf8 "UnhandledPeek: " ++ T.peek peek ++ utf8 " at position " ++ decimal p
  | .unbalancedJson p => utf8 "Unbalanced JSON at position " ++ decimal p
  | .internal p m => utf8 "Internal error at position " ++ decimal p ++ utf8 ": " ++ utf8 m
  | .maxNesting p level => utf8 "Max nesting exceeded at position " ++ decimal p ++ utf8 " with level " ++ decimal level
  | .action m p => utf8 "Action error: " ++ utf8 m ++ utf8 " at position " ++ decimal p
  | .io k => utf8 "IO error: " ++ T.kind k

/-- `Display` of `ConversionError`, examples/dynamodb/src/lib.rs lines 48-80. -/
def convText : ConvErr → Bytes
  | .rjiter kind c => utf8 "RJiter error: " ++ errTypeDebug T kind ++ utf8 " (while " ++ utf8 c ++ utf8 ")"
  | .io k c => utf8 "IO error: " ++ T.kindDebug k ++ utf8 " (while " ++ utf8 c ++ utf8 ")"
  | .parse c (some u) => utf8 "Parse error: " ++ utf8 c ++ utf8 " (unknown type descriptor '" ++ lossy u ++ utf8 "')"
  | .parse c none => utf8 "Parse error: " ++ utf8 c
  | .scan e => scanText T e

/-- What `main` writes to the standard error, examples/dynamodb/src/main.rs lines 133-134: `eprintln!`, if there is an error. Not modelled: the
message of a panic, and that writing to the standard error can fail. -/
def stderr : Conv → Bytes
  | .err e p => utf8 "Error at position " ++ decimal p ++ utf8 ": " ++ convText T e ++ [10]
  | .ok => []
  | .panic => []
  | .diverge => []

end Verif.Ddb
