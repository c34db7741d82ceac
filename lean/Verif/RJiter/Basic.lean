import Verif.Base

/-!
# Errors, results and the reader of `rjiter`

Source: `/repo/rjiter/src/error.rs`; the traits `embedded_io::Read` and jiter's error types are external.
-/

namespace Verif.RJiter

/-- The variants of jiter's `JsonErrorType` that the modelled functions can produce
(`/repo/rjiter/src/error.rs` line 4 imports the type from jiter 0.8.2). -/
inductive JsonErr where
  | eofWhileParsingList | eofWhileParsingObject | eofWhileParsingString | eofWhileParsingValue
  | expectedColon | expectedListCommaOrEnd | expectedObjectCommaOrEnd | expectedSomeIdent
  | expectedSomeValue | invalidEscape | invalidNumber | invalidUnicodeCodePoint
  | controlCharacterWhileParsingString | keyMustBeAString | loneLeadingSurrogateInHexEscape
  | trailingComma | trailingCharacters | unexpectedEndOfHexEscape
  | numberOutOfRange | recursionLimitExceeded
deriving DecidableEq, Repr

/-- jiter's `JiterErrorType` (`WrongType { expected, actual }` without its two fields). -/
inductive JErrType where
  | json (e : JsonErr)
  | wrongType
deriving DecidableEq, Repr

/-- jiter's `JiterError`: type and index (here relative to the jiter position at the start of the call,
see `Jiter.lean`). -/
structure JErr where
  type : JErrType
  index : Nat
deriving DecidableEq, Repr

/-- `ErrorType`, error.rs lines 15-32. An I/O error kind is a number. -/
inductive ErrType where
  | json (e : JsonErr)
  | wrongType
  | io (kind : Nat)
  | bufferFull
deriving DecidableEq, Repr

/-- `Error`, error.rs lines 50-55. -/
structure Err where
  type : ErrType
  index : Nat
deriving DecidableEq, Repr

/-- Outcome of a call: `Ok`, `Err`, a panic, or no return (the fuel given to a loop ran out). -/
inductive Res (α : Type) where
  | ok (a : α)
  | err (e : Err)
  | panic
  | diverge
deriving DecidableEq, Repr

/-- The `match jiter_error.error_type` of `from_jiter_error`, error.rs lines 67-72. -/
def ErrType.ofJ : JErrType → ErrType
  | .json e => .json e
  | .wrongType => .wrongType

/-- `Error::from_jiter_error`, error.rs lines 65-75. `jindex` is the jiter error's absolute index in the
jiter's slice. -/
def Err.fromJiter (index : Nat) (t : JErrType) (jindex : Nat) : Err := ⟨.ofJ t, jindex + index⟩

/-- `allowed_if_partial`, error.rs lines 116-126. -/
def allowedIfPartial : JsonErr → Bool
  | .eofWhileParsingList | .eofWhileParsingObject | .eofWhileParsingString | .eofWhileParsingValue
  | .expectedListCommaOrEnd | .expectedObjectCommaOrEnd => true
  | _ => false

/-- `can_retry_if_partial`, error.rs lines 128-133. -/
def canRetry : JErrType → Bool
  | .json e => allowedIfPartial e
  | .wrongType => false

/-! ## The reader -/

/-- One event of a reader's schedule: some bytes become available (at least one), or a read fails. -/
inductive Event where
  | data (b : Byte) (bs : Bytes)
  | fail (kind : Nat)
deriving DecidableEq, Repr

/-- A reader is the list of its future events, followed by end of input for ever. -/
abbrev Reader := List Event

/-- All bytes a reader will still deliver. -/
def Reader.pending : Reader → Bytes
  | [] => []
  | .data b bs :: r => b :: bs ++ Reader.pending r
  | .fail _ :: r => Reader.pending r

/-- Number of events and bytes, an upper bound for the number of reads that can still do something. -/
def Reader.size : Reader → Nat
  | [] => 0
  | .data _ bs :: r => bs.length + 1 + Reader.size r
  | .fail _ :: r => 1 + Reader.size r

/-- A reader without I/O errors. -/
def Reader.Clean : Reader → Prop
  | [] => True
  | .data _ _ :: r => Reader.Clean r
  | .fail _ :: _ => False

/-- `embedded_io::Read::read` on a slice with `room` bytes. An empty slice gives `Ok(0)`; otherwise at
least one and at most `room` bytes of the next chunk are delivered, the rest of the chunk stays. -/
def Reader.read (r : Reader) (room : Nat) : Reader × Except Nat Bytes :=
  if room = 0 then (r, .ok [])
  else match r with
    | [] => ([], .ok [])
    | .fail k :: r' => (r', .error k)
    | .data b bs :: r' =>
      match bs.drop (room - 1) with
      | [] => (r', .ok (b :: bs))
      | c :: cs => (.data c cs :: r', .ok (b :: bs.take (room - 1)))

end Verif.RJiter
