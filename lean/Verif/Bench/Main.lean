import Verif.Bench.Model
import Verif.RJiter.Jiter

/-!
# Model of the benchmark's program around the converter

`benchmarks/dynamodb/ddb_convert_rust/src/main.rs` lines 41-177: `main`, `detect_jsonl_from_content`, `process_jsonl`, `process_json`. External and described here
as far as they matter: `read_line`, `lines` and `read_to_string` of `BufRead`, `str::trim`; `serde_json` is a parameter. Not modelled: the arguments
apart from their values, opening the files, errors of reading and writing, the text of messages.
-/

namespace Verif.Bench

open Verif.RJiter (Jiter.utf8Valid)

/-- `serde_json`: `from_str`, `to_string`, `to_string_pretty`, and the numbers. Nothing is assumed about them here. -/
structure Serde (ν : Type) extends Numbers ν where
  read : Bytes → Option (Value ν)
  compact : Value ν → Bytes
  pretty : Value ν → Bytes

/-- The arguments, lines 8-31. `jsonl`: there is an input file, and its name ends in `.jsonl`. -/
structure Args where
  toDdb : Bool
  pretty : Bool
  withoutItem : Bool
  jsonl : Bool

/-- The error that `main` returns. -/
inductive Stop where
  /-- The input is not UTF-8. -/
  | utf8
  /-- "Invalid JSON on line", lines 111 and 135. -/
  | line (n : Nat)
  /-- "Invalid JSON", line 163. -/
  | json
  /-- From the conversion. -/
  | fault (e : Fault)
deriving DecidableEq, Repr

/-- White space in ASCII. -/
def asciiWhite (c : Byte) : Bool := (9 ≤ c && c ≤ 13) || c == 32

/-- The UTF-8 encoding of a character with the property `White_Space` of Unicode at the start of the bytes: what is behind it. -/
def white : Bytes → Option Bytes
  | [] => none
  | c :: t =>
    if asciiWhite c then some t
    else
      match c, t with
      | 0xC2, d :: t => if d = 0x85 ∨ d = 0xA0 then some t else none
      | 0xE1, 0x9A :: 0x80 :: t => some t
      | 0xE2, 0x80 :: d :: t => if (0x80 ≤ d ∧ d ≤ 0x8A) ∨ d = 0xA8 ∨ d = 0xA9 ∨ d = 0xAF then some t else none
      | 0xE2, 0x81 :: 0x9F :: t => some t
      | 0xE3, 0x80 :: 0x80 :: t => some t
      | _, _ => none

/-- The same at the end; the bytes are in reverse order. In UTF-8 the first byte of a character is not a part of another one. -/
def whiteBack : Bytes → Option Bytes
  | [] => none
  | c :: t =>
    if asciiWhite c then some t
    else
      match t with
      | 0xC2 :: t => if c = 0x85 ∨ c = 0xA0 then some t else none
      | 0x9A :: 0xE1 :: t => if c = 0x80 then some t else none
      | 0x80 :: 0xE2 :: t => if (0x80 ≤ c ∧ c ≤ 0x8A) ∨ c = 0xA8 ∨ c = 0xA9 ∨ c = 0xAF then some t else none
      | 0x81 :: 0xE2 :: t => if c = 0x9F then some t else none
      | 0x80 :: 0xE3 :: t => if c = 0x80 then some t else none
      | _ => none

/-- As often as possible. A step takes at least one byte, therefore `fuel` is the length. -/
def strip (step : Bytes → Option Bytes) : Nat → Bytes → Bytes
  | 0, s => s
  | fuel + 1, s =>
    match step s with
    | none => s
    | some t => strip step fuel t

/-- `str::trim`. -/
def trim (s : Bytes) : Bytes :=
  let s := strip white s.length s
  (strip whiteBack s.length s.reverse).reverse

/-- `BufRead::read_line`: the bytes up to the first newline, with it, and the rest. -/
def cutLine : Bytes → Bytes × Bytes
  | [] => ([], [])
  | c :: t =>
    if c = 10 then ([10], t)
    else
      match cutLine t with
      | (l, rest) => (c :: l, rest)

/-- A line without a carriage return at its end. -/
def chomp (l : Bytes) : Bytes := if l.getLast? = some 13 then l.dropLast else l

/-- `BufRead::lines`. `acc` is the line so far. -/
def linesFrom (acc : Bytes) : Bytes → List Bytes
  | [] => if acc = [] then [] else [acc]
  | c :: t => if c = 10 then chomp acc :: linesFrom [] t else linesFrom (acc ++ [c]) t

section
variable {ν : Type} (S : Serde ν) (a : Args)

/-- One document: lines 110-122, 134-146 and 163-174. `bad` is the error if it is not JSON. -/
def one (bad : Stop) (text : Bytes) : Except Stop Bytes :=
  match S.read text with
  | none => .error bad
  | some x =>
    match (if a.toDdb then toDynamodb S.toNumbers (!a.withoutItem) x else fromDynamodb S.toNumbers x) with
    | .error e => .error (.fault e)
    | .ok y => .ok ((if a.pretty then S.pretty y else S.compact y) ++ [10])

/-- The loop over the lines, lines 126-147. `n` is `line_num`. Returns the output and the error, if there is one. -/
def eachLine : Nat → List Bytes → Bytes × Option Stop
  | _, [] => ([], none)
  | n, l :: ls =>
    if Jiter.utf8Valid l = false then ([], some .utf8)
    else if trim l = [] then eachLine (n + 1) ls
    else
      match one S a (.line (n + 2)) (trim l) with
      | .error e => ([], some e)
      | .ok out =>
        match eachLine (n + 1) ls with
        | (more, r) => (out ++ more, r)

/-- `process_jsonl`, lines 99-150. -/
def processJsonl (first rest : Bytes) : Bytes × Option Stop :=
  if trim first = [] then eachLine S a 0 (linesFrom [] rest)
  else
    match one S a (.line 1) (trim first) with
    | .error e => ([], some e)
    | .ok out =>
      match eachLine S a 0 (linesFrom [] rest) with
      | (more, r) => (out ++ more, r)

/-- `process_json`, lines 152-177. -/
def processJson (first rest : Bytes) : Bytes × Option Stop :=
  if Jiter.utf8Valid rest = false then ([], some .utf8)
  else
    match one S a .json (first ++ rest) with
    | .error e => ([], some e)
    | .ok out => (out, none)

/-- `main`, lines 41-83, with `detect_jsonl_from_content`, lines 85-97. What is written before an error reaches the output, as the `BufWriter` is
dropped. -/
def main (input : Bytes) : Bytes × Option Stop :=
  if a.jsonl then processJsonl S a [] input
  else
    match cutLine input with
    | (first, rest) =>
      if Jiter.utf8Valid first = false then ([], some .utf8)
      else if trim first = [] then processJson S a first rest
      else if (S.read (trim first)).isSome then processJsonl S a first rest
      else processJson S a first rest

end

end Verif.Bench
