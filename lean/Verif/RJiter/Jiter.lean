import Verif.RJiter.Basic

/-!
# Model of the parts of jiter 0.8.2 that `rjiter` calls

jiter is an external crate that is not in the sandbox: this file is part of the trusted base. It follows
jiter's `parse.rs`, `string_decoder.rs`, `number_decoder.rs`, `jiter.rs` and `errors.rs` as far as they are
documented; it does not model lax modes or the conversion of number
tokens to `f64`, `i64` and big integers. The functions that read or skip a whole value are in `JiterValue.lean`.

A jiter call reads `data[index..]` only and moves `index` forward, so it is modelled as a function from the
remaining bytes to (number of bytes the index moved, result); error indexes are relative to the index at
the start of the call. The index moves even if the call fails, exactly as in jiter.
-/

namespace Verif.RJiter

/-- A jiter call. -/
abbrev JFn (α : Type) := Bytes → Nat × Except JErr α

/-- Result shorthand: JSON error `e` at relative index `i`, with the parser moved by `n`. -/
def jerr {α : Type} (n : Nat) (e : JsonErr) (i : Nat) : Nat × Except JErr α := (n, .error ⟨.json e, i⟩)

namespace Jiter

/-- JSON whitespace as eaten by jiter (`eat_whitespace`): space, CR, tab, LF. -/
def isWs (c : Byte) : Bool := c == 32 || c == 13 || c == 9 || c == 10

/-- Length of the leading whitespace. -/
def wsLen (d : Bytes) : Nat := (d.takeWhile isWs).length

/-- `peek`: eat whitespace, return the next byte (a `Peek` is that byte) without consuming it. -/
def peek : JFn Byte := fun d =>
  let w := wsLen d
  match d.drop w with
  | [] => jerr w .eofWhileParsingValue w
  | c :: _ => (w, .ok c)

/-- `finish`: eat whitespace; anything left is an error. -/
def finish : JFn Unit := fun d =>
  let w := wsLen d
  match d.drop w with
  | [] => (w, .ok ())
  | _ :: _ => jerr w .trailingCharacters w

/-- `known_array` (parser `array_first`). -/
def knownArray : JFn (Option Byte) := fun d =>
  let w := 1 + wsLen (d.drop 1)
  match d.drop w with
  | [] => jerr w .eofWhileParsingList w
  | c :: _ => if c = 93 then (w + 1, .ok none) else (w, .ok (some c))

/-- `next_array`: peek first. -/
def nextArray : JFn (Option Byte) := fun d =>
  match peek d with
  | (w, .error e) => (w, .error e)
  | (w, .ok c) =>
    if c = 91 then
      match knownArray (d.drop w) with
      | (n, .error e) => (w + n, .error ⟨e.type, w + e.index⟩)
      | (n, .ok r) => (w + n, .ok r)
    else (w, .error ⟨.wrongType, w⟩)

/-- `array_step`, with the inner `array_peek`. -/
def arrayStep : JFn (Option Byte) := fun d =>
  let w := wsLen d
  match d.drop w with
  | [] => jerr w .eofWhileParsingList w
  | c :: t =>
    if c = 44 then
      let w2 := w + 1 + wsLen t
      match d.drop w2 with
      | [] => jerr w2 .eofWhileParsingValue w2
      | c2 :: _ => if c2 = 93 then jerr w2 .trailingComma w2 else (w2, .ok (some c2))
    else if c = 93 then (w + 1, .ok none)
    else jerr w .expectedListCommaOrEnd w

/-! ### Identifiers -/

/-- `consume_ident`: the first byte is not looked at; `rest` are the bytes expected after it. The error index
is where the comparison stopped, the parser index does not move on error. -/
def matchIdent : Bytes → Bytes → Nat → Option (JsonErr × Nat)
  | [], _, _ => none
  | _ :: _, [], i => some (.eofWhileParsingValue, i)
  | r :: rs, c :: cs, i => if r = c then matchIdent rs cs (i + 1) else some (.expectedSomeIdent, i)

@[inherit_doc matchIdent]
def consumeIdent {α : Type} (rest : Bytes) (v : α) : JFn α := fun d =>
  match matchIdent rest (d.drop 1) 1 with
  | none => (1 + rest.length, .ok v)
  | some (e, i) => jerr 0 e i

/-- `known_null`. -/
def knownNull : JFn Unit := consumeIdent [117, 108, 108] ()

/-- `known_bool(peek)`. -/
def knownBool (pk : Byte) : JFn Bool := fun d =>
  if pk = 116 then consumeIdent [114, 117, 101] true d
  else if pk = 102 then consumeIdent [97, 108, 115, 101] false d
  else (0, .error ⟨.wrongType, 0⟩)

/-- `next_null`, `next_bool`: peek first. -/
def nextNull : JFn Unit := fun d =>
  match peek d with
  | (w, .error e) => (w, .error e)
  | (w, .ok c) =>
    if c = 110 then
      match knownNull (d.drop w) with
      | (n, .error e) => (w + n, .error ⟨e.type, w + e.index⟩)
      | (n, .ok r) => (w + n, .ok r)
    else (w, .error ⟨.wrongType, w⟩)

@[inherit_doc nextNull]
def nextBool : JFn Bool := fun d =>
  match peek d with
  | (w, .error e) => (w, .error e)
  | (w, .ok c) =>
    match knownBool c (d.drop w) with
    | (n, .error e) => (w + n, .error ⟨e.type, w + e.index⟩)
    | (n, .ok r) => (w + n, .ok r)

/-! ### Strings -/

/-- The scan of `StringDecoderRange`, behind the opening quote: length up to the closing quote. Simple
escapes are checked; of a unicode escape only that no quote follows the `u`. -/
def rawString : Bytes → Nat → Except (JsonErr × Nat) Nat
  | [], i => .error (.eofWhileParsingString, i)
  | c :: cs, i =>
    if c = 34 then .ok i
    else if c = 92 then
      match cs with
      | [] => .error (.eofWhileParsingString, i + 1)
      | e :: cs' =>
        if e = 34 ∨ e = 92 ∨ e = 47 ∨ e = 98 ∨ e = 102 ∨ e = 110 ∨ e = 114 ∨ e = 116 then
          rawString cs' (i + 2)
        else if e = 117 then
          if cs'.head? = some 34 then .error (.invalidEscape, i + 2) else rawString cs' (i + 2)
        else .error (.invalidEscape, i + 1)
    else if c < 32 then .error (.controlCharacterWhileParsingString, i)
    else rawString cs (i + 1)

/-- `known_bytes`: raw bytes between the quotes (the opening quote is not looked at). -/
def knownBytes : JFn Bytes := fun d =>
  match rawString (d.drop 1) 0 with
  | .error (e, i) => jerr 0 e (1 + i)
  | .ok n => (n + 2, .ok ((d.drop 1).take n))

/-- Value of a hexadecimal digit. -/
def hexVal (c : Byte) : Option Nat :=
  if 48 ≤ c ∧ c ≤ 57 then some (c.toNat - 48)
  else if 97 ≤ c ∧ c ≤ 102 then some (c.toNat - 87)
  else if 65 ≤ c ∧ c ≤ 70 then some (c.toNat - 55)
  else none

/-- `parse_u4`: four hexadecimal digits. -/
def parseU4 : Bytes → Nat → Except (JsonErr × Nat) Nat
  | a :: b :: c :: d :: _, i =>
    match hexVal a, hexVal b, hexVal c, hexVal d with
    | some a, some b, some c, some d => .ok (((a * 16 + b) * 16 + c) * 16 + d)
    | _, _, _, _ => .error (.invalidEscape, i)
  | _, i => .error (.eofWhileParsingString, i)

/-- UTF-8 encoding of a scalar value. -/
def encodeUtf8 (n : Nat) : Bytes :=
  if n < 0x80 then [UInt8.ofNat n]
  else if n < 0x800 then [UInt8.ofNat (0xC0 + n / 64), UInt8.ofNat (0x80 + n % 64)]
  else if n < 0x10000 then
    [UInt8.ofNat (0xE0 + n / 4096), UInt8.ofNat (0x80 + n / 64 % 64), UInt8.ofNat (0x80 + n % 64)]
  else
    [UInt8.ofNat (0xF0 + n / 262144), UInt8.ofNat (0x80 + n / 4096 % 64),
     UInt8.ofNat (0x80 + n / 64 % 64), UInt8.ofNat (0x80 + n % 64)]

/-- `parse_escape`, behind `\u`: decoded bytes and number of bytes read. -/
def unicodeEscape (d : Bytes) (i : Nat) : Except (JsonErr × Nat) (Bytes × Nat) :=
  match parseU4 d i with
  | .error e => .error e
  | .ok n =>
    if 0xDC00 ≤ n ∧ n ≤ 0xDFFF then .error (.loneLeadingSurrogateInHexEscape, i + 3)
    else if 0xD800 ≤ n ∧ n ≤ 0xDBFF then
      match d.drop 4 with
      | 92 :: 117 :: d2 =>
        match parseU4 d2 (i + 6) with
        | .error e => .error e
        | .ok n2 =>
          if 0xDC00 ≤ n2 ∧ n2 ≤ 0xDFFF then
            .ok (encodeUtf8 (0x10000 + (n - 0xD800) * 0x400 + (n2 - 0xDC00)), 10)
          else .error (.loneLeadingSurrogateInHexEscape, i + 9)
      | [] => .error (.eofWhileParsingString, i + 4)
      | [92] => .error (.eofWhileParsingString, i + 5)
      | 92 :: _ :: _ => .error (.unexpectedEndOfHexEscape, i + 5)
      | _ :: _ => .error (.loneLeadingSurrogateInHexEscape, i + 4)
    else .ok (encodeUtf8 n, 4)

/-- One-character escapes. -/
def simpleEscape (e : Byte) : Option Byte :=
  if e = 34 then some 34 else if e = 92 then some 92 else if e = 47 then some 47
  else if e = 98 then some 8 else if e = 102 then some 12 else if e = 110 then some 10
  else if e = 114 then some 13 else if e = 116 then some 9 else none

/-- The scan of `StringDecoder`, behind the opening quote: decoded bytes and length up to the closing quote.
Fuel is the number of bytes left, see `decodeString`. -/
def decodeLoop : Nat → Bytes → Nat → Bytes → Except (JsonErr × Nat) (Bytes × Nat)
  | 0, _, i, _ => .error (.eofWhileParsingString, i)
  | fuel + 1, d, i, acc =>
    match d with
    | [] => .error (.eofWhileParsingString, i)
    | c :: cs =>
      if c = 34 then .ok (acc, i)
      else if c = 92 then
        match cs with
        | [] => .error (.eofWhileParsingString, i + 1)
        | e :: cs' =>
          match simpleEscape e with
          | some x => decodeLoop fuel cs' (i + 2) (acc ++ [x])
          | none =>
            if e = 117 then
              match unicodeEscape cs' (i + 2) with
              | .error er => .error er
              | .ok (bs, n) => decodeLoop fuel (cs'.drop n) (i + 2 + n) (acc ++ bs)
            else .error (.invalidEscape, i + 1)
      else if c < 32 then .error (.controlCharacterWhileParsingString, i)
      else decodeLoop fuel cs (i + 1) (acc ++ [c])

/-- Continuation byte of UTF-8. -/
def isCont (c : Byte) : Bool := 0x80 ≤ c && c < 0xC0

/-- Well-formed UTF-8 (`core::str::from_utf8`). -/
def utf8Valid : Bytes → Bool
  | [] => true
  | a :: r =>
    if a < 0x80 then utf8Valid r
    else if 0xC2 ≤ a && a < 0xE0 then
      match r with
      | b :: r => isCont b && utf8Valid r
      | _ => false
    else if 0xE0 ≤ a && a < 0xF0 then
      match r with
      | b :: c :: r => isCont b && isCont c && (a != 0xE0 || 0xA0 ≤ b) && (a != 0xED || b < 0xA0)
          && utf8Valid r
      | _ => false
    else if 0xF0 ≤ a && a < 0xF5 then
      match r with
      | b :: c :: d :: r => isCont b && isCont c && isCont d && (a != 0xF0 || 0x90 ≤ b)
          && (a != 0xF4 || b < 0x90) && utf8Valid r
      | _ => false
    else false

/-- `StringDecoder::decode` behind the opening quote. -/
def decodeString (d : Bytes) : Except (JsonErr × Nat) (Bytes × Nat) :=
  match decodeLoop (d.length + 1) d 0 [] with
  | .error e => .error e
  | .ok (s, n) => if utf8Valid s then .ok (s, n) else .error (.invalidUnicodeCodePoint, n)

/-- `known_str`: decoded string as UTF-8 bytes (the opening quote is not looked at). -/
def knownStr : JFn Bytes := fun d =>
  match decodeString (d.drop 1) with
  | .error (e, i) => jerr 0 e (1 + i)
  | .ok (s, n) => (n + 2, .ok s)

/-- `next_bytes` / `next_str`: peek first. -/
def nextString (known : JFn Bytes) : JFn Bytes := fun d =>
  match peek d with
  | (w, .error e) => (w, .error e)
  | (w, .ok c) =>
    if c = 34 then
      match known (d.drop w) with
      | (n, .error e) => (w + n, .error ⟨e.type, w + e.index⟩)
      | (n, .ok r) => (w + n, .ok r)
    else (w, .error ⟨.wrongType, w⟩)

/-! ### Objects -/

/-- `object_key`: a string, whitespace, a colon. `known` is `knownStr` or `knownBytes`. -/
def objectKey (known : JFn Bytes) : JFn Bytes := fun d =>
  match known d with
  | (n, .error e) => (n, .error e)
  | (n, .ok k) =>
    let w := n + wsLen (d.drop n)
    match d.drop w with
    | [] => jerr w .eofWhileParsingObject w
    | c :: _ => if c = 58 then (w + 1, .ok k) else jerr w .expectedColon w

/-- Run `objectKey` at offset `w`. -/
def keyAt (known : JFn Bytes) (d : Bytes) (w : Nat) : Nat × Except JErr (Option Bytes) :=
  match objectKey known (d.drop w) with
  | (n, .error e) => (w + n, .error ⟨e.type, w + e.index⟩)
  | (n, .ok k) => (w + n, .ok (some k))

/-- `known_object` (parser `object_first`). -/
def knownObject (known : JFn Bytes) : JFn (Option Bytes) := fun d =>
  let w := 1 + wsLen (d.drop 1)
  match d.drop w with
  | [] => jerr w .eofWhileParsingObject w
  | c :: _ =>
    if c = 34 then keyAt known d w
    else if c = 125 then (w + 1, .ok none)
    else jerr w .keyMustBeAString w

/-- `next_object` / `next_object_bytes`: peek first. -/
def nextObject (known : JFn Bytes) : JFn (Option Bytes) := fun d =>
  match peek d with
  | (w, .error e) => (w, .error e)
  | (w, .ok c) =>
    if c = 123 then
      match knownObject known (d.drop w) with
      | (n, .error e) => (w + n, .error ⟨e.type, w + e.index⟩)
      | (n, .ok r) => (w + n, .ok r)
    else (w, .error ⟨.wrongType, w⟩)

/-- `next_key` / `next_key_bytes` (parser `object_step`). -/
def nextKey (known : JFn Bytes) : JFn (Option Bytes) := fun d =>
  let w := wsLen d
  match d.drop w with
  | [] => jerr w .eofWhileParsingObject w
  | c :: t =>
    if c = 44 then
      let w2 := w + 1 + wsLen t
      match d.drop w2 with
      | [] => jerr w2 .eofWhileParsingValue w2
      | c2 :: _ =>
        if c2 = 34 then keyAt known d w2
        else if c2 = 125 then jerr w2 .trailingComma w2
        else jerr w2 .keyMustBeAString w2
    else if c = 125 then (w + 1, .ok none)
    else jerr w .expectedObjectCommaOrEnd w

/-! ### Numbers -/

/-- ASCII digit. -/
def isDigit (c : Byte) : Bool := 48 ≤ c && c ≤ 57

/-- Length of the leading digits. -/
def digits (d : Bytes) : Nat := (d.takeWhile isDigit).length

/-- At least one digit is required at this place. -/
def needDigit (d : Bytes) (i : Nat) : Except (JsonErr × Nat) Unit :=
  match d with
  | [] => .error (.eofWhileParsingValue, i)
  | c :: _ => if isDigit c then .ok () else .error (.invalidNumber, i)

/-- `consume_exponential`, behind the `e`. -/
def exponent (d : Bytes) (i : Nat) : Except (JsonErr × Nat) Nat :=
  let s := match d with
    | c :: _ => if c = 43 ∨ c = 45 then 1 else 0
    | [] => 0
  match needDigit (d.drop s) (i + s) with
  | .error e => .error e
  | .ok () => .ok (i + s + digits (d.drop s))

/-- `consume_decimal`, behind the `.`. -/
def decimal (d : Bytes) (i : Nat) : Except (JsonErr × Nat) Nat :=
  match needDigit d i with
  | .error e => .error e
  | .ok () =>
    let n := digits d
    match d.drop n with
    | c :: t => if c = 101 ∨ c = 69 then exponent t (i + n + 1) else .ok (i + n)
    | [] => .ok (i + n)

/-- Behind the integer digits. -/
def numberTail (d : Bytes) (i : Nat) : Except (JsonErr × Nat) Nat :=
  match d with
  | c :: t =>
    if c = 46 then decimal t (i + 1)
    else if c = 101 ∨ c = 69 then exponent t (i + 1)
    else .ok i
  | [] => .ok i

/-- `NumberRange::decode` on a token that starts with `-` or a digit: end of the token. -/
def numberEnd (d : Bytes) : Except (JsonErr × Nat) Nat :=
  let s := match d with
    | c :: _ => if c = 45 then 1 else 0
    | [] => 0
  match needDigit (d.drop s) s with
  | .error e => .error e
  | .ok () =>
    match d.drop s with
    | 48 :: t =>
      match t with
      | c :: _ => if isDigit c then .error (.invalidNumber, s + 1) else numberTail t (s + 1)
      | [] => .ok (s + 1)
    | t => let n := digits t; numberTail (t.drop n) (s + n)

/-- The number token (`consume_number::<NumberRange>`): its bytes. -/
def numberTok : JFn Bytes := fun d =>
  match numberEnd d with
  | .error (e, i) => jerr 0 e i
  | .ok n => (n, .ok (d.take n))

/-- `next_number_bytes`: peek, then the number token. `Infinity`/`NaN` are not allowed (`Jiter::new`). -/
def nextNumberBytes : JFn Bytes := fun d =>
  match peek d with
  | (w, .error e) => (w, .error e)
  | (w, .ok c) =>
    if c = 45 ∨ isDigit c then
      match numberEnd (d.drop w) with
      | .error (e, i) => jerr w e (w + i)
      | .ok n => (w + n, .ok ((d.drop w).take n))
    else (w, .error ⟨.wrongType, w⟩)

/-! ### Positions -/

/-- `LinePosition::find(data, index)` (jiter `errors.rs`), used by `Jiter::error_position`. -/
def findLoop : Bytes → Nat → Nat → Nat → Nat → Nat × Nat
  | [], i, _, line, lastStart => (line, i - lastStart)
  | c :: cs, i, target, line, lastStart =>
    let line' := if c = 10 then line + 1 else line
    let last' := if c = 10 then i + 1 else lastStart
    if i = target then (line', i + 1 - last') else findLoop cs (i + 1) target line' last'

@[inherit_doc findLoop]
def linePosition (data : Bytes) (index : Nat) : Nat × Nat := findLoop data 0 index 1 0

end Jiter

end Verif.RJiter
