import Verif.RJiter.Basic

/-!
# Model of `rjiter/src/buffer.rs`

* `buf` is the complete working buffer, including the bytes behind `n_bytes` that are left over from
  earlier contents (they matter: `handle_long` looks at one of them).
* Slice accesses of the source that are in range because of the documented contract
  `n_bytes <= buf.len()` are modelled by `take`/`drop`; the contract itself is proved to be an invariant
  (property C29). `read_more`, whose slicing would be the first to fail, has an explicit panic.
* Loops take fuel.
-/

namespace Verif.RJiter

/-- `struct Buffer`, buffer.rs lines 9-19. `line`, `column` are `pos_shifted`. -/
structure Buffer where
  reader : Reader
  buf : Bytes
  nBytes : Nat
  nShifted : Nat
  line : Nat
  column : Nat
deriving DecidableEq, Repr

namespace Buffer

/-- `Buffer::new`, buffer.rs lines 24-32. -/
def new (reader : Reader) (buf : Bytes) : Buffer := ⟨reader, buf, 0, 0, 0, 0⟩

/-- The valid part of the buffer, `buf[..n_bytes]`. -/
def valid (b : Buffer) : Bytes := b.buf.take b.nBytes

/-- `read_more`, buffer.rs lines 41-54. -/
def readMore (b : Buffer) : Buffer × Res Nat :=
  if b.buf.length < b.nBytes then (b, .panic)
  else match b.reader.read (b.buf.length - b.nBytes) with
    | (r, .error k) => ({ b with reader := r }, .err ⟨.io k, b.nBytes⟩)
    | (r, .ok bs) =>
      ({ b with reader := r,
                buf := b.buf.take b.nBytes ++ bs ++ b.buf.drop (b.nBytes + bs.length),
                nBytes := b.nBytes + bs.length }, .ok bs.length)

/-- The line/column loop of `shift_buffer`, buffer.rs lines 67-74: one byte. -/
def advance (lc : Nat × Nat) (ch : Byte) : Nat × Nat :=
  if ch = 10 then (lc.1 + 1, 0) else (lc.1, lc.2 + 1)

/-- `shift_buffer`, buffer.rs lines 62-85. -/
def shift (b : Buffer) (toPos fromPos : Nat) : Buffer :=
  let safeFrom := min fromPos b.nBytes
  let lc := if toPos < safeFrom then ((b.buf.take safeFrom).drop toPos).foldl advance (b.line, b.column)
    else (b.line, b.column)
  let b1 := { b with line := lc.1, column := lc.2 }
  if fromPos > toPos ∧ toPos < b.nBytes then
    -- `copy_within(from_pos..n_bytes, to_pos)`
    let moved := (b.buf.take b.nBytes).drop fromPos
    let buf' := if fromPos < b.nBytes then
        b.buf.take toPos ++ moved ++ b.buf.drop (toPos + moved.length)
      else b.buf
    let k := safeFrom - toPos
    { b1 with buf := buf', nBytes := b.nBytes - k, nShifted := b.nShifted + k }
  else b1

/-- `u8::is_ascii_whitespace`: space, tab, line feed, form feed, carriage return. -/
def isAsciiWs (c : Byte) : Bool := c == 32 || c == 9 || c == 10 || c == 12 || c == 13

/-- The inner loop of `collect_while`, buffer.rs lines 148-151, starting at `i`. -/
def scan (p : Byte → Bool) (b : Buffer) (i : Nat) : Nat := i + ((b.valid.drop i).takeWhile p).length

/-- `collect_while`, the loop, buffer.rs lines 146-183. -/
def collectWhileLoop (p : Byte → Bool) (startPos : Nat) (allowShift : Bool) :
    Nat → Buffer → Nat → Nat → Bool → Buffer × Res (Nat × Nat)
  | 0, b, _, _, _ => (b, .diverge)
  | fuel + 1, b, i0, cur, shifted =>
    let i := b.scan p i0
    if i < b.nBytes then (b, .ok (cur, i))
    else if b.nBytes ≥ b.buf.length then
      if !allowShift || shifted || startPos == 0 then (b, .err ⟨.bufferFull, b.nShifted⟩)
      else
        let b1 := b.shift 0 startPos
        -- `i -= start_pos` cannot underflow: `i` starts at `start_pos` and only grows before this line
        match b1.readMore with
        | (b2, .ok n) =>
          if n = 0 then (b2, .ok (0, b2.nBytes))
          else collectWhileLoop p startPos allowShift fuel b2 (i - startPos) 0 true
        | (b2, .err e) => (b2, .err e)
        | (b2, .panic) => (b2, .panic)
        | (b2, .diverge) => (b2, .diverge)
    else
      match b.readMore with
      | (b2, .ok n) =>
        if n = 0 then (b2, .ok (cur, b2.nBytes))
        else collectWhileLoop p startPos allowShift fuel b2 i cur shifted
      | (b2, .err e) => (b2, .err e)
      | (b2, .panic) => (b2, .panic)
      | (b2, .diverge) => (b2, .diverge)

/-- `collect_while`, buffer.rs lines 133-184. -/
def collectWhile (fuel : Nat) (b : Buffer) (p : Byte → Bool) (startPos : Nat) (allowShift : Bool) :
    Buffer × Res (Nat × Nat) :=
  collectWhileLoop p startPos allowShift fuel b startPos startPos false

/-- `skip_spaces`, buffer.rs lines 97-115. Both loops get the same fuel. -/
def skipSpacesLoop (fuel0 pos : Nat) : Nat → Buffer → Buffer × Res Unit
  | 0, b => (b, .diverge)
  | fuel + 1, b =>
    match b.collectWhile fuel0 isAsciiWs pos false with
    | (b1, .ok (_, e)) => (if e > pos then b1.shift pos e else b1, .ok ())
    | (b1, .err e) =>
      if e.type = .bufferFull then skipSpacesLoop fuel0 pos fuel (b1.shift pos b1.nBytes)
      else (b1, .err e)
    | (b1, .panic) => (b1, .panic)
    | (b1, .diverge) => (b1, .diverge)

@[inherit_doc skipSpacesLoop]
def skipSpaces (fuel : Nat) (b : Buffer) (pos : Nat) : Buffer × Res Unit :=
  skipSpacesLoop fuel pos fuel b

/-- `collect_count`, the loop, buffer.rs lines 212-255. -/
def collectCountLoop (count : Nat) (allowShift : Bool) :
    Nat → Buffer → Nat → Nat → Bool → Buffer × Res (Nat × Nat)
  | 0, b, _, _, _ => (b, .diverge)
  | fuel + 1, b, target, cur, shifted =>
    if b.nBytes ≥ target then (b, .ok (cur, target))
    else if b.nBytes ≥ b.buf.length then
      if !allowShift || shifted || cur == 0 then (b, .err ⟨.bufferFull, b.nShifted⟩)
      else if count > b.buf.length then (b, .err ⟨.bufferFull, b.nShifted⟩)
      else
        let b1 := b.shift 0 cur
        -- `target -= current_start` cannot underflow: `target = start_pos + count`
        match b1.readMore with
        | (b2, .ok n) =>
          if n = 0 then (b2, .ok (0, b2.nBytes))
          else collectCountLoop count allowShift fuel b2 (target - cur) 0 true
        | (b2, .err e) => (b2, .err e)
        | (b2, .panic) => (b2, .panic)
        | (b2, .diverge) => (b2, .diverge)
    else
      match b.readMore with
      | (b2, .ok n) =>
        if n = 0 then (b2, .ok (cur, b2.nBytes))
        else collectCountLoop count allowShift fuel b2 target cur shifted
      | (b2, .err e) => (b2, .err e)
      | (b2, .panic) => (b2, .panic)
      | (b2, .diverge) => (b2, .diverge)

/-- `collect_count`, buffer.rs lines 202-256. -/
def collectCount (fuel : Nat) (b : Buffer) (count startPos : Nat) (allowShift : Bool) :
    Buffer × Res (Nat × Nat) :=
  collectCountLoop count allowShift fuel b (startPos + count) startPos false

/-- `skip_n`, the loop, buffer.rs lines 278-307. -/
def skipNLoop : Nat → Buffer → Nat → Nat → Nat → Buffer × Res (Nat × Nat)
  | 0, b, _, _, _ => (b, .diverge)
  | fuel + 1, b, remaining, cur, total =>
    if remaining = 0 then (b, .ok (cur, total))
    else
      let available := b.nBytes - cur
      if available ≥ remaining then (b, .ok (cur + remaining, total + remaining))
      else
        -- with `available = 0` the three assignments of the source do nothing
        let total1 := total + available
        let remaining1 := remaining - available
        let cur1 := cur + available
        let full := b.nBytes == b.buf.length
        let b1 := if full then b.shift 0 cur1 else b
        let cur2 := if full then 0 else cur1
        match b1.readMore with
        | (b2, .ok n) =>
          if n = 0 then (b2, .ok (cur2, total1))
          else skipNLoop fuel b2 remaining1 cur2 total1
        | (b2, .err e) => (b2, .err e)
        | (b2, .panic) => (b2, .panic)
        | (b2, .diverge) => (b2, .diverge)

/-- `skip_n`, buffer.rs lines 273-310. -/
def skipN (fuel : Nat) (b : Buffer) (count startPos : Nat) : Buffer × Res (Nat × Nat) :=
  skipNLoop fuel b count startPos 0

end Buffer

/-- `ChangeFlag::is_changed`, buffer.rs lines 325-343: `before` is the buffer at `ChangeFlag::new`. -/
def isChanged (before after : Buffer) : Bool :=
  before.nShifted != after.nShifted || before.nBytes != after.nBytes

end Verif.RJiter
