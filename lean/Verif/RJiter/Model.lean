import Verif.RJiter.Buffer
import Verif.RJiter.Jiter

/-!
# Model of `rjiter/src/rjiter.rs`

The jiter inside an `RJiter` holds an alias of the working buffer (created with `transmute`), so it sees every
later change of the bytes in its range. It is modelled by its slice length `jlen` and its index `jidx`; its
data is looked up in the buffer at the time of the call.
-/

namespace Verif.RJiter

/-- `struct RJiter`, rjiter.rs lines 11-14. -/
structure RJ where
  b : Buffer
  jlen : Nat
  jidx : Nat
deriving DecidableEq, Repr

/-- A failing `write_all`: the error kind, and how many bytes got out before it failed. -/
structure WriteFault where
  kind : Nat
  part : Nat
deriving DecidableEq, Repr

/-- A writer: what has been written, and what the next `write_all` calls will do (`none`: succeed; all calls
behind the end of the list succeed). -/
structure Writer where
  out : Bytes
  plan : List (Option WriteFault)
deriving DecidableEq, Repr

/-- `write_all` of `embedded_io::Write`: `some kind` if it fails. -/
def Writer.writeAll (w : Writer) (bs : Bytes) : Writer × Option Nat :=
  match w.plan with
  | [] => ({ w with out := w.out ++ bs }, none)
  | none :: plan => (⟨w.out ++ bs, plan⟩, none)
  | some f :: plan => (⟨w.out ++ bs.take f.part, plan⟩, some f.kind)

namespace RJ

/-- `RJiter::new`, rjiter.rs lines 32-45. -/
def new (reader : Reader) (buf : Bytes) : RJ := ⟨.new reader buf, 0, 0⟩

/-- `create_new_jiter`, rjiter.rs lines 47-54. -/
def refresh (s : RJ) : RJ := { s with jlen := s.b.nBytes, jidx := 0 }

/-- The bytes the jiter has in front of it. -/
def jdata (s : RJ) : Bytes := (s.b.buf.take s.jlen).drop s.jidx

/-- Call a jiter function on the inner jiter. -/
def call {α : Type} (s : RJ) (f : JFn α) : RJ × Except JErr α :=
  ({ s with jidx := s.jidx + (f s.jdata).1 }, (f s.jdata).2)

/-- `current_index`, rjiter.rs lines 476-478. -/
def currentIndex (s : RJ) : Nat := s.jidx + s.b.nShifted

/-- `RJiterError::from_jiter_error(self.current_index(), e)`: `s` is the state after the failing jiter call,
`start` the jiter index before it. -/
def mkErr (s : RJ) (start : Nat) (e : JErr) : Err := .fromJiter s.currentIndex e.type (start + e.index)

/-- `skip_spaces_feeding`, rjiter.rs lines 419-446. -/
def skipSpacesFeeding (fuel : Nat) (s : RJ) (jiterPos : Nat) (tok : Option Byte) : RJ × Res Unit :=
  let b0 := if jiterPos > 0 then s.b.shift 0 jiterPos else s.b
  let done (b : Buffer) : RJ × Res Unit :=
    if isChanged s.b b then (({ s with b := b } : RJ).refresh, .ok ()) else ({ s with b := b }, .ok ())
  match b0.skipSpaces fuel 0 with
  | (b1, .ok ()) =>
    match tok with
    | none => done b1
    | some t =>
      match (if b1.nBytes ≤ 0 then b1.readMore else (b1, .ok 0)) with
      | (b2, .ok _) =>
        if 0 < b2.nBytes ∧ b2.buf[0]? = some t then
          match b2.skipSpaces fuel 1 with
          | (b3, .ok ()) => done b3
          | (b3, .err e) => ({ s with b := b3 }, .err e)
          | (b3, .panic) => ({ s with b := b3 }, .panic)
          | (b3, .diverge) => ({ s with b := b3 }, .diverge)
        else done b2
      | (b2, .err e) => ({ s with b := b2 }, .err e)
      | (b2, .panic) => ({ s with b := b2 }, .panic)
      | (b2, .diverge) => ({ s with b := b2 }, .diverge)
  | (b1, .err e) => ({ s with b := b1 }, .err e)
  | (b1, .panic) => ({ s with b := b1 }, .panic)
  | (b1, .diverge) => ({ s with b := b1 }, .diverge)

/-- `downgrade_ok_if_eof` for an `Ok` result, rjiter.rs lines 339-355: `s` is the state after the call. -/
def reallyOk (s : RJ) (eager : Bool) : Bool := !eager || s.jidx < s.b.nBytes

/-- The retry loop of `loop_until_success`, rjiter.rs lines 374-413. -/
def retryLoop {α : Type} (f : JFn α) (eager : Bool) : Nat → RJ → RJ × Res α
  | 0, s => (s, .diverge)
  | fuel + 1, s =>
    match s.call f with
    | (s1, .error e) =>
      if !canRetry e.type then (s1, .err (s1.mkErr s.jidx e))
      else
        match s1.b.readMore with
        | (b2, .ok n) =>
          if n = 0 then ({ s1 with b := b2 }, .err (({ s1 with b := b2 } : RJ).mkErr s.jidx e))
          else retryLoop f eager fuel ({ s1 with b := b2 } : RJ).refresh
        | (b2, .err er) => ({ s1 with b := b2 }, .err er)
        | (b2, .panic) => ({ s1 with b := b2 }, .panic)
        | (b2, .diverge) => ({ s1 with b := b2 }, .diverge)
    | (s1, .ok v) =>
      if s1.reallyOk eager then (s1, .ok v)
      else
        match s1.b.readMore with
        | (b2, .ok n) =>
          if n = 0 then ({ s1 with b := b2 }, .ok v)
          else retryLoop f eager fuel ({ s1 with b := b2 } : RJ).refresh
        | (b2, .err er) => ({ s1 with b := b2 }, .err er)
        | (b2, .panic) => ({ s1 with b := b2 }, .panic)
        | (b2, .diverge) => ({ s1 with b := b2 }, .diverge)

/-- `loop_until_success`, rjiter.rs lines 326-414. -/
def loopUntilSuccess {α : Type} (fuel : Nat) (s : RJ) (f : JFn α) (tok : Option Byte) (eager : Bool) :
    RJ × Res α :=
  let jiterPos := s.jidx
  let retry (s1 : RJ) : RJ × Res α :=
    match s1.skipSpacesFeeding fuel jiterPos tok with
    | (s2, .ok ()) => retryLoop f eager fuel s2
    | (s2, .err e) => (s2, .err e)
    | (s2, .panic) => (s2, .panic)
    | (s2, .diverge) => (s2, .diverge)
  match s.call f with
  | (s1, .ok v) => if s1.reallyOk eager then (s1, .ok v) else retry s1
  | (s1, .error _) => retry s1

/-! ### The wrappers, rjiter.rs lines 63-320 (those whose jiter function is modelled) -/

/-- `peek`, rjiter.rs lines 63-65. -/
def peek (fuel : Nat) (s : RJ) : RJ × Res Byte := s.loopUntilSuccess fuel Jiter.peek none false
/-- `known_array`, rjiter.rs lines 70-72. -/
def knownArray (fuel : Nat) (s : RJ) := s.loopUntilSuccess fuel Jiter.knownArray (some 91) false
/-- `known_bool`, rjiter.rs lines 77-79. -/
def knownBool (fuel : Nat) (s : RJ) (pk : Byte) := s.loopUntilSuccess fuel (Jiter.knownBool pk) none false
/-- `known_bytes`, rjiter.rs lines 84-90. -/
def knownBytes (fuel : Nat) (s : RJ) := s.loopUntilSuccess fuel Jiter.knownBytes none false
/-- `known_null`, rjiter.rs lines 109-111. -/
def knownNull (fuel : Nat) (s : RJ) := s.loopUntilSuccess fuel Jiter.knownNull none false
/-- `known_object`, rjiter.rs lines 123-131. -/
def knownObject (fuel : Nat) (s : RJ) :=
  s.loopUntilSuccess fuel (Jiter.knownObject Jiter.knownStr) (some 123) false
/-- `known_str`, rjiter.rs lines 143-149. -/
def knownStr (fuel : Nat) (s : RJ) := s.loopUntilSuccess fuel Jiter.knownStr none false
/-- `next_array`, rjiter.rs lines 168-170. -/
def nextArray (fuel : Nat) (s : RJ) := s.loopUntilSuccess fuel Jiter.nextArray (some 91) false
/-- `array_step`, rjiter.rs lines 175-177. -/
def arrayStep (fuel : Nat) (s : RJ) := s.loopUntilSuccess fuel Jiter.arrayStep (some 44) false
/-- `next_bool`, rjiter.rs lines 182-184. -/
def nextBool (fuel : Nat) (s : RJ) := s.loopUntilSuccess fuel Jiter.nextBool none false
/-- `next_bytes`, rjiter.rs lines 189-195. -/
def nextBytes (fuel : Nat) (s : RJ) := s.loopUntilSuccess fuel (Jiter.nextString Jiter.knownBytes) none false
/-- `next_key`, rjiter.rs lines 214-222. -/
def nextKey (fuel : Nat) (s : RJ) := s.loopUntilSuccess fuel (Jiter.nextKey Jiter.knownStr) (some 44) false
/-- `next_key_bytes`, rjiter.rs lines 227-235. -/
def nextKeyBytes (fuel : Nat) (s : RJ) :=
  s.loopUntilSuccess fuel (Jiter.nextKey Jiter.knownBytes) (some 44) false
/-- `next_null`, rjiter.rs lines 240-242. -/
def nextNull (fuel : Nat) (s : RJ) := s.loopUntilSuccess fuel Jiter.nextNull none false
/-- `next_number_bytes`, rjiter.rs lines 254-262. -/
def nextNumberBytes (fuel : Nat) (s : RJ) := s.loopUntilSuccess fuel Jiter.nextNumberBytes none true
/-- `next_object`, rjiter.rs lines 267-275. -/
def nextObject (fuel : Nat) (s : RJ) :=
  s.loopUntilSuccess fuel (Jiter.nextObject Jiter.knownStr) (some 123) false
/-- `next_object_bytes`, rjiter.rs lines 280-288. -/
def nextObjectBytes (fuel : Nat) (s : RJ) :=
  s.loopUntilSuccess fuel (Jiter.nextObject Jiter.knownBytes) (some 123) false
/-- `next_str`, rjiter.rs lines 300-306. -/
def nextStr (fuel : Nat) (s : RJ) := s.loopUntilSuccess fuel (Jiter.nextString Jiter.knownStr) none false

/-- `finish`, rjiter.rs lines 451-470. -/
def finishLoop : Nat → RJ → RJ × Res Unit
  | 0, s => (s, .diverge)
  | fuel + 1, s =>
    match s.call Jiter.finish with
    | (s1, .error e) => (s1, .err (s1.mkErr s.jidx e))
    | (s1, .ok ()) =>
      match (if s1.jidx < s1.b.buf.length then s1.b.readMore else (s1.b, .ok 1)) with
      | (b2, .ok n) =>
        if n = 0 then ({ s1 with b := b2 }, .ok ())
        else finishLoop fuel ({ s1 with b := b2.shift 0 s1.jidx } : RJ).refresh
      | (b2, .err er) => ({ s1 with b := b2 }, .err er)
      | (b2, .panic) => ({ s1 with b := b2 }, .panic)
      | (b2, .diverge) => ({ s1 with b := b2 }, .diverge)

@[inherit_doc finishLoop]
def finish (fuel : Nat) (s : RJ) : RJ × Res Unit := finishLoop fuel s

/-- `error_position`, rjiter.rs lines 482-489. `index - n_shifted_out` underflows (explicit `none`) if the
index is before the buffer. jiter's `error_position` is `LinePosition::find` on its slice. -/
def errorPosition (s : RJ) (index : Nat) : Option (Nat × Nat) :=
  if index < s.b.nShifted then none
  else
    let p := Jiter.linePosition (s.b.buf.take s.jlen) (index - s.b.nShifted)
    some (p.1 + s.b.line, p.2 + s.b.column)

/-! ### Long strings -/

/-- `is_utf8_leading_byte`, rjiter.rs lines 866-872. -/
def isLeading (c : Byte) : Bool := c < 0x80 || c ≥ 0xC0

/-- First guess for the end of the segment, rjiter.rs lines 538-578. -/
def segmentEnd (b : Buffer) : Nat :=
  match b.valid.findIdx? (· == 92) with
  | none => if b.nBytes = 0 then 0 else b.nBytes - 1
  | some bs =>
    if bs > 1 then bs
    else if b.nBytes < 3 then bs
    else
      match b.buf[2]? with
      | some c => if c ≠ 117 ∧ c ≠ 85 then bs + 2 else if b.nBytes < 7 then bs else bs + 6
      | none => bs -- `n_bytes >= 3`, so there is a byte at 2

/-- Back to the last leading byte, rjiter.rs lines 580-587: `(0..=end).rev().find(..).unwrap_or(0)`. -/
def backToLeading (buf : Bytes) : Nat → Nat
  | 0 => 0
  | n + 1 => if ((buf[n + 1]?).map isLeading).getD false then n + 1 else backToLeading buf n

/-- Which of the two `write_long_*` functions is running. -/
inductive Kind where
  | raw
  | str
deriving DecidableEq, Repr

/-- The jiter function used as `parser`: rjiter.rs lines 645-647, 708-710. -/
def Kind.parser : Kind → JFn Bytes
  | .raw => Jiter.knownBytes
  | .str => Jiter.knownStr

/-- `write_segment` of `write_long_bytes` (lines 629-643) and of `write_long_str` (lines 672-706).
`endPos < buf.len()` is checked by the caller. The byte overwritten with a quote is restored, so
the buffer does not change. -/
def writeSegment (k : Kind) (buf : Bytes) (endPos index : Nat) (w : Writer) : Writer × Res Unit :=
  match k with
  | .raw =>
    match w.writeAll ((buf.take endPos).drop 1) with
    | (w, none) => (w, .ok ())
    | (w, some kind) => (w, .err ⟨.io kind, index⟩)
  | .str =>
    match Jiter.knownStr (buf.take endPos ++ [34]) with
    | (_, .ok s) =>
      match w.writeAll s with
      | (w, none) => (w, .ok ())
      | (w, some kind) => (w, .err ⟨.io kind, index⟩)
    | (_, .error e) => (w, .err (.fromJiter index e.type e.index))

/-- `handle_long`, rjiter.rs lines 500-607, with the two instantiations of its function arguments. The lookup
`buf[segment_end_pos]` in the search for a leading byte (line 585) panics if it is outside the buffer. -/
def handleLong (k : Kind) : Nat → RJ → Writer → (RJ × Writer) × Res Unit
  | 0, s, w => ((s, w), .diverge)
  | fuel + 1, s, w =>
    match s.call k.parser with
    | (s1, .ok v) =>
      match w.writeAll v with
      | (w1, none) => ((s1, w1), .ok ())
      | (w1, some kind) => ((s1, w1), .err ⟨.io kind, s1.currentIndex⟩)
    | (s1, .error e) =>
      if !canRetry e.type then ((s1, w), .err (s1.mkErr s.jidx e))
      else
        let s2 := if s1.jidx > 0 then ({ s1 with b := s1.b.shift 0 s1.jidx } : RJ).refresh else s1
        let seg0 := segmentEnd s2.b
        if s2.b.buf.length ≤ seg0 then ((s2, w), .panic)
        else
          let seg := backToLeading s2.b.buf seg0
          let written :=
            if seg > 1 then writeSegment k s2.b.buf seg s2.currentIndex w else (w, .ok ())
          match written with
          | (w1, .ok ()) =>
            let b3 := if seg > 1 then s2.b.shift 1 seg else s2.b
            match b3.readMore with
            | (b4, .ok n) =>
              -- `err.index` is the absolute index of the error in the jiter that produced it
              if n = 0 then
                (({ s2 with b := b4 }, w1),
                  .err (.fromJiter ({ s2 with b := b4 } : RJ).currentIndex e.type (s.jidx + e.index)))
              else handleLong k fuel ({ s2 with b := b4 } : RJ).refresh w1
            | (b4, .err er) => (({ s2 with b := b4 }, w1), .err er)
            | (b4, .panic) => (({ s2 with b := b4 }, w1), .panic)
            | (b4, .diverge) => (({ s2 with b := b4 }, w1), .diverge)
          | (w1, .err er) => ((s2, w1), .err er)
          | (w1, .panic) => ((s2, w1), .panic)
          | (w1, .diverge) => ((s2, w1), .diverge)

/-- `write_long_bytes`, rjiter.rs lines 618-649. -/
def writeLongBytes (fuel : Nat) (s : RJ) (w : Writer) := handleLong .raw fuel s w
/-- `write_long_str`, rjiter.rs lines 659-712. -/
def writeLongStr (fuel : Nat) (s : RJ) (w : Writer) := handleLong .str fuel s w

/-! ### Lookahead -/

/-- The common end of `lookahead_while` (lines 746-762) and `lookahead_n` (lines 789-805). `end_pos -= start_pos`
and the final slicing have explicit panics. -/
def lookaheadEnd (s : RJ) (b1 : Buffer) (a e : Nat) : RJ × Res Bytes :=
  let startPos := s.jidx
  if isChanged s.b b1 then
    if s.b.nShifted = b1.nShifted ∧ startPos > 0 then
      let s2 := ({ s with b := b1.shift 0 startPos } : RJ)
      if e < startPos then (s2, .panic)
      else match slice? s2.b.buf 0 (e - startPos) with
        | some r => (s2.refresh, .ok r)
        | none => (s2.refresh, .panic)
    else
      let s2 := ({ s with b := b1 } : RJ).refresh
      match slice? s2.b.buf a e with
      | some r => (s2, .ok r)
      | none => (s2, .panic)
  else
    match slice? b1.buf a e with
    | some r => ({ s with b := b1 }, .ok r)
    | none => ({ s with b := b1 }, .panic)

/-- `lookahead_while`, rjiter.rs lines 732-763. -/
def lookaheadWhile (fuel : Nat) (s : RJ) (p : Byte → Bool) : RJ × Res Bytes :=
  match s.b.collectWhile fuel p s.jidx true with
  | (b1, .ok (a, e)) => s.lookaheadEnd b1 a e
  | (b1, .err er) => ({ s with b := b1 }, .err er)
  | (b1, .panic) => ({ s with b := b1 }, .panic)
  | (b1, .diverge) => ({ s with b := b1 }, .diverge)

/-- `lookahead_n`, rjiter.rs lines 779-806. -/
def lookaheadN (fuel : Nat) (s : RJ) (count : Nat) : RJ × Res Bytes :=
  match s.b.collectCount fuel count s.jidx true with
  | (b1, .ok (a, e)) => s.lookaheadEnd b1 a e
  | (b1, .err er) => ({ s with b := b1 }, .err er)
  | (b1, .panic) => ({ s with b := b1 }, .panic)
  | (b1, .diverge) => ({ s with b := b1 }, .diverge)

/-- `skip_n_bytes`, rjiter.rs lines 821-835. -/
def skipNBytes (fuel : Nat) (s : RJ) (count : Nat) : RJ × Res Nat :=
  match s.b.skipN fuel count s.jidx with
  | (b1, .ok (newPos, skipped)) => (({ s with b := b1.shift 0 newPos } : RJ).refresh, .ok skipped)
  | (b1, .err er) => ({ s with b := b1 }, .err er)
  | (b1, .panic) => ({ s with b := b1 }, .panic)
  | (b1, .diverge) => ({ s with b := b1 }, .diverge)

/-- `known_skip_token`, rjiter.rs lines 846-863. -/
def knownSkipToken (fuel : Nat) (s : RJ) (token : Bytes) : RJ × Res Unit :=
  match s.lookaheadN fuel token.length with
  | (s1, .ok l) =>
    if l = token then
      match s1.skipNBytes fuel token.length with
      | (s2, .ok _) => (s2, .ok ())
      | (s2, .err e) => (s2, .err e)
      | (s2, .panic) => (s2, .panic)
      | (s2, .diverge) => (s2, .diverge)
    else (s1, .err ⟨.json .expectedSomeIdent, s1.currentIndex⟩)
  | (s1, .err e) => (s1, .err e)
  | (s1, .panic) => (s1, .panic)
  | (s1, .diverge) => (s1, .diverge)

end RJ

end Verif.RJiter
