import Verif.Ddb.ToNormal
import Verif.Ddb.ToDdb

/-!
# Model of `examples/dynamodb/src/main.rs`

Modelled: what happens between the command line arguments and the exit status, that is `convert_from_ddb`, `convert_to_ddb` and `main`.
External and described here as far as they matter: `std::io::BufWriter` (`write`, `flush_buf` and `drop`), the adapter `FromStd`,
`write_all` of `embedded_io`, and that `std::process::exit` runs no destructors. Not modelled: `clap`, the messages on stderr, opening
the files, the buffer inside of `std::io::stdout()`; errors of kind `Interrupted` do not occur.
-/

namespace Verif.Ddb

open Verif.RJiter

/-- The output channel, a `std::io::Write`: the bytes it has received, and what the next calls of `write` do (`ok n`: accept at most
`n + 1` bytes; `error k`: fail) and of `flush` (`some k`: fail). All calls behind the ends of the lists succeed; `write` accepts
everything there. -/
structure Chan where
  out : Bytes
  plan : List (Except Nat Nat)
  flushes : List (Option Nat)

/-- Calls of `write` until everything is written or one fails. Returns the rest and the error kind. This is the loop of
`BufWriter::flush_buf`, and `write_all` of `embedded_io`. -/
def drain (fs : List (Option Nat)) : List (Except Nat Nat) → Bytes → Bytes → Chan × Bytes × Option Nat
  | [], out, bs => (⟨out ++ bs, [], fs⟩, [], none)
  | p :: plan, out, bs =>
    if bs = [] then (⟨out, p :: plan, fs⟩, [], none)
    else
      match p with
      | .ok n => drain fs plan (out ++ bs.take (n + 1)) (bs.drop (n + 1))
      | .error k => (⟨out, plan, fs⟩, bs, some k)

/-- `write_all` on the channel itself (with `--unbuffered`). The answer is `some` of the kind and the number of accepted bytes if it fails. -/
def Chan.writeAll (c : Chan) (bs : Bytes) : Chan × Option WriteFault :=
  match drain c.flushes c.plan c.out bs with
  | (c, _, none) => (c, none)
  | (c, rest, some k) => (c, some ⟨k, bs.length - rest.length⟩)

/-- The capacity of `BufWriter::new`. -/
def capacity : Nat := 8192

/-- A `BufWriter`: its channel and the bytes it holds. -/
structure BufW where
  chan : Chan
  held : Bytes

/-- `BufWriter::flush_buf`. A failed call keeps the bytes that were not accepted. -/
def BufW.flushBuf (b : BufW) : BufW × Option Nat :=
  match drain b.chan.flushes b.chan.plan b.chan.out b.held with
  | (c, rest, r) => (⟨c, rest⟩, r)

/-- Calls of `BufWriter::write` while nothing is held: as long as at least `capacity` bytes are left, they go to the channel. -/
def direct (fs : List (Option Nat)) : List (Except Nat Nat) → Bytes → Bytes → BufW × Option (Nat × Nat)
  | [], out, bs => if bs.length < capacity then (⟨⟨out, [], fs⟩, bs⟩, none) else (⟨⟨out ++ bs, [], fs⟩, []⟩, none)
  | p :: plan, out, bs =>
    if bs.length < capacity then (⟨⟨out, p :: plan, fs⟩, bs⟩, none)
    else
      match p with
      | .ok n => direct fs plan (out ++ bs.take (n + 1)) (bs.drop (n + 1))
      | .error k => (⟨⟨out, plan, fs⟩, []⟩, some (k, bs.length))

/-- `write_all` on the `BufWriter`, which calls `BufWriter::write` until everything is accepted. -/
def BufW.writeAll (b : BufW) (bs : Bytes) : BufW × Option WriteFault :=
  if b.held.length + bs.length < capacity ∨ (b.held.length + bs.length = capacity ∧ bs.length < capacity) then (⟨b.chan, b.held ++ bs⟩, none)
  else
    match b.flushBuf with
    | (b, some k) => (b, some ⟨k, 0⟩)
    | (b, none) =>
      match direct b.chan.flushes b.chan.plan b.chan.out bs with
      | (b, none) => (b, none)
      | (b, some (k, left)) => (b, some ⟨k, bs.length - left⟩)

/-- The bytes of `bs` that a `write_all` accepted. -/
def accepted (bs : Bytes) : Option WriteFault → Bytes
  | none => bs
  | some f => bs.take f.part

/-- The calls `write_all` with the arguments `ws`: the state behind them, the answers, and the accepted bytes. -/
def feed {σ : Type} (write : σ → Bytes → σ × Option WriteFault) : σ → List Bytes → σ × List (Option WriteFault) × Bytes
  | s, [] => (s, [], [])
  | s, w :: ws =>
    match write s w with
    | (s, r) =>
      match feed write s ws with
      | (s, rs, out) => (s, r :: rs, accepted w r ++ out)

/-- The arguments, main.rs lines 8-47, without the names of the files. -/
structure Args where
  toDdb : Bool
  pretty : Bool
  withoutItem : Bool
  unbuffered : Bool

/-- `vec![0u8; 64 * 1024]`, main.rs lines 56 and 76. -/
@[irreducible] def lookBuffer : Bytes := List.replicate 65536 0

/-- `vec![0u8; 2048]`, main.rs lines 57 and 77. -/
@[irreducible] def nameBuffer : Bytes := List.replicate 2048 0

/-- The conversion with its buffers of 64 kB and 2 kB: `convert_from_ddb`, `convert_to_ddb` and the `match` on the mode, main.rs lines 50-87
and 118-131. -/
def convert (turns fuel : Nat) (args : Args) (reader : Reader) (d : Dest) : Dest × Conv :=
  if args.toDdb then
    match convertNormalToDdb turns fuel reader d lookBuffer nameBuffer args.pretty args.unbuffered (!args.withoutItem) with
    | (b, r) => (b.d, r)
  else
    match convertDdbToNormal turns fuel reader d lookBuffer nameBuffer args.pretty args.unbuffered true with
    | (b, r) => (b.d, r)

/-- The exit status, main.rs lines 133-136: 0, 1 for an error, 101 for a panic. `none` if the conversion does not end. -/
def exitStatus : Conv → Option Nat
  | .ok => some 0
  | .err _ _ => some 1
  | .panic => some 101
  | .diverge => none

/-- What becomes of the `BufWriter`: it is dropped at the end of `main` and by a panic, which flushes it and ignores errors; but not by
`std::process::exit`. -/
def BufW.finish (b : BufW) : Conv → Chan
  | .ok => b.flushBuf.1.chan
  | .panic => b.flushBuf.1.chan
  | .err _ _ => b.chan
  | .diverge => b.chan

/-- `plan` is the shortest `Writer` plan that gives the answers `rs`: a `Writer` accepts everything behind the end of its plan. -/
def Answers (plan rs : List (Option WriteFault)) : Prop := plan.getLast? ≠ some none ∧ ∃ n, rs = plan ++ List.replicate n none

/-- A run of `main`, main.rs lines 89-137, with the input `reader`: the conversion returns `r`, the output channel `c` becomes `c'`. The conversion
makes the calls `ws` of `write_all` and gets their answers. The model of the conversion does not tell how its output is divided into calls,
therefore `ws` is any list that is consistent with the output. Only the unbuffered conversion calls `flush`. -/
def Runs (turns fuel : Nat) (args : Args) (reader : Reader) (c c' : Chan) (r : Conv) : Prop :=
  ∃ ws plan rs d, convert turns fuel args reader ⟨⟨[], plan⟩, if args.unbuffered then c.flushes else []⟩ = (d, r) ∧ d.w.plan = [] ∧ Answers plan rs ∧
    if args.unbuffered then ∃ c1, feed Chan.writeAll c ws = (c1, rs, d.w.out) ∧ c' = { c1 with flushes := d.flushes }
    else ∃ b, feed BufW.writeAll ⟨c, []⟩ ws = (b, rs, d.w.out) ∧ c' = b.finish r

end Verif.Ddb
