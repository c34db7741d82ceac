import Verif.Scan.Model

/-!
# Model of `scan_json/src/idtransform.rs`

The state behind the baton is the contents of the `RefCell`. No action borrows it while it is borrowed: a matcher
drops its borrow before it returns, and an action calls no matcher.
-/

namespace Verif.Scan

open Verif.U8Pool (Pool)
open Verif.RJiter (RJ Err Res ErrType Writer)

/-- `map_err(|e| ScanError::IOError(e.kind()))` behind a `write_all`. -/
def ioResult (rj : RJ) : Writer × Option Nat → (RJ × Writer) × SRes Unit
  | (w, none) => ((rj, w), .ok ())
  | (w, some k) => ((rj, w), .err (.io k))

/-- `rjiter.known_null()?; writer.write_all(..)`, idtransform.rs lines 80-99. -/
def copyWord {α : Type} (word : Bytes) (w : Writer) : RJ × Res α → (RJ × Writer) × SRes Unit
  | (rj, .ok _) => ioResult rj (w.writeAll word)
  | (rj, .err e) => ((rj, w), .err (.rjiter e))
  | (rj, .panic) => ((rj, w), .panic)
  | (rj, .diverge) => ((rj, w), .diverge)

/-- `copy_atom`, idtransform.rs lines 64-111. -/
def copyAtom (fuel : Nat) (peeked : Byte) (rj : RJ) (w : Writer) : (RJ × Writer) × SRes Unit :=
  if peeked = 34 then
    match w.writeAll [34] with
    | (w, some k) => ((rj, w), .err (.io k))
    | (w, none) =>
      match rj.writeLongBytes fuel w with
      | ((rj, w), .ok ()) => ioResult rj (w.writeAll [34])
      | ((rj, w), .err e) => ((rj, w), .err (.rjiter e))
      | ((rj, w), .panic) => ((rj, w), .panic)
      | ((rj, w), .diverge) => ((rj, w), .diverge)
  else if peeked = 110 then copyWord [110, 117, 108, 108] w (rj.knownNull fuel)
  else if peeked = 116 then copyWord [116, 114, 117, 101] w (rj.knownBool fuel peeked)
  else if peeked = 102 then copyWord [102, 97, 108, 115, 101] w (rj.knownBool fuel peeked)
  else
    match rj.nextNumberBytes fuel with
    | (rj, .ok number) => ioResult rj (w.writeAll number)
    | (rj, .err _) => ((rj, w), .err (.unhandledPeek peeked rj.currentIndex))
    | (rj, .panic) => ((rj, w), .panic)
    | (rj, .diverge) => ((rj, w), .diverge)

/-- `IdtSequencePos`, idtransform.rs lines 116-122. The key is the bytes the reference points to; it is used up by
the action that runs right after the matcher, while the key is still on the stack. -/
inductive SeqPos where
  | atBeginning
  | inMiddle
  | atBeginningKey (key : Bytes)
  | inMiddleKey (key : Bytes)
  | afterKey
deriving DecidableEq, Repr

/-- `IdTransform`, idtransform.rs lines 125-133. -/
structure Idt where
  w : Writer
  seqpos : SeqPos
  isTop : Bool
  ioError : Option Nat
  rjError : Option Err
  scanError : Option SErr
deriving DecidableEq, Repr

namespace Idt

/-- `IdTransform::new`, idtransform.rs lines 137-146. -/
def new (w : Writer) : Idt := ⟨w, .atBeginning, true, none, none, none⟩

/-- The macro `write_and_store_error`, idtransform.rs lines 43-50, followed by `?` or `if let Err`. -/
def write (b : Idt) (bs : Bytes) (msg : String) : Idt × Option String :=
  match b.w.writeAll bs with
  | (w, none) => ({ b with w := w }, none)
  | (w, some k) => ({ b with w := w, ioError := some k }, some msg)

/-- Writing `pre`, the key and its closing quote and colon, idtransform.rs lines 168-181. -/
def writeKey (b : Idt) (pre key : Bytes) (msg : String) : Idt × Option String :=
  match b.write pre msg with
  | (b, some m) => (b, some m)
  | (b, none) =>
    match b.write key "IO error writing key" with
    | (b, some m) => (b, some m)
    | (b, none) =>
      match b.write [34, 58] "IO error writing key suffix" with
      | (b, some m) => (b, some m)
      | (b, none) => ({ b with seqpos := .inMiddle }, none)

/-- `write_seqpos`, idtransform.rs lines 156-184. -/
def writeSeqpos (b : Idt) : Idt × Option String :=
  match b.seqpos with
  | .atBeginning => ({ b with seqpos := .inMiddle }, none)
  | .inMiddle =>
    match b.write (if b.isTop then [32] else [44]) "IO error writing sequence position" with
    | (b, some m) => (b, some m)
    | (b, none) => ({ b with seqpos := .inMiddle }, none)
  | .atBeginningKey key => b.writeKey [34] key "IO error writing key quote"
  | .inMiddleKey key => b.writeKey [44, 34] key "IO error writing key prefix"
  | .afterKey => (b, none)

/-- `on_key`, idtransform.rs lines 251-263. -/
def onKey : Action Idt := fun rj b =>
  match b.writeSeqpos with
  | (b, some m) => ((rj, b), .op (.error m))
  | (b, none) => ((rj, { b with seqpos := .afterKey }), .op .none)

/-- The arms for a failed `copy_atom`, idtransform.rs lines 277-295. -/
def storeError (b : Idt) : SErr → Idt
  | .io k => { b with ioError := some k }
  | .rjiter e =>
    match e.type with
    | .io k => { b with ioError := some k, rjError := some e }
    | _ => { b with rjError := some e }
  | e => { b with scanError := some e }

/-- `on_atom`, idtransform.rs lines 265-308. -/
def onAtom (fuel : Nat) : Action Idt := fun rj b =>
  match b.writeSeqpos with
  | (b, some m) => ((rj, b), .op (.error m))
  | (b, none) =>
    match rj.peek fuel with
    | (rj, .ok peeked) =>
      match copyAtom fuel peeked rj b.w with
      | ((rj, w), .ok ()) => ((rj, { b with w := w }), .op .valueIsConsumed)
      | ((rj, w), .err e) => ((rj, ({ b with w := w } : Idt).storeError e), .op (.error "Error copying atom (stored in idt)"))
      | ((rj, w), .panic) => ((rj, { b with w := w }), .panic)
      | ((rj, w), .diverge) => ((rj, { b with w := w }), .diverge)
    | (rj, .err e) => ((rj, b.storeError (.rjiter e)), .op (.error "RJiter error (stored in idt)"))
    | (rj, .panic) => ((rj, b), .panic)
    | (rj, .diverge) => ((rj, b), .diverge)

/-- `on_struct`, idtransform.rs lines 311-323 (`on_array` and `on_object`, lines 335-340 and 346-351). -/
def onStruct (bytes : Bytes) : Action Idt := fun rj b =>
  match b.writeSeqpos with
  | (b, some m) => ((rj, b), .op (.error m))
  | (b, none) =>
    match b.write bytes "IO error writing struct" with
    | (b, some m) => ((rj, b), .op (.error m))
    | (b, none) => ((rj, { b with seqpos := .atBeginning }), .op .none)

/-- `on_struct_end`, idtransform.rs lines 325-333 (`on_array_end` and `on_object_end`, lines 342-344 and 353-355). -/
def onStructEnd (bytes : Bytes) : EndAction Idt := fun b =>
  ({ b with seqpos := .inMiddle } : Idt).write bytes "IO error writing struct end"

/-- `find_action`, idtransform.rs lines 189-235. -/
def find (fuel : Nat) (p : Pseudo) (c : Ctx) (b : Idt) : Idt × Option (Action Idt) :=
  match p with
  | .atom => ({ b with isTop := c.len < 2 }, some (onAtom fuel))
  | .object => ({ b with isTop := c.len < 2 }, some (onStruct [123]))
  | .array => ({ b with isTop := c.len < 2 }, some (onStruct [91]))
  | .none =>
    match c.path with
    | key :: _ =>
      if key ≠ nameTop ∧ key ≠ nameArray then
        ({ b with seqpos := if b.seqpos = .atBeginning then .atBeginningKey key else .inMiddleKey key }, some onKey)
      else (b, none)
    | [] => (b, none)

/-- `find_end_action`, idtransform.rs lines 237-247. -/
def findEnd (p : Pseudo) (_ : Ctx) (b : Idt) : Idt × Option (EndAction Idt) :=
  match p with
  | .object => (b, some (onStructEnd [125]))
  | .array => (b, some (onStructEnd [93]))
  | .atom => (b, none)
  | .none => (b, none)

/-- The two matchers. -/
def callbacks (fuel : Nat) : Callbacks Idt := ⟨find fuel, findEnd⟩

/-- The error that `idtransform` returns when `scan` returned `e`, idtransform.rs lines 394-415. -/
def error (b : Idt) (e : SErr) : SErr :=
  match b.ioError, b.rjError, b.scanError with
  | some k, _, _ => .io k
  | none, some e, _ => .rjiter e
  | none, none, some e => e
  | none, none, none => e

end Idt

/-- `idtransform`, idtransform.rs lines 375-419. -/
def idtransform (turns fuel : Nat) (rj : RJ) (w : Writer) (pool : Pool) : (RJ × Writer × Pool) × SRes Unit :=
  match scan turns fuel (Idt.callbacks fuel) ⟨[], true⟩ ⟨rj, .new w, pool⟩ with
  | (st, .err e) => ((st.rj, st.baton.w, st.pool), .err (st.baton.error e))
  | (st, r) => ((st.rj, st.baton.w, st.pool), r)

end Verif.Scan
