import Verif.Scan.Model

/-!
# Model of what `examples/dynamodb/src/ddb_to_normal.rs` and `normal_to_ddb.rs` have in common

The writer, the errors, and the end of the two convert functions.
-/

namespace Verif.Ddb

open Verif.RJiter (RJ Err ErrType Writer)
open Verif.Scan (SErr)

/-- The writer with the outcomes of the next calls of `flush` (`none`: success; all calls behind the end of the list
succeed). -/
structure Dest where
  w : Writer
  flushes : List (Option Nat)
deriving DecidableEq, Repr

/-- `flush` of `embedded_io::Write`: `some kind` if it fails. -/
def Dest.flush (d : Dest) : Dest × Option Nat :=
  match d.flushes with
  | [] => (d, none)
  | r :: rs => ({ d with flushes := rs }, r)

/-- `write`, ddb_to_normal.rs lines 129-135 and normal_to_ddb.rs lines 36-42. -/
def Dest.write (d : Dest) (unbuffered : Bool) (bs : Bytes) : Dest × Option Nat :=
  match d.w.writeAll bs with
  | (w, some k) => ({ d with w := w }, some k)
  | (w, none) => if unbuffered then ({ d with w := w } : Dest).flush else ({ d with w := w }, none)

/-- `ConversionError`, lib.rs lines 23-46. The unknown type descriptor is cut to 32 bytes. -/
inductive ConvErr where
  | rjiter (kind : ErrType) (context : String)
  | io (kind : Nat) (context : String)
  | parse (context : String) (unknown : Option Bytes)
  | scan (e : SErr)
deriving DecidableEq, Repr

/-- What a convert function returns, or that it panics or does not return. -/
inductive Conv where
  | ok
  | err (e : ConvErr) (position : Nat)
  | panic
  | diverge
deriving DecidableEq, Repr

/-- The position of an error of `scan`, ddb_to_normal.rs lines 982-990 and 994-1002, normal_to_ddb.rs lines 770-778 and
782-790. `index` is `rjiter.current_index()`. -/
def position (index : Nat) : SErr → Nat
  | .action _ p => p
  | .maxNesting p _ => p
  | .internal p _ => p
  | .unhandledPeek _ p => p
  | .unbalancedJson p => p
  | .rjiter e => e.index
  | .io _ => index

/-- The error that is returned, ddb_to_normal.rs lines 978-1003 and normal_to_ddb.rs lines 766-791: the stored error, if
there is one. -/
def report (stored : Option ConvErr) (index : Nat) (e : SErr) : Conv :=
  match stored with
  | some err => .err err (position index e)
  | none => .err (.scan e) (position index e)

end Verif.Ddb
