import Verif.Ddb.Basic

/-!
# Model of `examples/dynamodb/src/normal_to_ddb.rs`

The state behind the baton is the contents of the `RefCell`. No action borrows it while it is borrowed: a matcher drops
its borrow before it returns, and an action drops it before it calls another one.
-/

namespace Verif.Ddb

open Verif.U8Pool (Pool)
open Verif.RJiter (RJ Err Res Reader Writer)
open Verif.Scan (Action EndAction Callbacks Acted StreamOp Pseudo Ctx nameTop nameArray scan)

/-- `NormalToDdbConverter`, normal_to_ddb.rs lines 11-20. The key is the bytes the reference points to; it is used by
the action that runs right after the matcher, while the key is still on the stack. `underflow` is not in the source: it
records that `depth -= 1` was executed with `depth` 0, where a build with overflow checks panics. The source's `depth += 1`
can overflow only behind 2^64 bytes of input and is modelled without a bound. -/
structure ToDdb where
  d : Dest
  comma : Bool
  item : Bool
  unbuffered : Bool
  field : Option Bytes
  pretty : Bool
  depth : Nat
  lastError : Option ConvErr
  underflow : Bool
deriving DecidableEq, Repr

namespace ToDdb

/-- `NormalToDdbConverter::new`, normal_to_ddb.rs lines 23-34. -/
def new (d : Dest) (item pretty unbuffered : Bool) : ToDdb := ⟨d, false, item, unbuffered, none, pretty, 0, none, false⟩

/-- A part of an action: the new state, and the message if it failed. -/
abbrev Step := ToDdb × Option String

/-- `?`, or `if let Err(e) = .. { return StreamOp::Error(e); }`. -/
def Step.bind (x : Step) (k : ToDdb → Step) : Step :=
  match x with
  | (b, none) => k b
  | (b, some m) => (b, some m)

/-- `try_write_any`, normal_to_ddb.rs lines 46-51. -/
def put (bs : Bytes) (context : String) (b : ToDdb) : Step :=
  match b.d.write b.unbuffered bs with
  | (d, none) => ({ b with d := d }, none)
  | (d, some k) => ({ b with d := d, lastError := some (.io k context) }, some "Write failed")

/-- `newline`, normal_to_ddb.rs lines 62-68. -/
def newline (b : ToDdb) : Step := if b.pretty then b.put [10] "writing newline" else (b, none)

/-- `write_comma`, normal_to_ddb.rs lines 53-60. -/
def writeComma (b : ToDdb) : Step :=
  if b.comma then
    (b.put [44] "writing comma").bind fun b => b.newline.bind fun b => ({ b with comma := false }, none)
  else (b, none)

/-- The loop in `indent`, normal_to_ddb.rs lines 72-74. -/
def indentLoop : Nat → ToDdb → Step
  | 0, b => (b, none)
  | n + 1, b => (b.put [32, 32] "writing indentation").bind (indentLoop n)

/-- `indent`, normal_to_ddb.rs lines 70-77. -/
def indent (b : ToDdb) : Step := if b.pretty then indentLoop b.depth b else (b, none)

/-- `conv.depth += 1`. -/
def inc (b : ToDdb) : Step := ({ b with depth := b.depth + 1 }, none)

/-- `conv.depth -= 1`, with the wrap-around of a build without overflow checks. -/
def dec (b : ToDdb) : Step :=
  if b.depth = 0 then ({ b with depth := 2 ^ 64 - 1, underflow := true }, none) else ({ b with depth := b.depth - 1 }, none)

/-- `conv.pending_comma = c`. -/
def setComma (c : Bool) (b : ToDdb) : Step := ({ b with comma := c }, none)

/-- `if let Err(e) = .. { return StreamOp::Error(e); }` and the rest of the action. -/
def Step.run (x : Step) (rj : RJ) (k : Action ToDdb) : (RJ × ToDdb) × Acted :=
  match x with
  | (b, none) => k rj b
  | (b, some m) => ((rj, b), .op (.error m))

/-- An action that only writes, and then answers `op`. -/
def act (f : ToDdb → Step) (op : StreamOp) : Action ToDdb := fun rj b => (f b).run rj fun rj b => ((rj, b), .op op)

/-- `on_root_object_begin`, normal_to_ddb.rs lines 82-116. -/
def rootObjectBegin (b : ToDdb) : Step :=
  if b.item then
    (b.put [123] "writing root object opening brace").bind fun b =>
    b.newline.bind fun b =>
    b.inc.bind fun b =>
    b.indent.bind fun b =>
    (b.put [34, 73, 116, 101, 109, 34, 58, 123] "writing Item wrapper").bind fun b =>
    b.newline.bind fun b =>
    b.inc.bind (setComma false)
  else
    (b.put [123] "writing root object opening brace").bind fun b =>
    b.newline.bind fun b =>
    b.inc.bind (setComma false)

/-- The end of a value that is not an array or object: normal_to_ddb.rs lines 225-235, 266-276, 299-309, 365-375. -/
def closeValue (b : ToDdb) : Step :=
  b.newline.bind fun b =>
  b.dec.bind fun b =>
  b.indent.bind fun b =>
  (b.put [125] "writing closing brace").bind (setComma true)

/-- `flush` behind `write_long_bytes`, normal_to_ddb.rs lines 213-221. -/
def flushLong (b : ToDdb) : Step :=
  if b.unbuffered then
    match b.d.flush with
    | (d, none) => ({ b with d := d }, none)
    | (d, some k) => ({ b with d := d, lastError := some (.io k "flushing after write_long_bytes") }, some "Failed to flush writer")
  else (b, none)

/-- `on_string_value_toddb`, normal_to_ddb.rs lines 199-237. -/
def onString (fuel : Nat) : Action ToDdb := fun rj b =>
  (b.indent.bind (put [34, 83, 34, 58, 34] "writing S type opening")).run rj fun rj b =>
    match rj.writeLongBytes fuel b.d.w with
    | ((rj, w), .ok ()) =>
      act (fun b => b.flushLong.bind fun b => (b.put [34] "writing S type closing quote").bind closeValue) .valueIsConsumed rj
        { b with d := { b.d with w := w } }
    | ((rj, w), .err _) => ((rj, { b with d := { b.d with w := w } }), .op (.error "Failed to write string value"))
    | ((rj, w), .panic) => ((rj, { b with d := { b.d with w := w } }), .panic)
    | ((rj, w), .diverge) => ((rj, { b with d := { b.d with w := w } }), .diverge)

/-- The rest of an action behind a parser call whose result it ignores (`let _ = ..`). -/
def ignoring {α : Type} (b : ToDdb) (k : Action ToDdb) : RJ × Res α → (RJ × ToDdb) × Acted
  | (rj, .ok _) => k rj b
  | (rj, .err _) => k rj b
  | (rj, .panic) => ((rj, b), .panic)
  | (rj, .diverge) => ((rj, b), .diverge)

/-- `on_bool_value_toddb`, normal_to_ddb.rs lines 239-278. -/
def onBool (fuel : Nat) : Action ToDdb := fun rj b =>
  match rj.peek fuel with
  | (rj, .ok peek) =>
    b.indent.run rj fun rj b =>
      if peek = 116 then
        ignoring b (act (fun b => (b.put [34, 66, 79, 79, 76, 34, 58, 116, 114, 117, 101] "writing BOOL true").bind closeValue)
          .valueIsConsumed) (rj.knownBool fuel peek)
      else if peek = 102 then
        ignoring b (act (fun b => (b.put [34, 66, 79, 79, 76, 34, 58, 102, 97, 108, 115, 101] "writing BOOL false").bind closeValue)
          .valueIsConsumed) (rj.knownBool fuel peek)
      else ((rj, b), .op (.error "Expected boolean value"))
  | (rj, .err _) => ((rj, b), .op (.error "Failed to peek boolean value"))
  | (rj, .panic) => ((rj, b), .panic)
  | (rj, .diverge) => ((rj, b), .diverge)

/-- `on_null_value_toddb`, normal_to_ddb.rs lines 280-311. -/
def onNull (fuel : Nat) : Action ToDdb := fun rj b =>
  match rj.peek fuel with
  | (rj, .ok peek) =>
    if peek ≠ 110 then ((rj, b), .op (.error "Expected null value"))
    else
      ignoring b (act (fun b => b.indent.bind fun b =>
        (b.put [34, 78, 85, 76, 76, 34, 58, 116, 114, 117, 101] "writing NULL type").bind closeValue) .valueIsConsumed) (rj.knownNull fuel)
  | (rj, .err _) => ((rj, b), .op (.error "Failed to peek null value"))
  | (rj, .panic) => ((rj, b), .panic)
  | (rj, .diverge) => ((rj, b), .diverge)

/-- The arm for numbers of `on_atom_value_toddb`, normal_to_ddb.rs lines 338-377. The number is cut to 32 bytes. -/
def onNumber (fuel : Nat) : Action ToDdb := fun rj b =>
  match rj.nextNumberBytes fuel with
  | (rj, .ok number) =>
    act (fun b => b.indent.bind fun b => (b.put [34, 78, 34, 58, 34] "writing N type opening").bind fun b =>
      (b.put (number.take 32) "writing number value").bind fun b =>
      (b.put [34] "writing N type closing quote").bind closeValue) .valueIsConsumed rj b
  | (rj, .err _) => ((rj, b), .op (.error "Failed to parse number"))
  | (rj, .panic) => ((rj, b), .panic)
  | (rj, .diverge) => ((rj, b), .diverge)

/-- `on_atom_value_toddb`, normal_to_ddb.rs lines 313-379. -/
def onAtom (fuel : Nat) : Action ToDdb := fun rj b =>
  b.writeComma.run rj fun rj b =>
    match rj.peek fuel with
    | (rj, .ok peek) =>
      if peek = 34 then onString fuel rj b
      else if peek = 116 ∨ peek = 102 then onBool fuel rj b
      else if peek = 110 then onNull fuel rj b
      else onNumber fuel rj b
    | (rj, .err _) => ((rj, b), .op (.error "Failed to peek atom value"))
    | (rj, .panic) => ((rj, b), .panic)
    | (rj, .diverge) => ((rj, b), .diverge)

/-- `on_root_literal`, normal_to_ddb.rs lines 118-141. The final newline is written, and an error of it returned,
whatever the value handler answered. -/
def onRootLiteral (fuel : Nat) : Action ToDdb := fun rj b =>
  ((b.put [123] "writing root literal opening brace").bind inc).run rj fun rj b =>
    match onAtom fuel rj b with
    | ((rj, b), .op result) => act (fun b => (b.put [10] "writing final newline").bind (setComma false)) result rj b
    | ((rj, b), r) => ((rj, b), r)

/-- `on_array_begin_toddb`, normal_to_ddb.rs lines 381-397. -/
def arrayBegin (b : ToDdb) : Step :=
  b.indent.bind fun b =>
  (b.put [34, 76, 34, 58, 91] "writing L type opening").bind fun b =>
  b.newline.bind (setComma false)

/-- `on_root_array`, normal_to_ddb.rs lines 143-158. -/
def rootArray (b : ToDdb) : Step :=
  (b.put [123] "writing root array opening brace").bind fun b =>
  b.newline.bind fun b =>
  b.inc.bind arrayBegin

/-- `on_field_key`, normal_to_ddb.rs lines 168-197. -/
def fieldKey (b : ToDdb) : Step :=
  match b.field with
  | none => (b, some "Internal error: current_field not set (impossible)")
  | some name =>
    b.writeComma.bind fun b =>
    b.indent.bind fun b =>
    (b.put [34] "writing field name opening quote").bind fun b =>
    (b.put name "writing field name").bind fun b =>
    (b.put [34, 58, 123] "writing field name closing quote and colon").bind fun b =>
    b.newline.bind fun b =>
    b.inc.bind (setComma false)

/-- The start of an array element, normal_to_ddb.rs lines 405-417, 428-440, 451-463. -/
def elementBegin (b : ToDdb) : Step :=
  b.writeComma.bind fun b =>
  (b.put [123] "writing array element opening brace").bind fun b =>
  b.newline.bind fun b =>
  b.inc.bind (setComma false)

/-- `on_array_element_atom`, normal_to_ddb.rs lines 399-420. -/
def onElementAtom (fuel : Nat) : Action ToDdb := fun rj b =>
  b.elementBegin.run rj (onAtom fuel)

/-- `on_nested_object_begin_toddb`, normal_to_ddb.rs lines 468-485. -/
def objectBegin (b : ToDdb) : Step :=
  b.indent.bind fun b =>
  (b.put [34, 77, 34, 58, 123] "writing M type opening").bind fun b =>
  b.newline.bind fun b =>
  b.inc.bind (setComma false)

/-- `on_root_object_end`, normal_to_ddb.rs lines 488-504. -/
def rootObjectEnd (b : ToDdb) : Step :=
  b.newline.bind fun b =>
  b.dec.bind fun b =>
  b.indent.bind fun b =>
  (if b.item then
    (b.put [125] "writing root object closing brace").bind fun b =>
    b.newline.bind fun b =>
    b.dec.bind fun b =>
    b.indent.bind (put [125] "writing Item wrapper closing brace")
  else b.put [125] "writing root object closing brace").bind (put [10] "writing final newline")

/-- `on_nested_object_end`, normal_to_ddb.rs lines 507-521, and `on_object_in_array_end`, lines 548-563. -/
def objectEnd (b : ToDdb) : Step :=
  b.newline.bind fun b =>
  b.dec.bind fun b =>
  b.indent.bind fun b =>
  (b.put [125] "writing M closing brace").bind fun b =>
  b.newline.bind fun b =>
  b.dec.bind fun b =>
  b.indent.bind fun b =>
  (b.put [125] "writing element wrapper closing brace").bind (setComma true)

/-- `on_array_end_toddb`, normal_to_ddb.rs lines 524-535, and `on_array_in_array_end`, lines 566-580. -/
def arrayEnd (b : ToDdb) : Step :=
  b.newline.bind fun b =>
  b.indent.bind fun b =>
  (b.put [93] "writing L closing bracket").bind fun b =>
  b.newline.bind fun b =>
  b.dec.bind fun b =>
  b.indent.bind fun b =>
  (b.put [125] "writing element wrapper closing brace").bind (setComma true)

/-- `on_root_array_end`, normal_to_ddb.rs lines 160-166. -/
def rootArrayEnd (b : ToDdb) : Step := b.arrayEnd.bind (put [10] "writing final newline")

/-- `on_array_element_end_toddb`, normal_to_ddb.rs lines 538-545. -/
def elementEnd (b : ToDdb) : Step := (b, none)

/-- `find_action`, normal_to_ddb.rs lines 582-653. -/
def find (fuel : Nat) (p : Pseudo) (c : Ctx) (b : ToDdb) : ToDdb × Option (Action ToDdb) :=
  match c.path with
  | [] =>
    match p with
    | .atom => (b, some (onAtom fuel))
    | .array => (b, some (act arrayBegin .none))
    | .object => (b, none)
    | .none => (b, none)
  | parent :: _ =>
    if parent = nameTop then
      match p with
      | .object => (b, some (act rootObjectBegin .none))
      | .atom => (b, some (onRootLiteral fuel))
      | .array => (b, some (act rootArray .none))
      | .none => (b, none)
    else
      match p with
      | .none => ({ b with field := some parent }, some (act fieldKey .none))
      | .atom => (b, some (if parent = nameArray then onElementAtom fuel else onAtom fuel))
      | .array => (b, some (if parent = nameArray then act (fun b => b.elementBegin.bind arrayBegin) .none else act arrayBegin .none))
      | .object => (b, some (if parent = nameArray then act (fun b => b.elementBegin.bind objectBegin) .none else act objectBegin .none))

/-- `find_end_action`, normal_to_ddb.rs lines 655-708. -/
def findEnd (p : Pseudo) (c : Ctx) (b : ToDdb) : ToDdb × Option (EndAction ToDdb) :=
  match c.path with
  | [] => (b, none)
  | parent :: above =>
    if parent = nameTop then
      match p with
      | .object => (b, some rootObjectEnd)
      | .array => (b, some rootArrayEnd)
      | .atom => (b, none)
      | .none => (b, none)
    else
      match p with
      | .object => (b, some objectEnd)
      | .array => (b, some arrayEnd)
      | .atom => (b, if parent = nameArray ∧ above.head? = some [76] then some elementEnd else none)
      | .none => (b, none)

/-- The two matchers. -/
def callbacks (fuel : Nat) : Callbacks ToDdb := ⟨find fuel, findEnd⟩

end ToDdb

/-- `convert_normal_to_ddb`, normal_to_ddb.rs lines 731-795. The state of the converter is returned for the statements
about it; the caller sees only what was written (`d`). -/
def convertNormalToDdb (turns fuel : Nat) (reader : Reader) (d : Dest) (rjiterBuffer contextBuffer : Bytes)
    (pretty unbuffered withItemWrapper : Bool) : ToDdb × Conv :=
  match U8Pool.new contextBuffer 34 with
  | .ok pool =>
    match scan turns fuel (ToDdb.callbacks fuel) ⟨[], false⟩
        ⟨.new reader rjiterBuffer, .new d withItemWrapper pretty unbuffered, pool⟩ with
    | (st, .ok ()) => (st.baton, .ok)
    | (st, .err e) => (st.baton, report st.baton.lastError st.rj.currentIndex e)
    | (st, .panic) => (st.baton, .panic)
    | (st, .diverge) => (st.baton, .diverge)
  | .err _ => (.new d withItemWrapper pretty unbuffered, .err (.scan (.internal 0 "Failed to create context pool")) 0)
  | .panic => (.new d withItemWrapper pretty unbuffered, .panic)

end Verif.Ddb
