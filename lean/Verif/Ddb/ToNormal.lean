import Verif.Ddb.Basic

/-!
# Model of `examples/dynamodb/src/ddb_to_normal.rs`

The state behind the baton is the contents of the `RefCell`. No borrow is held while another one is taken: a matcher
drops its borrow before it returns, an action at its end, and `on_map_end_in_array` borrows after `on_map_end` has returned.
-/

namespace Verif.Ddb

open Verif.U8Pool (Pool)
open Verif.RJiter (RJ Err Res Reader Writer)
open Verif.Scan (Action EndAction Callbacks Acted StreamOp Pseudo Ctx nameTop nameArray scan)

/-- `Phase`, ddb_to_normal.rs lines 48-53. -/
inductive Phase where
  | field
  | typeKey
  | value
  | consumed
deriving DecidableEq, Repr

/-- `TypeDesc`, ddb_to_normal.rs lines 66-71. -/
inductive TypeDesc where
  | ss
  | ns
  | l
  | m
deriving DecidableEq, Repr

/-- `DdbConverter`, ddb_to_normal.rs lines 73-85. `asWrapper` is `item_wrapper_mode == AsWrapper`. The key is the bytes the
reference points to; it is used by the action that runs right after the matcher, while the key is still on the stack.
`underflow` is not in the source: it records that `output_depth -= 1` was executed with `output_depth` 0, where a build with
overflow checks panics. The source's `output_depth += 1` can overflow only behind 2^64 bytes of input (or after such an
underflow) and is modelled without a bound. -/
structure ToNormal where
  d : Dest
  comma : Bool
  pretty : Bool
  unbuffered : Bool
  depth : Nat
  field : Option Bytes
  asWrapper : Bool
  lastError : Option ConvErr
  phase : Phase
  type : Option TypeDesc
  underflow : Bool
deriving DecidableEq, Repr

namespace ToNormal

/-- `DdbConverter::new`, ddb_to_normal.rs lines 88-101. -/
def new (d : Dest) (pretty unbuffered asWrapper : Bool) : ToNormal :=
  ⟨d, false, pretty, unbuffered, 0, none, asWrapper, none, .field, none, false⟩

/-- `store_rjiter_error`, ddb_to_normal.rs lines 103-108. -/
def storeRj (e : Err) (context : String) (b : ToNormal) : ToNormal := { b with lastError := some (.rjiter e.type context) }

/-- `store_parse_error`, ddb_to_normal.rs lines 110-127. -/
def storeParse (context : String) (unknown : Option Bytes) (b : ToNormal) : ToNormal :=
  { b with lastError := some (.parse context (unknown.map (·.take 32))) }

/-- A part of an action: the new state, and the message if it failed. -/
abbrev Step := ToNormal × Option String

/-- `?`, or `if let Err(e) = .. { return StreamOp::Error(e); }`. -/
def Step.bind (x : Step) (k : ToNormal → Step) : Step :=
  match x with
  | (b, none) => k b
  | (b, some m) => (b, some m)

/-- `try_write_any`, ddb_to_normal.rs lines 139-144. -/
def put (bs : Bytes) (context : String) (b : ToNormal) : Step :=
  match b.d.write b.unbuffered bs with
  | (d, none) => ({ b with d := d }, none)
  | (d, some k) => ({ b with d := d, lastError := some (.io k context) }, some "Write failed")

/-- `newline_if_pretty`, ddb_to_normal.rs lines 155-161. -/
def newline (b : ToNormal) : Step := if b.pretty then b.put [10] "writing newline" else (b, none)

/-- `write_comma_if_pending`, ddb_to_normal.rs lines 146-153. -/
def writeComma (b : ToNormal) : Step :=
  if b.comma then
    (b.put [44] "writing comma").bind fun b => b.newline.bind fun b => ({ b with comma := false }, none)
  else (b, none)

/-- The loop in `indent_if_pretty`, ddb_to_normal.rs lines 165-167. -/
def indentLoop : Nat → ToNormal → Step
  | 0, b => (b, none)
  | n + 1, b => (b.put [32, 32] "writing indentation").bind (indentLoop n)

/-- `indent_if_pretty`, ddb_to_normal.rs lines 163-170. -/
def indent (b : ToNormal) : Step := if b.pretty then indentLoop b.depth b else (b, none)

/-- `conv.output_depth -= 1`, with the wrap-around of a build without overflow checks. -/
def dec (b : ToNormal) : Step :=
  if b.depth = 0 then ({ b with depth := 2 ^ 64 - 1, underflow := true }, none) else ({ b with depth := b.depth - 1 }, none)

/-- An assignment. -/
def set (f : ToNormal → ToNormal) (b : ToNormal) : Step := (f b, none)

/-- `if let Err(e) = .. { return StreamOp::Error(e); }` and the rest of the action. -/
def Step.run (x : Step) (rj : RJ) (k : Action ToNormal) : (RJ × ToNormal) × Acted :=
  match x with
  | (b, none) => k rj b
  | (b, some m) => ((rj, b), .op (.error m))

/-- An action that only writes, and then answers `op`. -/
def act (f : ToNormal → Step) (op : StreamOp) : Action ToNormal := fun rj b => (f b).run rj fun rj b => ((rj, b), .op op)

/-- `on_root_object_begin`, ddb_to_normal.rs lines 176-189. -/
def rootObjectBegin (b : ToNormal) : Step :=
  (b.put [123] "writing root object opening brace").bind fun b =>
  b.newline.bind (set fun b => { b with depth := 1 })

/-- `on_field_key`, ddb_to_normal.rs lines 192-220. -/
def fieldKey (b : ToNormal) : Step :=
  match b.field with
  | none => (b, some "Internal error: current_field not set (impossible)")
  | some name =>
    b.writeComma.bind fun b =>
    b.indent.bind fun b =>
    (b.put [34] "writing field name opening quote").bind fun b =>
    (b.put name "writing field name").bind fun b =>
    (b.put [34, 58] "writing field name closing quote and colon").bind
    (set fun b => { b with comma := false, phase := .typeKey })

/-- `flush` behind `write_long_bytes`, ddb_to_normal.rs lines 258-266. -/
def flushLong (b : ToNormal) : Step :=
  if b.unbuffered then
    match b.d.flush with
    | (d, none) => ({ b with d := d }, none)
    | (d, some k) => ({ b with d := d, lastError := some (.io k "flushing after write_long_bytes") }, some "Failed to flush writer")
  else (b, none)

/-- `if with_quotes { .. }`, ddb_to_normal.rs lines 249-253 and 267-271. -/
def quote (quotes : Bool) (context : String) (b : ToNormal) : Step := if quotes then b.put [34] context else (b, none)

/-- `write_string_value`, ddb_to_normal.rs lines 224-275. It is always called with `write_comma_if_pending` set. -/
def writeString (fuel : Nat) (quotes : Bool) (peekContext writeContext : String) : Action ToNormal := fun rj b =>
  match rj.peek fuel with
  | (rj, .ok peek) =>
    if peek ≠ 34 then ((rj, b), .op (.error "Expected string value"))
    else
      (b.writeComma.bind (quote quotes "writing opening quote")).run rj fun rj b =>
        match rj.writeLongBytes fuel b.d.w with
        | ((rj, w), .ok ()) =>
          act (fun b => b.flushLong.bind fun b => (b.quote quotes "writing closing quote").bind
            (set fun b => { b with comma := true })) .valueIsConsumed rj { b with d := { b.d with w := w } }
        | ((rj, w), .err e) => ((rj, ({ b with d := { b.d with w := w } } : ToNormal).storeRj e writeContext), .op (.error "Failed to write value"))
        | ((rj, w), .panic) => ((rj, { b with d := { b.d with w := w } }), .panic)
        | ((rj, w), .diverge) => ((rj, { b with d := { b.d with w := w } }), .diverge)
  | (rj, .err e) => ((rj, b.storeRj e peekContext), .op (.error "Failed to peek string value"))
  | (rj, .panic) => ((rj, b), .panic)
  | (rj, .diverge) => ((rj, b), .diverge)

/-- The closure of the type `BOOL`, ddb_to_normal.rs lines 358-362: the output, or the message. -/
def boolOutput (peek : Byte) : Bytes × Option String :=
  if peek = 116 then ([116, 114, 117, 101], none)
  else if peek = 102 then ([102, 97, 108, 115, 101], none)
  else ([], some "Expected boolean value for BOOL type")

/-- The closure of the type `NULL`, ddb_to_normal.rs lines 372-375. -/
def nullOutput (peek : Byte) : Bytes × Option String :=
  if peek = 116 then ([110, 117, 108, 108], none) else ([], some "Expected true for NULL type")

/-- `handle_bool_based_type`, ddb_to_normal.rs lines 278-315. -/
def writeBool (fuel : Nat) (output : Byte → Bytes × Option String) (name : String) : Action ToNormal := fun rj b =>
  match rj.peek fuel with
  | (rj, .ok peek) =>
    match output peek with
    | (_, some m) => ((rj, b), .op (.error m))
    | (bytes, none) =>
      b.writeComma.run rj fun rj b =>
        match rj.knownBool fuel peek with
        | (rj, .ok _) =>
          act (fun b => (b.put bytes name).bind (set fun b => { b with comma := true, type := none })) .valueIsConsumed rj b
        | (rj, .err e) => ((rj, b.storeRj e name), .op (.error "Failed to consume boolean value"))
        | (rj, .panic) => ((rj, b), .panic)
        | (rj, .diverge) => ((rj, b), .diverge)
  | (rj, .err e) => ((rj, b.storeRj e name), .op (.error "Failed to peek value"))
  | (rj, .panic) => ((rj, b), .panic)
  | (rj, .diverge) => ((rj, b), .diverge)

/-- `let result = ..; ..; result`: assignments that are made whatever the answer is. -/
def settle (f : ToNormal → ToNormal) : (RJ × ToNormal) × Acted → (RJ × ToNormal) × Acted
  | ((rj, b), .op o) => ((rj, f b), .op o)
  | x => x

/-- The arms `SS`, `BS` and `NS` of `on_type_key`, ddb_to_normal.rs lines 381-400. -/
def setBegin (type : TypeDesc) (context : String) (b : ToNormal) : Step :=
  (b.put [91] context).bind (set fun b => { b with comma := false, type := some type, phase := .value })

/-- The arm `L` of `on_type_key`, ddb_to_normal.rs lines 401-413. -/
def listBegin (b : ToNormal) : Step :=
  b.writeComma.bind fun b =>
  (b.put [91] "writing L opening bracket").bind (set fun b => { b with comma := false, type := some .l, phase := .typeKey })

/-- The arm `M` of `on_type_key`, ddb_to_normal.rs lines 414-430. -/
def mapBegin (b : ToNormal) : Step :=
  b.writeComma.bind fun b =>
  (b.put [123] "writing M opening brace").bind fun b =>
  b.newline.bind (set fun b => { b with depth := b.depth + 1, comma := false, type := some .m, phase := .field })

/-- `on_type_key`, ddb_to_normal.rs lines 318-439. -/
def onTypeKey (fuel : Nat) : Action ToNormal := fun rj b =>
  match b.field with
  | none => ((rj, b), .op (.error "current_field should be set for type key"))
  | some key =>
    if key = [83] ∨ key = [66] then
      settle (fun b => { b with type := none, phase := .value }) (writeString fuel true "S/B (string) type" "S/B (string) type" rj b)
    else if key = [78] then
      settle (fun b => { b with type := none, phase := .value }) (writeString fuel false "N (number) type" "N (number) type" rj b)
    else if key = [66, 79, 79, 76] then
      settle (fun b => { b with phase := .value }) (writeBool fuel boolOutput "BOOL type" rj b)
    else if key = [78, 85, 76, 76] then
      settle (fun b => { b with phase := .value }) (writeBool fuel nullOutput "NULL type" rj b)
    else if key = [83, 83] ∨ key = [66, 83] then act (setBegin .ss "writing SS/BS opening bracket") .none rj b
    else if key = [78, 83] then act (setBegin .ns "writing NS opening bracket") .none rj b
    else if key = [76] then act listBegin .none rj b
    else if key = [77] then act mapBegin .none rj b
    else
      ((rj, b.storeParse "Invalid DynamoDB JSON format: unknown type descriptor" (some key)), .op (.error "Unknown type descriptor"))

/-- `on_set_string_element`, ddb_to_normal.rs lines 443-456. -/
def onSetString (fuel : Nat) : Action ToNormal :=
  writeString fuel true "peeking SS/BS (string set) element" "writing SS/BS (string set) element"

/-- `on_set_number_element`, ddb_to_normal.rs lines 458-471. -/
def onSetNumber (fuel : Nat) : Action ToNormal :=
  writeString fuel false "peeking NS (number set) element" "writing NS (number set) element"

/-- `on_error`, ddb_to_normal.rs lines 474-479. -/
def onError : Action ToNormal := fun rj b => ((rj, b), .op (.error "Validation error (see stored error)"))

/-- A parse error is stored and the action is `on_error`. -/
def reject (context : String) (b : ToNormal) : ToNormal × Option (Action ToNormal) := (b.storeParse context none, some onError)

/-- `find_action_object`, ddb_to_normal.rs lines 481-538. -/
def findObject (path : List Bytes) (b : ToNormal) : ToNormal × Option (Action ToNormal) :=
  if b.depth = 0 then (b, some (act rootObjectBegin .none))
  else
    match b.phase with
    | .value => reject "Invalid DynamoDB JSON format: unexpected object value" b
    | .typeKey =>
      if b.type = some .l then reject "Invalid DynamoDB JSON format: L type expects an array value, not an object" b
      else (b, none)
    | .field => (b, none)
    | .consumed =>
      if path.head? = some nameArray then (b, none)
      else reject "Invalid DynamoDB JSON format: unexpected nested object in type descriptor" b

/-- `b"Item"` -/
def nameItem : Bytes := [73, 116, 101, 109]

/-- `find_action_key`, ddb_to_normal.rs lines 540-618. -/
def findKey (fuel : Nat) (path : List Bytes) (b : ToNormal) : ToNormal × Option (Action ToNormal) :=
  match path with
  | [] => (b, none)
  | key :: above =>
    match b.phase with
    | .field =>
      if key = nameItem ∧ b.asWrapper ∧ above.head? = some nameTop then (b, none)
      else ({ b with field := some key }, some (act fieldKey .none))
    | .typeKey => ({ b with field := some key }, some (onTypeKey fuel))
    | .value =>
      if b.type = some .ss ∨ b.type = some .ns then ({ b with field := some key }, some (onTypeKey fuel))
      else reject "Unexpected key in ExpectingValue phase (not in set)" b
    | .consumed => ({ b with field := some key }, some (act fieldKey .none))

/-- `find_action_array`, ddb_to_normal.rs lines 621-646. -/
def findArray (b : ToNormal) : ToNormal × Option (Action ToNormal) :=
  match b.type with
  | some .ss => (b, none)
  | some .ns => (b, none)
  | some .l => ({ b with type := none }, none)
  | _ => reject "Invalid DynamoDB JSON format: unexpected array value" b

/-- The message of `find_action_atom`. -/
def atomMessage : String :=
  "Invalid DynamoDB JSON format: Expected array for set type, atom values only allowed as set elements"

/-- `find_action_atom`, ddb_to_normal.rs lines 650-687. -/
def findAtom (fuel : Nat) (path : List Bytes) (b : ToNormal) : ToNormal × Option (Action ToNormal) :=
  if b.phase ≠ .value then reject atomMessage b
  else if (b.type = some .ss ∨ b.type = some .ns) ∧ path.head? = some nameArray then
    (b, some (if b.type = some .ss then onSetString fuel else onSetNumber fuel))
  else reject atomMessage b

/-- `find_action`, ddb_to_normal.rs lines 689-706. -/
def find (fuel : Nat) (p : Pseudo) (c : Ctx) (b : ToNormal) : ToNormal × Option (Action ToNormal) :=
  match p with
  | .object => findObject c.path b
  | .none => findKey fuel c.path b
  | .array => findArray b
  | .atom => findAtom fuel c.path b

/-- `on_list_end`, ddb_to_normal.rs lines 708-723. -/
def listEnd (b : ToNormal) : Step :=
  if b.phase ≠ .typeKey then (b, some "Invalid phase when ending L array (expected ExpectingTypeKey)")
  else (b.put [93] "writing L closing bracket").bind (set fun b => { b with comma := true, phase := .value, type := none })

/-- `on_set_end`, ddb_to_normal.rs lines 726-735. -/
def setEnd (b : ToNormal) : Step :=
  (b.put [93] "writing SS/NS/BS closing bracket").bind (set fun b => { b with comma := true, type := none, phase := .value })

/-- `on_map_end`, ddb_to_normal.rs lines 738-750. -/
def mapEnd (b : ToNormal) : Step :=
  b.newline.bind fun b =>
  b.dec.bind fun b =>
  b.indent.bind fun b =>
  (b.put [125] "writing M closing brace").bind (set fun b => { b with comma := true, type := none, phase := .consumed })

/-- `on_map_end_in_array`, ddb_to_normal.rs lines 753-759. -/
def mapEndInArray (b : ToNormal) : Step := b.mapEnd.bind (set fun b => { b with phase := .typeKey })

/-- `on_type_key_end` (lines 762-770), `on_type_key_end_in_array` (lines 773-780) and `on_transition_to_type_key_consumed`
(lines 811-817) of ddb_to_normal.rs: the next phase. -/
def goto (ph : Phase) : ToNormal → Step := set fun b => { b with phase := ph }

/-- `on_root_object_end`, ddb_to_normal.rs lines 783-795. -/
def rootObjectEnd (b : ToNormal) : Step :=
  b.newline.bind fun b =>
  (b.put [125] "writing root object closing brace").bind fun b =>
  (b.put [10] "writing final newline").bind (set fun b => { b with comma := false, depth := 0, phase := .field })

/-- The types whose end `find_end_action_key` leaves to others, ddb_to_normal.rs line 879. -/
def container (key : Bytes) : Bool := key = [77] ∨ key = [76] ∨ key = [83, 83] ∨ key = [78, 83] ∨ key = [66, 83]

/-- The parent that `find_end_action_key` finds in the phase `ExpectingField`, ddb_to_normal.rs lines 853-866: if the key is
`Item`, the first `context.next()` has been used up. -/
def endParent (key : Bytes) (above : List Bytes) : Option Bytes := if key = nameItem then above.tail.head? else above.head?

/-- `find_end_action_key`, ddb_to_normal.rs lines 820-888. -/
def findEndKey (path : List Bytes) (b : ToNormal) : Option (EndAction ToNormal) :=
  match path with
  | [] => none
  | key :: above =>
    match b.phase with
    | .value => some (goto (if above.head? = some nameArray then .typeKey else .consumed))
    | .consumed => some (goto (if above.head? = some nameArray then .typeKey else .field))
    | .field =>
      if key = nameItem ∧ above.head? = some nameTop ∧ b.asWrapper then none
      else some (if endParent key above = some nameArray then mapEndInArray else mapEnd)
    | .typeKey => if container key then none else some (goto .consumed)

/-- `find_end_action`, ddb_to_normal.rs lines 890-917, with `find_end_action_object`, lines 798-807. -/
def findEnd (p : Pseudo) (c : Ctx) (b : ToNormal) : ToNormal × Option (EndAction ToNormal) :=
  match p with
  | .array => (b, if b.phase = .typeKey then some listEnd else if b.phase = .value then some setEnd else none)
  | .object => (b, if c.len = 1 then some rootObjectEnd else none)
  | .none => (b, findEndKey c.path b)
  | .atom => (b, none)

/-- The two matchers. -/
def callbacks (fuel : Nat) : Callbacks ToNormal := ⟨find fuel, findEnd⟩

end ToNormal

/-- `convert_ddb_to_normal`, ddb_to_normal.rs lines 940-1007. The state of the converter is returned for the statements about
it; the caller sees only what was written (`d`). -/
def convertDdbToNormal (turns fuel : Nat) (reader : Reader) (d : Dest) (rjiterBuffer contextBuffer : Bytes)
    (pretty unbuffered asWrapper : Bool) : ToNormal × Conv :=
  match U8Pool.new contextBuffer 68 with
  | .ok pool =>
    match scan turns fuel (ToNormal.callbacks fuel) ⟨[], false⟩
        ⟨.new reader rjiterBuffer, .new d pretty unbuffered asWrapper, pool⟩ with
    | (st, .ok ()) => (st.baton, .ok)
    | (st, .err e) => (st.baton, report st.baton.lastError st.rj.currentIndex e)
    | (st, .panic) => (st.baton, .panic)
    | (st, .diverge) => (st.baton, .diverge)
  | .err _ => (.new d pretty unbuffered asWrapper, .err (.scan (.internal 0 "Failed to create context pool")) 0)
  | .panic => (.new d pretty unbuffered asWrapper, .panic)

end Verif.Ddb
