import Verif.U8Pool.Iter
import Verif.RJiter.Model

/-!
# Model of `scan_json/src/stack.rs` and `scan_json/src/matcher.rs`, and of the types of `scan.rs`

The context stack is the pool of `U8Pool/Model.lean`, the parser is the `RJ` of `RJiter/Model.lean`.
-/

namespace Verif.Scan

open Verif.U8Pool (Pool Layout AssocIter)
open Verif.RJiter (RJ Err Res)

/-- `StructurePosition`, scan.rs lines 60-74. -/
inductive Pos where
  | top | objectBegin | objectMiddle | objectBetweenKV | arrayBegin | arrayMiddle
deriving DecidableEq, Repr

/-- The layout of `StructurePosition`: a fieldless enum, one byte. -/
def posLayout : Layout := ⟨1, 1⟩

/-- The byte that represents a position in the pool (rustc numbers the variants in order; only that the bytes
differ matters). -/
def Pos.byte : Pos → Byte
  | .top => 0 | .objectBegin => 1 | .objectMiddle => 2 | .objectBetweenKV => 3 | .arrayBegin => 4 | .arrayMiddle => 5

/-- Reading a position back. A byte that is not a position is undefined behaviour in the source; here `top`. -/
def Pos.ofByte (b : Byte) : Pos :=
  if b = 1 then .objectBegin else if b = 2 then .objectMiddle else if b = 3 then .objectBetweenKV
  else if b = 4 then .arrayBegin else if b = 5 then .arrayMiddle else .top

/-- `StructuralPseudoname`, matcher.rs lines 8-17. -/
inductive Pseudo where
  | array | object | atom | none
deriving DecidableEq, Repr

/-- The names that remain in a reverse iterator over the pool: `ContextIter::next` (stack.rs lines 35-41) called
until it answers `None`. `n` bounds the number of calls. -/
def namesFrom : Nat → AssocIter → List Bytes
  | 0, _ => []
  | n + 1, it =>
    match it.nextRev posLayout with
    | (it', .ok (some (_, name))) => name :: namesFrom n it'
    | _ => []

/-- A `ContextIter` (stack.rs lines 8-33) as a callback sees it: the names it yields, innermost first, and `len()`.
Simplification: the callback gets the list instead of calling `next`; a `next` that would panic ends the list
(it cannot for a pool used through its API, see C03). -/
structure Ctx where
  path : List Bytes
  len : Nat
deriving DecidableEq, Repr

/-- `ContextIter::new`, stack.rs lines 15-20. -/
def Ctx.of (p : Pool) : Ctx := ⟨namesFrom (p.len + 1) p.iterAssocRev, p.iterAssocRev.sizeHintRev⟩

/-- `b"#top"` -/
def nameTop : Bytes := [35, 116, 111, 112]
/-- `b"#array"` -/
def nameArray : Bytes := [35, 97, 114, 114, 97, 121]
/-- `b"#object"` -/
def nameObject : Bytes := [35, 111, 98, 106, 101, 99, 116]
/-- `b"#atom"` -/
def nameAtom : Bytes := [35, 97, 116, 111, 109]

/-- The comparison loop of `iter_match`, matcher.rs lines 132-141. -/
def matchNames : List Bytes → List Bytes → Bool
  | [], _ => true
  | e :: es, a :: as => if e = a then matchNames es as else false
  | _ :: _, [] => false

/-- One of the three structural arms of `iter_match`, matcher.rs lines 108-128. -/
def matchStructural (name : Bytes) (expected path : List Bytes) : Bool :=
  match expected with
  | e :: es => if e = name then matchNames es path else false
  | [] => true

/-- `iter_match`, matcher.rs lines 94-142. -/
def iterMatch (expected : List Bytes) (p : Pseudo) (path : List Bytes) : Bool :=
  match p with
  | .array => matchStructural nameArray expected path
  | .object => matchStructural nameObject expected path
  | .atom => matchStructural nameAtom expected path
  | .none => matchNames expected path

/-- `StreamOp`, matcher.rs lines 21-32. A static message is a string. -/
inductive StreamOp where
  | none
  | valueIsConsumed
  | error (message : String)
deriving DecidableEq, Repr

/-- What running an action gives: its `StreamOp`, or a panic or non-termination inside one of the parser calls it
makes. -/
inductive Acted where
  | op (o : StreamOp)
  | panic
  | diverge
deriving DecidableEq, Repr

/-- `Action<B, R>`, matcher.rs line 39. `β` is the state behind the baton (the contents of the `RefCell`, or the
value itself); an action may do anything to the parser and to that state. -/
abbrev Action (β : Type) := RJ → β → (RJ × β) × Acted

/-- `EndAction<B>`, matcher.rs line 48; `some message` is `Err(message)`. -/
abbrev EndAction (β : Type) := β → β × Option String

/-- The two matcher functions given to `scan`, scan.rs lines 446-447. A matcher may change the state behind the
baton (`idtransform` does). -/
structure Callbacks (β : Type) where
  find : Pseudo → Ctx → β → β × Option (Action β)
  findEnd : Pseudo → Ctx → β → β × Option (EndAction β)

/-- `Error`, error.rs lines 5-40. -/
inductive SErr where
  | rjiter (e : Err)
  | unhandledPeek (peek : Byte) (position : Nat)
  | unbalancedJson (position : Nat)
  | internal (position : Nat) (message : String)
  | maxNesting (position level : Nat)
  | action (message : String) (position : Nat)
  | io (kind : Nat)
deriving DecidableEq, Repr

/-- Outcome of a function of `scan.rs`. -/
inductive SRes (α : Type) where
  | ok (a : α)
  | err (e : SErr)
  | panic
  | diverge
deriving DecidableEq, Repr

/-- `Options`, scan.rs lines 31-36. -/
structure Options where
  sseTokens : List Bytes
  stopEarly : Bool
deriving DecidableEq, Repr

/-- What `scan` works on. -/
structure St (β : Type) where
  rj : RJ
  baton : β
  pool : Pool
deriving DecidableEq, Repr

end Verif.Scan
