import Verif.U8Pool.Model

/-!
# Reference behaviour of the pool: a list of byte strings

`Spec` knows nothing about slot tables or byte offsets. It is a list of items (bottom first). An item
is its byte string together with the number of padding bytes in front of it (0 for `push`).
-/

namespace Verif.U8Pool

/-- One stored item. -/
structure Item where
  pad : Nat
  bytes : Bytes
deriving DecidableEq, Repr

/-- Abstract state: data capacity, number of slots (claimed by the caller, and physically present
in the buffer: these differ only if `max_slices * 4` wrapped), and the items. -/
structure Spec where
  cap : Nat
  maxSlices : Nat
  slots : Nat
  items : List Item
deriving DecidableEq, Repr

/-- Bytes occupied by a list of items. -/
def usedBy : List Item → Nat
  | [] => 0
  | i :: is => i.pad + i.bytes.length + usedBy is

namespace Spec

/-- Contents as a plain list of byte strings. -/
def contents (s : Spec) : List Bytes := s.items.map (·.bytes)

/-- Smallest padding that brings `used` to a multiple of `a`. -/
def padFor (used a : Nat) : Nat := if used % a = 0 then 0 else a - used % a

/-- Pushing an item with layout `L`: value bytes `v` then data `bs`. -/
def push (s : Spec) (L : Layout) (v bs : Bytes) : Spec × Except PoolError Unit :=
  let used := usedBy s.items
  let pad := padFor used L.align
  let len := v.length + bs.length
  if s.maxSlices ≤ s.items.length then (s, .error (.sliceLimitExceeded s.maxSlices))
  else if s.cap - used < pad + len then (s, .error (.bufferOverflow (pad + len) (s.cap - used)))
  else if u16Max < used + pad then (s, .error (.valueTooLarge (used + pad) u16Max))
  else if u16Max < len then (s, .error (.valueTooLarge len u16Max))
  else if s.slots ≤ s.items.length then (s, .error (.indexOutOfBounds s.items.length s.slots))
  else ({ s with items := s.items ++ [⟨pad, v ++ bs⟩] }, .ok ())

/-- Removing the last item. -/
def pop (s : Spec) : Spec × Option Bytes :=
  ({ s with items := s.items.dropLast }, s.items.getLast?.map (·.bytes))

/-- Splitting an item's bytes into a value of `n` bytes and the data, if long enough. -/
def split (n : Nat) (b : Bytes) : Option (Bytes × Bytes) :=
  if b.length < n then none else some (b.take n, b.drop n)

/-- Typed access to an item of the list. -/
def getAssoc (s : Spec) (L : Layout) (i : Nat) : Option (Bytes × Bytes) :=
  match s.contents[i]? with
  | none => none
  | some b => split L.size b

/-- Typed removal of the last item; refused (nothing removed) if it is too short for the type. -/
def popAssoc (s : Spec) (L : Layout) : Spec × Option (Bytes × Bytes) :=
  match s.items.getLast? with
  | none => (s, none)
  | some i => match split L.size i.bytes with
    | none => (s, none)
    | some r => ({ s with items := s.items.dropLast }, some r)

/-- Replace the bytes of the last item. -/
def setTop (s : Spec) (b : Bytes) : Spec :=
  match s.items.getLast? with
  | none => s
  | some i => { s with items := s.items.dropLast ++ [{ i with bytes := b }] }

/-- Replacing the data of the last item. The third error case is what the code does, not what its
users want: the old data is already partly overwritten when the 16-bit length check fails. -/
def replaceTop (s : Spec) (L : Layout) (new : Bytes) : Spec × Except PoolError Unit :=
  match s.items.getLast? with
  | none => (s, .error (.indexOutOfBounds 0 0))
  | some i => match split L.size i.bytes with
    | none => (s, .error (.invalidInitialization 4))
    | some (v, old) =>
      let room := s.cap - (usedBy s.items - old.length)
      if room < new.length then (s, .error (.bufferOverflow new.length room))
      else if u16Max < L.size + new.length then
        (s.setTop (v ++ new.take old.length), .error (.valueTooLarge (L.size + new.length) u16Max))
      else (s.setTop (v ++ new), .ok ())

end Spec

/-! ## Histories -/

/-- The mutating calls of the public API. -/
inductive Op where
  | push (bs : Bytes)
  | pop
  | pushAssoc (L : Layout) (v bs : Bytes)
  | popAssoc (L : Layout)
  | replaceTop (L : Layout) (bs : Bytes)
  | clear
deriving DecidableEq, Repr

/-- Type correctness of a call (guaranteed by Rust): alignments are positive and a value has the size
of its type. -/
def Op.Typed : Op → Prop
  | .push _ => True
  | .pop => True
  | .pushAssoc L v _ => 0 < L.align ∧ v.length = L.size
  | .popAssoc L => 0 < L.align
  | .replaceTop L _ => 0 < L.align
  | .clear => True

/-- What a caller sees from a mutating call. -/
inductive Out where
  | unit
  | bytes (b : Bytes)
  | pair (a d : Bytes)
  | opt (o : Option Bytes)
  | optPair (o : Option (Bytes × Bytes))
  | err (e : PoolError)
  | panic
deriving DecidableEq, Repr

/-- One call on the model of the implementation. -/
def step (p : Pool) : Op → Pool × Out
  | .push bs => match p.push bs with
    | (p', .ok r) => (p', .bytes r)
    | (p', .err e) => (p', .err e)
    | (p', .panic) => (p', .panic)
  | .pop => match p.pop with
    | (p', .ok r) => (p', .opt r)
    | (p', .err e) => (p', .err e)
    | (p', .panic) => (p', .panic)
  | .pushAssoc L v bs => match p.pushAssoc L v bs with
    | (p', .ok (a, d)) => (p', .pair a d)
    | (p', .err e) => (p', .err e)
    | (p', .panic) => (p', .panic)
  | .popAssoc L => match p.popAssoc L with
    | (p', .ok r) => (p', .optPair r)
    | (p', .err e) => (p', .err e)
    | (p', .panic) => (p', .panic)
  | .replaceTop L bs => match p.replaceTopAssocBytes L bs with
    | (p', .ok r) => (p', .bytes r)
    | (p', .err e) => (p', .err e)
    | (p', .panic) => (p', .panic)
  | .clear => (p.clear, .unit)

/-- The same call on the reference. -/
def Spec.step (s : Spec) : Op → Spec × Out
  | .push bs => match s.push Layout.unit [] bs with
    | (s', .ok ()) => (s', .bytes bs)
    | (s', .error e) => (s', .err e)
  | .pop => match s.pop with
    | (s', r) => (s', .opt r)
  | .pushAssoc L v bs => match s.push L v bs with
    | (s', .ok ()) => (s', .pair v bs)
    | (s', .error e) => (s', .err e)
  | .popAssoc L => match s.popAssoc L with
    | (s', r) => (s', .optPair r)
  | .replaceTop L bs => match s.replaceTop L bs with
    | (s', .ok ()) => (s', .bytes bs)
    | (s', .error e) => (s', .err e)
  | .clear => ({ s with items := [] }, .unit)

/-- Run a history, collecting what the caller sees. -/
def run (p : Pool) : List Op → Pool × List Out
  | [] => (p, [])
  | o :: os => let r := step p o; let r2 := run r.1 os; (r2.1, r.2 :: r2.2)

/-- Run a history on the reference. -/
def Spec.run (s : Spec) : List Op → Spec × List Out
  | [] => (s, [])
  | o :: os => let r := s.step o; let r2 := Spec.run r.1 os; (r2.1, r.2 :: r2.2)

/-- The reference state of a freshly created pool. -/
def Spec.init (bufLen maxSlices : Nat) : Spec :=
  { cap := bufLen - (maxSlices * 4) % 2 ^ 64, maxSlices := maxSlices,
    slots := ((maxSlices * 4) % 2 ^ 64) / 4, items := [] }

end Verif.U8Pool
