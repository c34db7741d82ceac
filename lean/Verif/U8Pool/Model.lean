import Verif.Base

/-!
# Model of `u8pool`

Source: `/repo/u8pool/src/core.rs`, `/repo/u8pool/src/slice_descriptor.rs`,
`/repo/u8pool/src/error.rs`.

Simplifications (apply to the whole file):
* `usize` is `Nat`, except in `new` where the product `max_slices * 4` is taken mod `2^64`
  (release-mode arithmetic). All other sums are bounded by twice a slice length plus 2^17 and
  cannot wrap on a 64-bit target.
* A returned `&[u8]` is modelled by the bytes it points to.
* A value of a sized type `T` is the list of its `size_of::<T>()` bytes; `T` is a `Layout`.
* Panics are explicit (`PRes.panic`).
-/

namespace Verif.U8Pool

/-- `u8pool/src/error.rs` lines 1-36 (the `reason` strings are dropped; the three call sites of
`InvalidInitialization` in `new` and the one in `replace_top_assoc_bytes` are told apart by a number). -/
inductive PoolError where
  | bufferOverflow (requested available : Nat)
  | indexOutOfBounds (index length : Nat)
  | invalidInitialization (site : Nat)
  | sliceLimitExceeded (maxSlices : Nat)
  | valueTooLarge (value max : Nat)
deriving DecidableEq, Repr

/-- Outcome of a call: `Ok`, `Err`, or a panic. -/
inductive PRes (α : Type) where
  | ok (a : α)
  | err (e : PoolError)
  | panic
deriving DecidableEq, Repr

/-- `size_of::<T>()` and `align_of::<T>()` of a Rust type. -/
structure Layout where
  size : Nat
  align : Nat
deriving DecidableEq, Repr

/-- The layout of `()`, used by `push` (core.rs line 181). -/
def Layout.unit : Layout := ⟨0, 1⟩

/-- `SLICE_DESCRIPTOR_SIZE`, core.rs line 5, slice_descriptor.rs line 3. -/
def descSize : Nat := 4

/-- `u16::MAX as usize`. -/
def u16Max : Nat := 65535

/-- `struct U8Pool`, core.rs lines 10-15. `desc` is the `SliceDescriptor` buffer. -/
structure Pool where
  maxSlices : Nat
  count : Nat
  desc : Bytes
  data : Bytes
deriving DecidableEq, Repr

/-! ## slice_descriptor.rs -/

/-- `SliceDescriptor::get`, slice_descriptor.rs lines 35-45 (the four reads are in bounds after the
length check, the default of `getD` is never used). -/
def descGet (desc : Bytes) (index : Nat) : Option (Nat × Nat) :=
  let offset := index * descSize
  if offset + descSize > desc.length then none
  else some ((desc.getD offset 0).toNat ||| ((desc.getD (offset + 1) 0).toNat <<< 8),
             (desc.getD (offset + 2) 0).toNat ||| ((desc.getD (offset + 3) 0).toNat <<< 8))

/-- `x as u8` of a `usize`/`u16`: truncation. -/
def asU8 (n : Nat) : UInt8 := UInt8.ofNat n

/-- `SliceDescriptor::set`, slice_descriptor.rs lines 48-79. Returns the new descriptor buffer. -/
def descSet (desc : Bytes) (index start length : Nat) : Except PoolError Bytes :=
  if start > u16Max then .error (.valueTooLarge start u16Max)
  else if length > u16Max then .error (.valueTooLarge length u16Max)
  else
    let offset := index * descSize
    if offset + descSize > desc.length then
      .error (.indexOutOfBounds index (desc.length / descSize))
    else
      .ok ((((desc.set offset (asU8 start)).set (offset + 1) (asU8 (start >>> 8))).set
        (offset + 2) (asU8 length)).set (offset + 3) (asU8 (length >>> 8)))

/-! ## core.rs -/

/-- `U8Pool::new`, core.rs lines 26-57. `max_slices * SLICE_DESCRIPTOR_SIZE` wraps mod 2^64
(release build; a debug build panics there instead). `metadata_space + 1` cannot wrap because the
product is a multiple of 4. -/
def new (buffer : Bytes) (maxSlices : Nat) : PRes Pool :=
  if maxSlices = 0 then .err (.invalidInitialization 1)
  else if buffer = [] then .err (.invalidInitialization 2)
  else
    let metadata := (maxSlices * descSize) % 2 ^ 64
    let minRequired := metadata + 1
    if buffer.length < minRequired then .err (.invalidInitialization 3)
    else .ok { maxSlices := maxSlices, count := 0,
               desc := buffer.take metadata, data := buffer.drop metadata }

/-- `U8Pool::with_default_max_slices`, core.rs lines 64-66. -/
def withDefaultMaxSlices (buffer : Bytes) : PRes Pool := new buffer 32

namespace Pool

/-- `len`, core.rs lines 70-72. -/
def len (p : Pool) : Nat := p.count

/-- `is_empty`, core.rs lines 76-78. -/
def isEmpty (p : Pool) : Bool := p.count == 0

/-- `clear`, core.rs lines 83-85. -/
def clear (p : Pool) : Pool := { p with count := 0 }

/-- `data_used`, core.rs lines 91-101. -/
def dataUsed (p : Pool) : Nat :=
  if p.count = 0 then 0
  else match descGet p.desc (p.count - 1) with
    | some (s, l) => s + l
    | none => p.data.length

/-- `usize::next_multiple_of`. -/
def nextMultipleOf (n a : Nat) : Nat := if n % a = 0 then n else n + (a - n % a)

/-- `reserve_aligned_buffer_space`, core.rs lines 126-153. -/
def reserve (p : Pool) (L : Layout) (dataSize : Nat) : Except PoolError (Nat × Nat) :=
  if p.count ≥ p.maxSlices then .error (.sliceLimitExceeded p.maxSlices)
  else
    let cur := p.dataUsed
    let alignedStart := nextMultipleOf cur L.align
    let total := (alignedStart - cur) + L.size + dataSize
    let fin := alignedStart + L.size + dataSize
    let available := p.data.length - cur
    if total > available then .error (.bufferOverflow total available)
    else .ok (alignedStart, fin)

/-- `finalize_push`, core.rs lines 162-166. -/
def finalizePush (p : Pool) (start total : Nat) : Pool × Except PoolError Unit :=
  match descSet p.desc p.count start total with
  | .error e => (p, .error e)
  | .ok d => ({ p with desc := d, count := p.count + 1 }, .ok ())

/-- `push`, core.rs lines 180-193. -/
def push (p : Pool) (bs : Bytes) : Pool × PRes Bytes :=
  match p.reserve Layout.unit bs.length with
  | .error e => (p, .err e)
  | .ok (s, e) =>
    -- `&mut self.data[aligned_start..end]` then `copy_from_slice`
    match slice? p.data s e, overwrite? p.data s bs with
    | some _, some data' =>
      let p1 := { p with data := data' }
      match p1.finalizePush s (e - s) with
      | (p2, .error er) => (p2, .err er)
      | (p2, .ok ()) =>
        match slice? p2.data s e with
        | some r => (p2, .ok r)
        | none => (p2, .panic)
    | _, _ => (p, .panic)

/-- `pop`, core.rs lines 198-209. -/
def pop (p : Pool) : Pool × PRes (Option Bytes) :=
  if p.count = 0 then (p, .ok none)
  else
    let p1 := { p with count := p.count - 1 }
    match descGet p1.desc p1.count with
    | none => (p1, .ok none)
    | some (s, l) =>
      match slice? p1.data s (s + l) with
      | some r => (p1, .ok (some r))
      | none => (p1, .panic)

/-- `get`, core.rs lines 216-224. -/
def get (p : Pool) (index : Nat) : PRes (Option Bytes) :=
  if index ≥ p.count then .ok none
  else match descGet p.desc index with
    | none => .ok none
    | some (s, l) =>
      match slice? p.data s (s + l) with
      | some r => .ok (some r)
      | none => .panic

/-- `top`, core.rs lines 230-235. -/
def top (p : Pool) : PRes (Option Bytes) :=
  if p.count = 0 then .ok none else p.get (p.count - 1)

/-- `push_assoc`, core.rs lines 265-303. `v` are the bytes of the value `assoc : T`
(`v.length = L.size`). The `ptr::write` is modelled as copying these bytes. -/
def pushAssoc (p : Pool) (L : Layout) (v bs : Bytes) : Pool × PRes (Bytes × Bytes) :=
  match p.reserve L bs.length with
  | .error e => (p, .err e)
  | .ok (s, e) =>
    let ae := s + L.size
    match slice? p.data s ae, overwrite? p.data s v with
    | some _, some data1 =>
      match slice? data1 ae e, overwrite? data1 ae bs with
      | some _, some data2 =>
        let p1 := { p with data := data2 }
        match p1.finalizePush s (e - s) with
        | (p2, .error er) => (p2, .err er)
        | (p2, .ok ()) =>
          match slice? p2.data s ae, slice? p2.data ae e with
          | some a, some d => (p2, .ok (a, d))
          | _, _ => (p2, .panic)
      | _, _ => ({ p with data := data1 }, .panic)
    | _, _ => (p, .panic)

/-- `get_validated_assoc_positions`, core.rs lines 333-352. -/
def validatedPositions (p : Pool) (L : Layout) (index : Nat) : Option (Nat × Nat × Nat) :=
  if index ≥ p.count then none
  else match descGet p.desc index with
    | none => none
    | some (s, l) => if l < L.size then none else some (s, s + L.size, s + l)

/-- `extract_assoc_ref`, core.rs lines 365-380. -/
def extractAssoc (p : Pool) (s ae de : Nat) : PRes (Option (Bytes × Bytes)) :=
  match slice? p.data s ae, slice? p.data ae de with
  | some a, some d => .ok (some (a, d))
  | _, _ => .panic

/-- `get_assoc`, core.rs lines 392-400. -/
def getAssoc (p : Pool) (L : Layout) (index : Nat) : PRes (Option (Bytes × Bytes)) :=
  match p.validatedPositions L index with
  | none => .ok none
  | some (s, ae, de) => p.extractAssoc s ae de

/-- `pop_assoc`, core.rs lines 411-426. -/
def popAssoc (p : Pool) (L : Layout) : Pool × PRes (Option (Bytes × Bytes)) :=
  if p.count = 0 then (p, .ok none)
  else match p.validatedPositions L (p.count - 1) with
    | none => (p, .ok none)
    | some (s, ae, de) =>
      let p1 := { p with count := p.count - 1 }
      (p1, p1.extractAssoc s ae de)

/-- `top_assoc`, core.rs lines 438-443. -/
def topAssoc (p : Pool) (L : Layout) : PRes (Option (Bytes × Bytes)) :=
  if p.count = 0 then .ok none else p.getAssoc L (p.count - 1)

/-- `top_assoc_obj`, core.rs lines 455-471. -/
def topAssocObj (p : Pool) (L : Layout) : PRes (Option Bytes) :=
  if p.count = 0 then .ok none
  else match p.validatedPositions L (p.count - 1) with
    | none => .ok none
    | some (s, ae, _) =>
      match slice? p.data s ae with
      | some a => .ok (some a)
      | none => .panic

/-- `top_assoc_bytes`, core.rs lines 482-493. -/
def topAssocBytes (p : Pool) (L : Layout) : PRes (Option Bytes) :=
  if p.count = 0 then .ok none
  else match p.validatedPositions L (p.count - 1) with
    | none => .ok none
    | some (_, ae, de) =>
      match slice? p.data ae de with
      | some a => .ok (some a)
      | none => .panic

/-- `replace_top_assoc_bytes`, core.rs lines 514-555. The data is overwritten before the
descriptor is updated, as in the source. -/
def replaceTopAssocBytes (p : Pool) (L : Layout) (new : Bytes) : Pool × PRes Bytes :=
  if p.count = 0 then (p, .err (.indexOutOfBounds 0 0))
  else match p.validatedPositions L (p.count - 1) with
    | none => (p, .err (.invalidInitialization 4))
    | some (s, ae, _) =>
      let newEnd := ae + new.length
      if newEnd > p.data.length then
        (p, .err (.bufferOverflow new.length (p.data.length - ae)))
      else
        match overwrite? p.data ae new with
        | none => (p, .panic)
        | some data' =>
          let p1 := { p with data := data' }
          match descSet p1.desc (p.count - 1) s ((ae - s) + new.length) with
          | .error e => (p1, .err e)
          | .ok d =>
            match slice? data' ae newEnd with
            | some r => ({ p1 with desc := d }, .ok r)
            | none => ({ p1 with desc := d }, .panic)

end Pool

end Verif.U8Pool
