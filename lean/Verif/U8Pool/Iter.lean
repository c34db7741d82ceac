import Verif.U8Pool.Model

/-!
# Model of the `u8pool` iterators

Source: `/repo/u8pool/src/slice_descriptor.rs` lines 81-150, `/repo/u8pool/src/iter.rs`.
An iterator is a state; `next` returns the new state and the item. `slice::get(range)` returns
`None` instead of panicking.
-/

namespace Verif.U8Pool

/-- `SliceDescriptorIter`, slice_descriptor.rs lines 99-104. -/
structure DescIter where
  desc : Bytes
  current : Nat
  count : Nat
deriving DecidableEq, Repr

/-- `SliceDescriptorIter::next`, slice_descriptor.rs lines 108-116. -/
def DescIter.next (it : DescIter) : DescIter × Option (Nat × Nat) :=
  if it.current < it.count then
    ({ it with current := it.current + 1 }, descGet it.desc it.current)
  else (it, none)

/-- `SliceDescriptorIter::size_hint`, slice_descriptor.rs lines 118-121 (lower = upper).
`count - current` underflows (panic in debug) if `current > count`: explicit `none`. -/
def DescIter.sizeHint (it : DescIter) : Option Nat :=
  if it.current ≤ it.count then some (it.count - it.current) else none

/-- `SliceDescriptorRevIter`, slice_descriptor.rs lines 128-131. -/
structure DescRevIter where
  desc : Bytes
  current : Nat
deriving DecidableEq, Repr

/-- `SliceDescriptorRevIter::next`, slice_descriptor.rs lines 136-143. -/
def DescRevIter.next (it : DescRevIter) : DescRevIter × Option (Nat × Nat) :=
  if it.current > 0 then
    ({ it with current := it.current - 1 }, descGet it.desc (it.current - 1))
  else (it, none)

/-- `SliceDescriptorRevIter::size_hint`, slice_descriptor.rs lines 145-147. -/
def DescRevIter.sizeHint (it : DescRevIter) : Option Nat := some it.current

/-- `U8PoolIter`, iter.rs lines 7-11. -/
structure PoolIter where
  data : Bytes
  d : DescIter
deriving DecidableEq, Repr

/-- `U8PoolIter::next`, iter.rs lines 16-19. -/
def PoolIter.next (it : PoolIter) : PoolIter × Option Bytes :=
  match it.d.next with
  | (d', none) => ({ it with d := d' }, none)
  | (d', some (s, l)) => ({ it with d := d' }, slice? it.data s (s + l))

/-- `U8PoolIter::size_hint`, iter.rs lines 21-23. -/
def PoolIter.sizeHint (it : PoolIter) : Option Nat := it.d.sizeHint

/-- `U8Pool::iter` / `into_iter`, iter.rs lines 28-38, core.rs lines 563-565, 604-606. -/
def Pool.iter (p : Pool) : PoolIter := { data := p.data, d := ⟨p.desc, 0, p.count⟩ }

/-- `U8PoolRevIter`, iter.rs lines 43-47. -/
structure PoolRevIter where
  data : Bytes
  d : DescRevIter
deriving DecidableEq, Repr

/-- `U8PoolRevIter::next`, iter.rs lines 61-64. -/
def PoolRevIter.next (it : PoolRevIter) : PoolRevIter × Option Bytes :=
  match it.d.next with
  | (d', none) => ({ it with d := d' }, none)
  | (d', some (s, l)) => ({ it with d := d' }, slice? it.data s (s + l))

/-- `U8PoolRevIter::size_hint`, iter.rs lines 66-68. -/
def PoolRevIter.sizeHint (it : PoolRevIter) : Option Nat := it.d.sizeHint

/-- `U8Pool::iter_rev`, core.rs lines 569-571, iter.rs lines 49-56. -/
def Pool.iterRev (p : Pool) : PoolRevIter := { data := p.data, d := ⟨p.desc, p.count⟩ }

/-- `U8PoolPairIter::next`, iter.rs lines 93-97. The state is the inner `U8PoolIter`. -/
def PoolIter.nextPair (it : PoolIter) : PoolIter × Option (Bytes × Bytes) :=
  match it.next with
  | (it1, none) => (it1, none)
  | (it1, some k) =>
    match it1.next with
    | (it2, none) => (it2, none)
    | (it2, some v) => (it2, some (k, v))

/-- `U8PoolPairIter::size_hint`, iter.rs lines 99-105. -/
def PoolIter.pairSizeHint (it : PoolIter) : Option Nat := it.sizeHint.map (· / 2)

/-- `U8PoolAssocIter`, iter.rs lines 114-118. -/
structure AssocIter where
  pool : Pool
  current : Nat
deriving DecidableEq, Repr

/-- `U8PoolAssocIter::next`, iter.rs lines 133-140. -/
def AssocIter.next (it : AssocIter) (L : Layout) : AssocIter × PRes (Option (Bytes × Bytes)) :=
  ({ it with current := it.current + 1 }, it.pool.getAssoc L it.current)

/-- `U8PoolAssocIter::size_hint`, iter.rs lines 142-145 (saturating). -/
def AssocIter.sizeHint (it : AssocIter) : Nat := it.pool.len - it.current

/-- `iter_assoc`, core.rs lines 587-589, iter.rs lines 120-128. -/
def Pool.iterAssoc (p : Pool) : AssocIter := ⟨p, 0⟩

/-- `U8PoolAssocRevIter::next`, iter.rs lines 173-184. The state is again pool and index. -/
def AssocIter.nextRev (it : AssocIter) (L : Layout) : AssocIter × PRes (Option (Bytes × Bytes)) :=
  if it.current = 0 then (it, .ok none)
  else ({ it with current := it.current - 1 }, it.pool.getAssoc L (it.current - 1))

/-- `U8PoolAssocRevIter::size_hint`, iter.rs lines 186-188. -/
def AssocIter.sizeHintRev (it : AssocIter) : Nat := it.current

/-- `iter_assoc_rev`, core.rs lines 599-601, iter.rs lines 160-168. -/
def Pool.iterAssocRev (p : Pool) : AssocIter := ⟨p, p.len⟩

end Verif.U8Pool
