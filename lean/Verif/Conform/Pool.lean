import Verif.Conform.Basic
import Verif.U8Pool.Iter

/-!
# The tests of `u8pool`

`stack_tests.rs`, `iterator_tests.rs`, `dictionary_tests.rs` and `assoc_tests.rs` of `/repo/u8pool/tests`. What a
test says about addresses is left out (the model has no addresses), and the test that looks into the buffer,
`test_alignment_padding`, is translated as it stands. The clones of the iterators need no test, the iterators of the
model are values.
-/

namespace Verif.Conform
open Verif.U8Pool

/-- A buffer with 32 descriptors. -/
def freshPool (n : Nat) : PRes Pool := withDefaultMaxSlices (List.replicate n 0)

/-- One call, with the check of its outcome. -/
abbrev PStep := Pool → Pool × Bool

/-- All checks of a test succeed. -/
def runs : Pool → List PStep → Bool
  | _, [] => true
  | p, f :: fs => (f p).2 && runs (f p).1 fs

/-- The pool is created, and all checks succeed. -/
def on (p : PRes Pool) (fs : List PStep) : Bool :=
  match p with
  | .ok p => runs p fs
  | _ => false

/-- `push(..)`, which returns what was stored. -/
def puts (s : String) : PStep := fun p => ((p.push (utf8 s)).1, decide ((p.push (utf8 s)).2 = .ok (utf8 s)))

/-- `push(..).is_err()` -/
def refuses (bs : Bytes) : PStep := fun p => ((p.push bs).1, match (p.push bs).2 with | .err _ => true | _ => false)

/-- `pop()` -/
def pops (s : Option String) : PStep := fun p => (p.pop.1, decide (p.pop.2 = .ok (s.map utf8)))

/-- `get(i)` -/
def has (i : Nat) (s : Option String) : PStep := fun p => (p, decide (p.get i = .ok (s.map utf8)))

/-- `top()` -/
def hasTop (s : Option String) : PStep := fun p => (p, decide (p.top = .ok (s.map utf8)))

/-- `len()`, and `is_empty()` -/
def counts (n : Nat) : PStep := fun p => (p, p.len == n && p.isEmpty == (n == 0))

/-- `clear()` -/
def clears : PStep := fun p => (p.clear, true)

/-- A value as its bytes. -/
def le : Nat → Nat → Bytes
  | 0, _ => []
  | k + 1, n => UInt8.ofNat n :: le k (n / 256)

/-- `struct Point` -/
def Point : Layout := ⟨8, 4⟩

/-- A value of it. -/
def point (x y : Nat) : Bytes := le 4 x ++ le 4 y

/-- `push_assoc(..)`, which returns what was stored. -/
def putsA (L : Layout) (v : Bytes) (s : String) : PStep := fun p =>
  ((p.pushAssoc L v (utf8 s)).1, decide ((p.pushAssoc L v (utf8 s)).2 = .ok (v, utf8 s)))

/-- `get_assoc(i)` -/
def hasA (L : Layout) (i : Nat) (x : Option (Bytes × String)) : PStep := fun p =>
  (p, decide (p.getAssoc L i = .ok (x.map fun x => (x.1, utf8 x.2))))

/-- `pop_assoc()` -/
def popsA (L : Layout) (x : Option (Bytes × String)) : PStep := fun p =>
  ((p.popAssoc L).1, decide ((p.popAssoc L).2 = .ok (x.map fun x => (x.1, utf8 x.2))))

/-- `top_assoc()`, `top_assoc_obj()` and `top_assoc_bytes()` -/
def hasTopA (L : Layout) (x : Option (Bytes × String)) : PStep := fun p =>
  (p, decide (p.topAssoc L = .ok (x.map fun x => (x.1, utf8 x.2)) ∧ p.topAssocObj L = .ok (x.map (·.1)) ∧
    p.topAssocBytes L = .ok (x.map fun x => utf8 x.2)))

/-- `replace_top_assoc_bytes(..)`, which returns what was stored. -/
def replaces (L : Layout) (s : String) : PStep := fun p =>
  ((p.replaceTopAssocBytes L (utf8 s)).1, decide ((p.replaceTopAssocBytes L (utf8 s)).2 = .ok (utf8 s)))

/-- What an iterator delivers, with `size_hint` in front of each call. -/
def drain {ι α : Type} (next : ι → ι × Option α) (hint : ι → Option Nat) : Nat → ι → List (Option Nat × Option α)
  | 0, _ => []
  | n + 1, it => (hint it, (next it).2) :: if (next it).2.isSome then drain next hint n (next it).1 else []

/-- The same with the hints that count down. -/
def downFrom {α : Type} (xs : List α) : List (Option Nat × Option α) :=
  (List.range xs.length).map (fun i => (some (xs.length - i), xs[i]?)) ++ [(some 0, none)]

/-- `iter()`, `iter_rev()`: these items, with these hints. -/
def lists (xs : List String) : PStep := fun p =>
  (p, decide (drain PoolIter.next PoolIter.sizeHint 99 p.iter = downFrom (xs.map utf8) ∧
    drain PoolRevIter.next PoolRevIter.sizeHint 99 p.iterRev = downFrom (xs.map utf8).reverse))

/-- `pairs()`: these pairs. -/
def listsPairs (xs : List (String × String)) : PStep := fun p =>
  (p, decide ((drain PoolIter.nextPair PoolIter.pairSizeHint 99 p.iter).map (·.2) =
    (xs.map fun x => some (utf8 x.1, utf8 x.2)) ++ [none]))

/-- The same with the hints. -/
def listsPairsHints (xs : List (String × String)) : PStep := fun p =>
  (p, decide (drain PoolIter.nextPair PoolIter.pairSizeHint 99 p.iter = downFrom (xs.map fun x => (utf8 x.1, utf8 x.2))))

/-- The outcome of an iterator over pairs of a value and bytes, which does not panic. -/
def item {ι α : Type} (x : ι × PRes (Option α)) : ι × Option α :=
  (x.1, match x.2 with | .ok y => y | _ => none)

/-- `iter_assoc()`, `iter_assoc_rev()`: these items, with these hints. -/
def listsA (L : Layout) (xs : List (Bytes × String)) : PStep := fun p =>
  (p, decide (drain (fun it => item (AssocIter.next it L)) (some ·.sizeHint) 99 p.iterAssoc =
      downFrom (xs.map fun x => (x.1, utf8 x.2)) ∧
    drain (fun it => item (AssocIter.nextRev it L)) (some ·.sizeHintRev) 99 p.iterAssocRev =
      downFrom (xs.map fun x => (x.1, utf8 x.2)).reverse))

/-! ## `stack_tests.rs` -/

-- test_buffer_initialization, test_bounds_checking_empty_buffer, test_pop_empty_vector, test_get_out_of_bounds
#guard on (freshPool 600) [counts 0, has 0 none, pops none]
#guard (match freshPool 0 with | .err _ => true | _ => false)
#guard on (freshPool 600) [puts "test", has 1 none]
-- test_clear_operation, test_pop_operation, test_custom_max_slices
#guard on (freshPool 600) [puts "hello", puts "world", counts 2, clears, counts 0]
#guard on (freshPool 600) [puts "hello", puts "world", pops (some "world"), counts 1, pops (some "hello"), counts 0, pops none]
#guard on (new (List.replicate 100 0) 3) [puts "test", puts "hello", puts "world", refuses (utf8 "fail"), has 0 (some "test"),
  has 1 (some "hello"), has 2 (some "world"), counts 3]
-- test_stack_push_operations, test_stack_push_pop_operations, test_stack_buffer_overflow, test_stack_utility_methods
#guard on (freshPool 600) [counts 0, puts "first", counts 1, puts "second", counts 2, puts "third", counts 3, has 0 (some "first"),
  has 1 (some "second"), has 2 (some "third"), pops (some "third"), counts 2, pops (some "second"), counts 1,
  pops (some "first"), counts 0, pops none]
#guard on (freshPool 150) [puts "data1", puts "data2", refuses (List.replicate 20 120), counts 2]
#guard on (freshPool 600) [counts 0, puts "element", counts 1, puts "another", counts 2, clears, counts 0]
-- test_push_returns_reference_to_stored_value, test_push_returns_independent_references, test_push_return_value_with_empty_data
#guard on (freshPool 600) [puts "hello world", has 0 (some "hello world")]
#guard on (freshPool 600) [puts "first", has 0 (some "first"), puts "second", has 1 (some "second"), puts "third", has 2 (some "third"),
  has 0 (some "first"), has 1 (some "second")]
#guard on (freshPool 600) [puts "", has 0 (some "")]
-- test_top_basic, test_top_empty_pool, test_top_single_item, test_top_after_pop, test_top_pointer_equality_with_get
#guard on (freshPool 256) [puts "first", puts "second", puts "third", hasTop (some "third"), counts 3, has 0 (some "first"),
  has 1 (some "second"), has 2 (some "third"), pops (some "third"), hasTop (some "second"), counts 2]
#guard on (freshPool 256) [hasTop none, puts "only", hasTop (some "only"), counts 1]

/-! ## `iterator_tests.rs` and `dictionary_tests.rs` -/

-- test_iterator_empty_vector, _populated_vector, _single_item, _size_hint, test_reverse_iterator_populated_vector, _empty_vector,
-- _single_item, _size_hint, _compare_with_forward
#guard on (freshPool 600) [lists [], puts "hello", lists ["hello"], puts "world", puts "test", lists ["hello", "world", "test"]]
#guard on (freshPool 600) [puts "alpha", puts "beta", puts "gamma", puts "delta", lists ["alpha", "beta", "gamma", "delta"]]
-- test_pair_iterator_clone, test_assoc_iterator_clone, test_assoc_reverse_iterator_clone
#guard on (freshPool 600) [puts "key1", puts "value1", puts "key2", puts "value2",
  listsPairsHints [("key1", "value1"), ("key2", "value2")]]
#guard on (freshPool 600) [putsA Point (point 10 20) "first", putsA Point (point 30 40) "second",
  listsA Point [(point 10 20, "first"), (point 30 40, "second")]]
-- test_dictionary_iterator_even_elements, _odd_elements, _empty, _single_key, test_mixed_usage_vector_and_dictionary
#guard on (freshPool 600) [listsPairs [], puts "key1", listsPairs [], puts "value1", puts "key2", listsPairs [("key1", "value1")],
  puts "value2", listsPairs [("key1", "value1"), ("key2", "value2")]]
#guard on (freshPool 600) [puts "name", puts "Alice", puts "age", puts "30", counts 4, has 0 (some "name"), has 1 (some "Alice"),
  listsPairs [("name", "Alice"), ("age", "30")], pops (some "30"), listsPairs [("name", "Alice")]]

/-! ## `assoc_tests.rs` -/

-- test_push_pop_assoc_basic, test_push_pop_assoc_multiple, test_push_assoc_zero_data
#guard on (freshPool 256) [putsA Point (point 42 100) "hello", counts 1, hasA Point 0 (some (point 42 100, "hello")),
  popsA Point (some (point 42 100, "hello")), counts 0]
#guard on (freshPool 256) [putsA Point (point 10 20) "first", putsA Point (point 30 40) "second", putsA Point (point 50 60) "third", counts 3,
  hasA Point 0 (some (point 10 20, "first")), hasA Point 1 (some (point 30 40, "second")), hasA Point 2 (some (point 50 60, "third")),
  popsA Point (some (point 50 60, "third")), counts 2, popsA Point (some (point 30 40, "second")), counts 1,
  popsA Point (some (point 10 20, "first")), counts 0]
#guard on (new (List.replicate 64 0) 4) [putsA Point (point 123 456) "", counts 1, hasA Point 0 (some (point 123 456, ""))]
-- test_push_assoc_buffer_overflow, test_pop_assoc_empty, test_get_assoc_out_of_bounds, test_assoc_slice_limit_exceeded
#guard on (new (List.replicate 64 0) 2) [fun p =>
  (p, match (p.pushAssoc Point (point 42 84) (List.replicate 100 0)).2 with | .err (.bufferOverflow ..) => true | _ => false)]
#guard on (new (List.replicate 64 0) 4) [popsA Point none]
#guard on (freshPool 256) [putsA Point (point 42 84) "data", hasA Point 0 (some (point 42 84, "data")), hasA Point 1 none, hasA Point 100 none]
#guard on (new (List.replicate 1024 0) 2) [putsA Point (point 1 10) "first", putsA Point (point 2 20) "second", fun p =>
  (p, decide ((p.pushAssoc Point (point 3 30) (utf8 "third")).2 = .err (.sliceLimitExceeded 2)))]
-- test_assoc_mixed_with_regular
#guard on (freshPool 256) [puts "regular1", putsA Point (point 100 200) "assoc1", puts "regular2", putsA Point (point 300 400) "assoc2", counts 4,
  has 0 (some "regular1"), has 2 (some "regular2"), hasA Point 1 (some (point 100 200, "assoc1")),
  hasA Point 3 (some (point 300 400, "assoc2"))]
-- test_assoc_iterator_forward, _reverse, _empty, test_assoc_size_hint
#guard on (freshPool 256) [listsA Point [], putsA Point (point 10 15) "a", putsA Point (point 20 25) "bb", putsA Point (point 30 35) "ccc",
  listsA Point [(point 10 15, "a"), (point 20 25, "bb"), (point 30 35, "ccc")]]

/-- A `u16` of the buffer. -/
def half (bs : Bytes) (i : Nat) : Nat := bs[i]!.toNat + 256 * bs[i + 1]!.toNat

-- test_alignment_padding
#guard match withDefaultMaxSlices (List.replicate 1024 0xAA) with
  | .ok p =>
    let complex := le 1 0x12 ++ List.replicate 7 0 ++ le 8 0xFEDCBA9876543210 ++ le 4 0x87654321 ++ List.replicate 4 0
    let steps := [puts "x", putsA ⟨1, 1⟩ (le 1 0x42) "single", putsA ⟨2, 2⟩ (le 2 0x1234) "two", putsA ⟨4, 4⟩ (le 4 0x12345678) "four",
      putsA ⟨8, 8⟩ (le 8 0x123456789ABCDEF0) "eight", putsA ⟨1, 1⟩ (le 1 0xFF) "y", putsA ⟨24, 8⟩ complex "complex",
      popsA ⟨24, 8⟩ (some (complex, "complex")), popsA ⟨1, 1⟩ (some (le 1 0xFF, "y")),
      popsA ⟨8, 8⟩ (some (le 8 0x123456789ABCDEF0, "eight")), popsA ⟨4, 4⟩ (some (le 4 0x12345678, "four")),
      popsA ⟨2, 2⟩ (some (le 2 0x1234, "two")), popsA ⟨1, 1⟩ (some (le 1 0x42, "single")), pops (some "x")]
    let after := steps.foldl (fun p f => (f p).1) p
    let buffer := after.desc ++ after.data
    let d2 := half buffer 8
    let d3 := half buffer 12
    let d4 := half buffer 16
    let d6 := half buffer 24
    runs p steps && d2 % 2 == 0 && d3 % 4 == 0 && d4 % 8 == 0 && d6 % 8 == 0 && buffer[28 + d2 - 1]! == 0xAA &&
      [1, 2, 3].all (fun i => buffer[28 + d3 - i]! == 0xAA) && [1, 2, 3, 4, 5, 6, 7].all (fun i => buffer[28 + d4 - i]! == 0xAA) &&
      [1, 2, 3, 4, 5, 6, 7].all (fun i => buffer[28 + d6 - i]! == 0xAA)
  | _ => false

-- test_push_assoc_returns_references_to_stored_values, _returns_independent_references, _return_value_with_empty_data
#guard on (freshPool 600) [putsA Point (point 42 100) "hello world", hasA Point 0 (some (point 42 100, "hello world"))]
#guard on (freshPool 600) [putsA Point (point 10 20) "first", hasA Point 0 (some (point 10 20, "first")), putsA Point (point 30 40) "second",
  hasA Point 1 (some (point 30 40, "second")), putsA Point (point 50 60) "third", hasA Point 2 (some (point 50 60, "third"))]
#guard on (freshPool 600) [putsA Point (point 123 456) "", hasA Point 0 (some (point 123 456, ""))]
-- test_push_assoc_pointer_equality_across_different_associated_types, _data_sizes
#guard
  let big := le 8 0x1111111111111111 ++ le 8 0x2222222222222222 ++ le 4 0x33333333 ++ List.replicate 4 0
  on (freshPool 600) [putsA ⟨4, 4⟩ (le 4 42) "simple data", putsA ⟨24, 8⟩ big "big data", hasA ⟨4, 4⟩ 0 (some (le 4 42, "simple data")),
    hasA ⟨24, 8⟩ 1 (some (big, "big data"))]
#guard
  let large := String.ofList (List.replicate 100 'A')
  on (freshPool 600) [putsA Point (point 10 20) "x", putsA Point (point 30 40) "hello world test data", putsA Point (point 50 60) large,
    hasA Point 0 (some (point 10 20, "x")), hasA Point 1 (some (point 30 40, "hello world test data")),
    hasA Point 2 (some (point 50 60, large))]
-- test_push_assoc_return_value_with_alignment_requirements
#guard on (freshPool 600) [puts "odd", putsA ⟨8, 8⟩ (le 8 0x123456789ABCDEF0) "eight", putsA ⟨4, 4⟩ (le 4 0x12345678) "four",
  hasA ⟨8, 8⟩ 1 (some (le 8 0x123456789ABCDEF0, "eight")), hasA ⟨4, 4⟩ 2 (some (le 4 0x12345678, "four"))]
-- test_replace_top_assoc_bytes_basic, _empty_pool, _buffer_overflow
#guard on (freshPool 256) [putsA Point (point 42 100) "orig", counts 1, replaces Point "replaced", counts 1,
  hasA Point 0 (some (point 42 100, "replaced"))]
#guard on (freshPool 256) [fun p =>
  (p, match (p.replaceTopAssocBytes Point (utf8 "test")).2 with | .err (.indexOutOfBounds ..) => true | _ => false)]
#guard on (new (List.replicate 64 0) 2) [putsA Point (point 1 2) "orig", fun p => let x := p.replaceTopAssocBytes Point (List.replicate 100 0)
  (x.1, match x.2 with | .err (.bufferOverflow ..) => true | _ => false), counts 1, hasA Point 0 (some (point 1 2, "orig"))]
-- test_top_assoc_basic, _empty_pool, _single_item, _after_pop; test_top_assoc_obj_basic, _empty_pool, _single_item, _after_pop;
-- test_top_assoc_bytes_basic, _empty_pool, _single_item, _after_pop, _empty_data; test_top_pointer_equality
#guard on (freshPool 256) [putsA Point (point 10 20) "first", putsA Point (point 30 40) "second", putsA Point (point 50 60) "third",
  hasTopA Point (some (point 50 60, "third")), counts 3, hasA Point 0 (some (point 10 20, "first")),
  hasA Point 1 (some (point 30 40, "second")), popsA Point (some (point 50 60, "third")),
  hasTopA Point (some (point 30 40, "second")), counts 2]
#guard on (freshPool 256) [hasTopA Point none, putsA Point (point 100 200) "only", hasTopA Point (some (point 100 200, "only")), counts 1]
#guard on (freshPool 256) [putsA Point (point 42 84) "", hasTopA Point (some (point 42 84, "")), counts 1]
#guard on (freshPool 256) [putsA Point (point 42 84) "test data", hasTopA Point (some (point 42 84, "test data"))]
-- test_top_methods_with_alignment
#guard on (freshPool 512) [puts "odd", putsA ⟨8, 8⟩ (le 8 0x123456789ABCDEF0) "aligned data",
  hasTopA ⟨8, 8⟩ (some (le 8 0x123456789ABCDEF0, "aligned data"))]

end Verif.Conform
