import Verif.Conform.Basic

/-!
# The tests of the buffer of `rjiter`

`/repo/rjiter/tests/buffer_test.rs`.
-/

namespace Verif.Conform
open Verif.RJiter

/-- A buffer of `n` bytes on a slice, nothing read yet. -/
def fresh (n : Nat) (input : String) : Buffer := .new (sliceReader (utf8 input)) (List.replicate n 0)

/-- The same after one `read_more`. -/
def filled (n : Nat) (input : String) : Buffer := (fresh n input).readMore.1

/-- A buffer on a reader that delivers one byte at a time. -/
def dripping (n : Nat) (input : String) : Buffer := .new (oneByteReader (utf8 input)) (List.replicate n 0)

/-- The bytes in the buffer, and `n_shifted_out`. -/
def shows (b : Buffer) (text : String) (shifted : Nat) : Bool := decide (b.valid = utf8 text ∧ b.nShifted = shifted)

/-- A call gives this value; afterwards the buffer shows this. -/
def gets {α : Type} [DecidableEq α] (x : Buffer × Res α) (v : α) (text : String) (shifted : Nat) : Bool :=
  decide (x.2 = .ok v) && shows x.1 text shifted

/-- A call fails with `BufferFull`. -/
def isFull {α : Type} (x : Buffer × Res α) : Bool :=
  match x.2 with
  | .err e => decide (e.type = .bufferFull)
  | _ => false

/-- `u8::is_ascii_alphabetic` -/
def letter (c : Byte) : Bool := (65 ≤ c && c ≤ 90) || (97 ≤ c && c ≤ 122)

/-- `u8::is_ascii_digit` -/
def isNum (c : Byte) : Bool := 48 ≤ c && c ≤ 57

-- test_read_until_full
example : (fresh 4 "abcdef").readMore.2 = .ok 4 ∧ (fresh 4 "abcdef").readMore.1.readMore.2 = .ok 0 := by decide +kernel

-- test_basic_skip_spaces, test_skip_spaces_from_non_zero_pos, test_skip_spaces_with_one_read,
-- test_skip_spaces_with_many_reads_and_nonzero_pos, test_skip_spaces_eof_without_non_space (also with nonzero pos)
example : gets ((filled 16 "    abc").skipSpaces F 0) () "abc" 4 = true := by decide +kernel
example : gets ((filled 16 "    abc").skipSpaces F 2) () "  abc" 2 = true := by decide +kernel
example : gets ((fresh 4 "     abc").skipSpaces F 0) () "abc" 5 = true := by decide +kernel
example : gets ((fresh 4 "                   abc").skipSpaces F 2) () "  a" 17 = true := by decide +kernel
example : gets ((fresh 4 "     ").skipSpaces F 0) () "" 5 = true := by decide +kernel
example : gets ((fresh 4 "     ").skipSpaces F 2) () "  " 3 = true := by decide +kernel

-- sanity_test_shift, test_noop_shift_at_pos0, _pos1, _end_minus1, _end
example : shows ((filled 10 "abcd12345").shift 3 7) "abc45" 4 = true := by decide +kernel
example : [0, 1, 2, 3].all (fun i => shows ((filled 4 "abc").shift i i) "abc" 0) = true := by decide +kernel

-- test_shift_pos1_to_pos0, test_shift_preend_to_pos0, _pos1, test_shift_end_to_pos0, _pos1, test_shift_postend_to_pos0, _pos1
example : shows ((filled 10 "abcd12345").shift 0 1) "bcd12345" 1 = true := by decide +kernel
example : shows ((filled 10 "abcd12345").shift 0 8) "5" 8 = true := by decide +kernel
example : shows ((filled 10 "abcd12345").shift 1 8) "a5" 7 = true := by decide +kernel
example : shows ((filled 10 "abcd12345").shift 0 9) "" 9 = true := by decide +kernel
example : shows ((filled 10 "abcd12345").shift 1 9) "a" 8 = true := by decide +kernel
example : shows ((filled 10 "abcd12345").shift 0 10) "" 9 = true := by decide +kernel
example : shows ((filled 10 "abcd12345").shift 1 10) "a" 8 = true := by decide +kernel

/-- `pos_shifted` -/
def lineCol (b : Buffer) : Nat × Nat := (b.line, b.column)

-- test_shift_position_newlines, test_shift_position_no_newlines, test_shift_position_multiple_reads
example : let b := filled 32 "abc\ndef\nghi\njkl"
    lineCol b = (0, 0) ∧ lineCol (b.shift 0 4) = (1, 0) ∧ lineCol ((b.shift 0 4).shift 0 6) = (2, 2) := by decide +kernel
example : let b := filled 32 "abcdefghijkl"
    lineCol (b.shift 0 3) = (0, 3) ∧ lineCol ((b.shift 0 3).shift 0 5) = (0, 8) := by decide +kernel
example : lineCol ((((filled 8 "abc\ndef\nghi\njkl").shift 0 88).readMore.1).shift 0 7) = (3, 3) := by decide +kernel

-- test_collect_while_*: basic, from_non_zero_pos, until_eof, with_shift_from_pos2, _pos1, _pos0, buffer_full_error,
-- rejection_after_read, immediate_rejection, empty_buffer, no_shift_allowed, rejection_after_multiple_reads
example : gets ((filled 16 "abc123def").collectWhile F letter 0 true) (0, 3) "abc123def" 0 = true := by decide +kernel
example : gets ((filled 16 "abc123def").collectWhile F isNum 3 true) (3, 6) "abc123def" 0 = true := by decide +kernel
example : gets ((filled 16 "abcdef").collectWhile F letter 0 true) (0, 6) "abcdef" 0 = true := by decide +kernel
example : gets ((fresh 5 "XXaaaa123").collectWhile F (· == 97) 2 true) (0, 4) "aaaa1" 2 = true := by decide +kernel
example : gets ((fresh 5 "Xaaaa123").collectWhile F (· == 97) 1 true) (0, 4) "aaaa1" 1 = true := by decide +kernel
example : isFull ((fresh 5 "aaaaa123").collectWhile F (· == 97) 0 true) = true := by decide +kernel
example : isFull ((fresh 4 "XXaaaaaaaaaa").collectWhile F letter 2 true) = true := by decide +kernel
example : gets ((dripping 4 "aaa1").collectWhile F (· == 97) 0 true) (0, 3) "aaa1" 0 = true := by decide +kernel
example : gets ((filled 16 "123abc").collectWhile F letter 0 true) (0, 0) "123abc" 0 = true := by decide +kernel
example : gets ((filled 16 "").collectWhile F letter 0 true) (0, 0) "" 0 = true := by decide +kernel
example : isFull ((fresh 3 "aaaa123").collectWhile F (· == 97) 0 false) = true := by decide +kernel
example : gets ((dripping 5 "Xaaaa111").collectWhile F (· == 97) 1 true) (0, 4) "aaaa1" 1 = true := by decide +kernel

-- test_collect_count_*: basic, from_non_zero_pos, until_eof, exact_match, zero_bytes, with_shift_from_pos2, _pos1,
-- buffer_too_small_from_pos0, buffer_too_small_even_with_shift, no_shift_allowed, with_one_byte_reader, empty_buffer,
-- eof_from_non_zero_pos, shift_and_multiple_reads
example : gets ((filled 16 "abcdefghi").collectCount F 3 0 true) (0, 3) "abcdefghi" 0 = true := by decide +kernel
example : gets ((filled 16 "abcdefghi").collectCount F 3 2 true) (2, 5) "abcdefghi" 0 = true := by decide +kernel
example : gets ((filled 16 "abc").collectCount F 10 0 true) (0, 3) "abc" 0 = true := by decide +kernel
example : gets ((filled 16 "abcdef").collectCount F 6 0 true) (0, 6) "abcdef" 0 = true := by decide +kernel
example : gets ((filled 16 "abcdef").collectCount F 0 0 true) (0, 0) "abcdef" 0 = true := by decide +kernel
example : gets ((fresh 5 "XXabcdefgh").collectCount F 4 2 true) (0, 4) "abcde" 2 = true := by decide +kernel
example : gets ((fresh 5 "Xabcdefgh").collectCount F 4 1 true) (1, 5) "Xabcd" 0 = true := by decide +kernel
example : isFull ((fresh 3 "abcdefgh").collectCount F 5 0 true) = true := by decide +kernel
example : isFull ((fresh 4 "XXabcdefgh").collectCount F 5 2 true) = true := by decide +kernel
example : isFull ((fresh 5 "XXabcdefgh").collectCount F 4 2 false) = true := by decide +kernel
example : gets ((dripping 10 "abcdefgh").collectCount F 5 0 true) (0, 5) "abcde" 0 = true := by decide +kernel
example : gets ((filled 16 "").collectCount F 5 0 true) (0, 0) "" 0 = true := by decide +kernel
example : gets ((filled 16 "abc").collectCount F 10 1 true) (1, 3) "abc" 0 = true := by decide +kernel
example : gets ((dripping 5 "XXabcdefgh").collectCount F 4 2 true) (0, 4) "abcd" 2 = true := by decide +kernel

-- test_skip_n_*: basic, from_non_zero_pos, until_eof, exact_match, zero_bytes, small_buffer_incremental,
-- small_buffer_with_one_byte_reader, from_pos_then_skip_more, empty_buffer, eof_from_non_zero_pos, very_small_buffer_many_bytes
example : gets ((filled 16 "abcdefghi").skipN F 3 0) (3, 3) "abcdefghi" 0 = true := by decide +kernel
example : gets ((filled 16 "abcdefghi").skipN F 3 2) (5, 3) "abcdefghi" 0 = true := by decide +kernel
example : gets ((filled 16 "abc").skipN F 10 0) (3, 3) "abc" 0 = true := by decide +kernel
example : gets ((filled 16 "abcdef").skipN F 6 0) (6, 6) "abcdef" 0 = true := by decide +kernel
example : gets ((filled 16 "abcdef").skipN F 0 0) (0, 0) "abcdef" 0 = true := by decide +kernel
example : gets ((fresh 5 "abcdefghijklmnopqrstuvwxyz").skipN F 20 0) (5, 20) "pqrst" 15 = true := by decide +kernel
example : gets ((dripping 4 "abcdefghijklmnop").skipN F 10 0) (2, 10) "ij" 8 = true := by decide +kernel
example : let x := (filled 16 "abcdefghijklmnop").skipN F 3 2
    gets x (5, 3) "abcdefghijklmnop" 0 && gets (x.1.skipN F 4 5) (9, 4) "abcdefghijklmnop" 0 := by decide +kernel
example : gets ((filled 16 "").skipN F 5 0) (0, 0) "" 0 = true := by decide +kernel
example : gets ((filled 16 "abcdef").skipN F 10 4) (6, 2) "abcdef" 0 = true := by decide +kernel
example : gets ((fresh 3 "abcdefghijklmnopqrstuvwxyz0123456789").skipN F 30 0) (3, 30) "123" 27 = true := by decide +kernel

end Verif.Conform
