import Verif.RJiter.ModelValue

/-!
# Checking the model against the tests of the project

The modules under `Conform` are not about properties: they run the model on the inputs of the project's own
test suites and compare with what these tests expect of the real code. A test is named by its function in the
test file. This is evidence that the model is faithful, for the cases the authors thought of; nothing else in
the development depends on it.

This module: the vocabulary of such a test.
-/

namespace Verif.Conform
open Verif.RJiter

/-- The bytes of a text. -/
def utf8 (s : String) : Bytes := s.toList.flatMap String.utf8EncodeChar

/-- A `&[u8]` as a reader: every read delivers as much as fits. -/
def sliceReader : Bytes → Reader
  | [] => []
  | c :: cs => [.data c cs]

/-- `OneByteReader`, `/repo/rjiter/tests/one_byte_reader.rs` lines 27-43. -/
def oneByteReader (l : Bytes) : Reader := l.map (.data · [])

/-- `ChunkReader`, `/repo/rjiter/tests/chunk_reader.rs` lines 23-45: the input in pieces, cut at the byte
`interrupt`, which is dropped. (An empty piece would be an end of input; no test has one.) -/
def chunkReader (interrupt : Byte) (l : Bytes) : Reader :=
  (l.splitBy fun a b => a != interrupt && b != interrupt).flatMap fun piece => sliceReader (piece.filter (· != interrupt))

/-- Enough fuel for all the tests. -/
def F : Nat := 1000

/-- One call of a test, with the check of its outcome. -/
abbrev Step := RJ → RJ × Bool

/-- The call succeeds with this value. -/
def gives {α : Type} [DecidableEq α] (f : RJ → RJ × Res α) (v : α) : Step := fun s => ((f s).1, decide ((f s).2 = .ok v))

/-- The call succeeds. -/
def succeeds {α : Type} (f : RJ → RJ × Res α) : Step := fun s =>
  ((f s).1, match (f s).2 with | .ok _ => true | _ => false)

/-- The call succeeds with a value that passes the test. -/
def givesIf {α : Type} (f : RJ → RJ × Res α) (p : α → Bool) : Step := fun s =>
  ((f s).1, match (f s).2 with | .ok v => p v | _ => false)

/-- The call fails. -/
def fails {α : Type} (f : RJ → RJ × Res α) : Step := fun s =>
  ((f s).1, match (f s).2 with | .err _ => true | _ => false)

/-- The call fails with an error of this type. -/
def failsWith {α : Type} (f : RJ → RJ × Res α) (e : ErrType) : Step := fun s =>
  ((f s).1, match (f s).2 with | .err e' => decide (e'.type = e) | _ => false)

/-- The call fails with an error at this index. -/
def failsAt {α : Type} (f : RJ → RJ × Res α) (i : Nat) : Step := fun s =>
  ((f s).1, match (f s).2 with | .err e' => decide (e'.index = i) | _ => false)

/-- The call is made, whatever its outcome. -/
def called {α : Type} (f : RJ → RJ × Res α) : Step := fun s => ((f s).1, true)

/-- The call succeeds, and this is what it writes. -/
def writes (f : RJ → Writer → (RJ × Writer) × Res Unit) (out : Bytes) : Step := fun s =>
  ((f s ⟨[], []⟩).1.1, decide ((f s ⟨[], []⟩).2 = .ok () ∧ (f s ⟨[], []⟩).1.2.out = out))

/-- `current_index` is this. -/
def index (n : Nat) : Step := fun s => (s, s.currentIndex == n)

/-- All checks of a test succeed. -/
def passes (s : RJ) : List Step → Bool
  | [] => true
  | f :: fs => (f s).2 && passes (f s).1 fs

/-- An `RJiter` with a zeroed buffer of `n` bytes. -/
def rj (r : Reader) (n : Nat) : RJ := .new r (List.replicate n 0)

/-- `" ".repeat(n)` -/
def spaces (n : Nat) : Bytes := List.replicate n 32

example : chunkReader 0 [1, 2, 3, 0, 4, 5, 0, 6] = [.data 1 [2, 3], .data 4 [5], .data 6 []] := by decide +kernel

end Verif.Conform
