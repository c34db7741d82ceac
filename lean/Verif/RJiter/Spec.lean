import Verif.RJiter.Model

/-!
# Specification vocabulary for `rjiter`

The properties talk about a *stream*: the bytes from the current position to the end of the input. Nothing
here refers to how the buffer is filled.
-/

namespace Verif.RJiter

/-- The buffered bytes from position `k` on, then those the reader has not delivered yet. -/
def Buffer.rest (b : Buffer) (k : Nat) : Bytes := b.valid.drop k ++ b.reader.pending

namespace RJ

/-- The rest of the stream, from the current position on. -/
def rest (s : RJ) : Bytes := s.b.rest s.jidx

/-- The jiter and the buffer agree: the state between two successful calls. -/
structure Sync (s : RJ) : Prop where
  ok : s.b.nBytes ≤ s.b.buf.length
  len : s.jlen = s.b.nBytes
  idx : s.jidx ≤ s.b.nBytes

/-- `s'` is `s` moved forward by `n` bytes of the stream. -/
structure Moved (s s' : RJ) (n : Nat) : Prop where
  sync : s'.Sync
  enough : n ≤ s.rest.length
  rest : s'.rest = s.rest.drop n
  index : s'.currentIndex = s.currentIndex + n
  buf : s'.b.buf.length = s.b.buf.length
  size : s'.b.reader.size ≤ s.b.reader.size
  clean : s.b.reader.Clean → s'.b.reader.Clean

theorem Moved.refl {s : RJ} (h : s.Sync) : s.Moved s 0 :=
  ⟨h, Nat.zero_le _, rfl, rfl, rfl, Nat.le_refl _, id⟩

theorem Moved.trans {a b c : RJ} {m n : Nat} (h1 : a.Moved b m) (h2 : b.Moved c n) : a.Moved c (m + n) := by
  have e := h2.enough
  rw [h1.rest, List.length_drop] at e
  have i1 := h1.enough
  refine ⟨h2.sync, by omega, ?_, ?_, h2.buf.trans h1.buf, Nat.le_trans h2.size h1.size, h2.clean ∘ h1.clean⟩
  · rw [h2.rest, h1.rest, List.drop_drop]
  · rw [h2.index, h1.index]; omega

end RJ

end Verif.RJiter
