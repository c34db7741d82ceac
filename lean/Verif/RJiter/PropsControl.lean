import Verif.RJiter.LongBad
import Verif.RJiter.PropsLong

/-!
# Property C99: a long string with a byte that cannot be in a string

A string with a control character or an escape that does not exist in it is no JSON string (`Wrong`). `write_long_bytes` and `write_long_str` report it, however long the string
is and however it is cut by the reads; `handleLong_wrong` in `LongBad.lean` goes over the segments.
-/

namespace Verif.RJiter

open Buffer RJ Jiter

/-- What is left behind a failed call: the position is in front of a quote - the opening one, or one that `handle_long` has put in
the buffer in the place of the `n` bytes of the string that it has written - and then come the bytes that are not written. -/
structure Halted (s : RJ) (body : Bytes) (x : Byte) (t : Bytes) (s' : RJ) (n : Nat) : Prop where
  index : s'.currentIndex = s.currentIndex + n
  le : n ≤ body.length
  rest : ∃ r', s'.rest = 34 :: (r' ++ x :: t) ∧ r'.length + n = body.length

theorem Stuck.halted {s0 s' : RJ} {body t : Bytes} {x : Byte} {ty : JsonErr} {off : Nat} {e : Err} {n : Nat}
    (h : Stuck s0 body.length x t ty off s' e n) :
    Halted s0 body x t s' n := ⟨h.index, h.le, h.rest⟩

/-- **C99, partial** (`write_long_bytes`). Full statement: without `hsafe`, and the error is at the wrong byte; both are
false, see `C99_cut_in_escape` and `C99_index`. -/
theorem C99_write_long_bytes_partial (s : RJ) (fuel : Nat) (w : Writer) (body t : Bytes) (x : Byte) (ty : JsonErr) (off : Nat)
    (hx : Wrong x t ty off) (h : s.Sync)
    (hlen : 8 ≤ s.b.buf.length) (hc : s.b.reader.Clean) (hf : enoughFuel s fuel) (hr : s.rest = 34 :: (body ++ x :: t))
    (hb : RawBody body) (hw : w.plan = []) (hsafe : StaleSafe s (body ++ [x])) :
    ∃ s' w' i n, s.writeLongBytes fuel w = ((s', w'), .err ⟨.json ty, i⟩) ∧
      Halted s body x t s' n ∧
      (i = s.currentIndex + 1 + body.length + off ∨ n = 0 ∧ i = s.currentIndex + 1 + body.length + off + s.jidx) := by
  unfold enoughFuel at hf
  obtain ⟨s', w', e, n, h1, h2⟩ := handleLong_wrong .raw s fuel w body body t x ty off hx h hlen hc hr hb.long hw (by omega) hsafe
  refine ⟨s', w', _, n, h2.err ▸ h1, h2.halted, ?_⟩
  rcases h2.first with h3 | ⟨h3, h4⟩
  · exact .inl (by rw [h3]; rfl)
  · exact .inr ⟨h3, by rw [h4]⟩

/-- **C99, partial** (`write_long_str`). Full statement: without `hsafe`, and the error is at the wrong byte; the latter is
false, see `C99_index`; also for bodies with surrogate pairs. -/
theorem C99_write_long_str_partial (s : RJ) (fuel : Nat) (w : Writer) (body t : Bytes) (chars : List Char) (x : Byte)
    (ty : JsonErr) (off : Nat) (hx : Wrong x t ty off) (h : s.Sync)
    (hlen : 8 ≤ s.b.buf.length) (hc : s.b.reader.Clean) (hf : enoughFuel s fuel) (hr : s.rest = 34 :: (body ++ x :: t))
    (hb : StrBody false body chars) (hw : w.plan = []) (hsafe : StaleSafe s (body ++ [x])) :
    ∃ s' w' i n, s.writeLongStr fuel w = ((s', w'), .err ⟨.json ty, i⟩) ∧
      Halted s body x t s' n ∧
      (i = s.currentIndex + 1 + body.length + off ∨ n = 0 ∧ i = s.currentIndex + 1 + body.length + off + s.jidx) := by
  unfold enoughFuel at hf
  obtain ⟨s', w', e, n, h1, h2⟩ := handleLong_wrong .str s fuel w body _ t x ty off hx h hlen hc hr hb.long hw (by omega) hsafe
  refine ⟨s', w', _, n, h2.err ▸ h1, h2.halted, ?_⟩
  rcases h2.first with h3 | ⟨h3, h4⟩
  · exact .inl (by rw [h3]; rfl)
  · exact .inr ⟨h3, by rw [h4]⟩

/-- The string of `exLong` with a line feed in the place of its closing quote: three segments. -/
def exLongBad : RJ := RJ.new [.data 34 (exLongBody ++ [10, 34, 44])] (List.replicate 8 0)

example : exLongBad.Sync ∧ 8 ≤ exLongBad.b.buf.length ∧ exLongBad.b.reader.Clean ∧ enoughFuel exLongBad 100 ∧
    exLongBad.rest = 34 :: (exLongBody ++ 10 :: [34, 44]) ∧ RawBody exLongBody ∧ Wrong 10 [34, 44] .controlCharacterWhileParsingString 0 ∧
    StaleSafe exLongBad (exLongBody ++ [10]) :=
  ⟨sync_new _ _, by decide, by decide, by decide, by decide, exLongBody_str.raw, .control _ _ (by decide),
    .inr (.inr ⟨trivial, fun h => by revert h; decide⟩)⟩

example : (exLongBad.writeLongBytes 100 ⟨[], []⟩).2 = .err ⟨.json .controlCharacterWhileParsingString, 10⟩ ∧
    (exLongBad.writeLongStr 100 ⟨[], []⟩).2 = .err ⟨.json .controlCharacterWhileParsingString, 10⟩ := by decide +kernel

/-- The same with the escape `\\x`, which does not exist, in the place of the closing quote: the error is at the `x`. -/
def exLongBad2 : RJ := RJ.new [.data 34 (exLongBody ++ [92, 120, 34, 44])] (List.replicate 8 0)

example : exLongBad2.Sync ∧ 8 ≤ exLongBad2.b.buf.length ∧ exLongBad2.b.reader.Clean ∧ enoughFuel exLongBad2 100 ∧
    exLongBad2.rest = 34 :: (exLongBody ++ 92 :: [120, 34, 44]) ∧ Wrong 92 [120, 34, 44] .invalidEscape 1 ∧
    StaleSafe exLongBad2 (exLongBody ++ [92]) :=
  ⟨sync_new _ _, by decide, by decide, by decide, by decide, .escape _ _ (by decide) (by intro ch h; simp [Escape] at h),
    .inr (.inr ⟨trivial, fun h => by revert h; decide⟩)⟩

example : (exLongBad2.writeLongBytes 100 ⟨[], []⟩).2 = .err ⟨.json .invalidEscape, 11⟩ ∧
    (exLongBad2.writeLongStr 100 ⟨[], []⟩).2 = .err ⟨.json .invalidEscape, 11⟩ := by decide +kernel

/-- **C99, a false part.** On `"你\"⏎x"` - a line feed behind the escape - read byte by byte, `write_long_bytes` returns `Ok`. -/
theorem C99_cut_in_escape : ∃ (s : RJ) (body t : Bytes), s.Sync ∧ 8 ≤ s.b.buf.length ∧ s.b.reader.Clean ∧
    RawBody body ∧ s.rest = 34 :: (body ++ 10 :: t) ∧ enoughFuel s 60 ∧ (s.writeLongBytes 60 ⟨[], []⟩).2 = .ok () := by
  refine ⟨RJ.new (oneByOne (34 :: (enc '你' ++ [92, 34, 10, 120, 34]))) (List.replicate 20 0), enc '你' ++ 92 :: 34 :: [], [120, 34],
    sync_new _ _, by decide, by decide +kernel, .char '你' _ ⟨by decide, by decide, by decide⟩
      (.esc 34 '"' _ (by simp [Escape]) .nil), ?_⟩
  decide +kernel

/-- **C99, a false part.** In `["a⏎"` the line feed is the byte number 3, the error is at 4: the position of the string in the buffer is
counted twice (as in C24). -/
theorem C99_index : ∃ (s : RJ) (body t : Bytes), s.Sync ∧ 8 ≤ s.b.buf.length ∧ s.b.reader.Clean ∧ RawBody body ∧
    s.rest = 34 :: (body ++ 10 :: t) ∧ enoughFuel s 60 ∧ s.currentIndex = 1 ∧
    (s.writeLongBytes 60 ⟨[], []⟩).2 = .err ⟨.json .controlCharacterWhileParsingString, s.currentIndex + 1 + body.length + 1⟩ := by
  refine ⟨((RJ.new [.data 91 [34, 97, 10, 34]] (List.replicate 20 0)).nextArray 60).1, enc 'a' ++ [], [34], ⟨?_, ?_, ?_⟩, by decide +kernel, by decide +kernel,
    .char 'a' _ ⟨by decide, by decide, by decide⟩ .nil, ?_⟩ <;> decide +kernel

end Verif.RJiter
