import Verif.RJiter.OpLemmas

/-!
# Properties C10 - C16, C23, C27, C29 of `rjiter`

The vocabulary of the statements:

* `s.rest`: the bytes of the stream from the current position on (`Spec.lean`);
* `s.Sync`: the state between two successful calls, `s.Moved s' n`: `s'` is `s` moved forward by `n` bytes of
  the stream, and is again such a state (`Spec.lean`);
* `History s ops s'`: calls with successful (or harmless) outcomes lead from `s` to `s'` (`Ops.lean`);
* `Reader.Clean`: the reader has no I/O error ahead; `fuel`: any number that is large enough.
-/

namespace Verif.RJiter

open Buffer RJ

/-- Whitespace of RFC 8259. -/
def Space (c : Byte) : Prop := c = 32 ∨ c = 9 ∨ c = 10 ∨ c = 13

/-- Only whitespace. -/
def Spaces (l : Bytes) : Prop := ∀ c ∈ l, Space c

theorem isWs_iff (c : Byte) : Jiter.isWs c = true ↔ Space c := by
  simp only [Jiter.isWs, Space, Bool.or_eq_true, beq_iff_eq]
  constructor
  · rintro (((h | h) | h) | h) <;> simp [h]
  · rintro (h | h | h | h) <;> simp [h]

theorem ws_iff (l : Bytes) : Ws l ↔ Spaces l := by
  simp only [Ws, Spaces, isWs_iff]

theorem isAsciiWs_false {c : Byte} (h : ¬ Space c) (hff : c ≠ 12) : isAsciiWs c = false := by
  simp only [isAsciiWs, Space] at *
  simp only [Bool.or_eq_false_iff, beq_eq_false_iff_ne, ne_eq]
  refine ⟨⟨⟨⟨?_, ?_⟩, ?_⟩, hff⟩, ?_⟩ <;> intro h' <;> exact h (by simp [h'])

/-! ## Sample states -/

/-- Three chunks: ` [`, `1`, `2 , 3]`. -/
def exReader : Reader := [.data 32 [91], .data 49 [], .data 50 [32, 44, 32, 51, 93]]

/-- A buffer of four bytes, with garbage in it. -/
def exNew : RJ := .new exReader [0xEE, 0xEE, 0xEE, 0xEE]

/-- After `next_array` and `next_number_bytes`: the position is behind `12`, in a shifted buffer. -/
def exMid : RJ := ((exNew.nextArray 20).1.nextNumberBytes 20).1

theorem exHistory : History exNew [.nextArray, .nextNumberBytes] exMid :=
  .cons (fuel := 20) (r := .ok ()) (by unfold enoughFuel; decide) rfl (.ok _)
    (.cons (fuel := 20) (r := .ok ()) (by unfold enoughFuel; decide) rfl (.ok _) (.nil _))

theorem exMid_eq : exMid = ⟨⟨[.data 32 [51, 93]], [49, 50, 32, 44], 4, 2, 0, 2⟩, 4, 2⟩ := by decide

theorem exMid_sync : exMid.Sync := by rw [exMid_eq]; exact ⟨by decide, by decide, by decide⟩

theorem exMid_rest : exMid.rest = [32, 44, 32, 51, 93] := by decide

/-! ## C10 -/

/-- **C10.** After any history of calls on a new `RJiter`, whatever the chunks of the reader (and the I/O
errors between them): the input is the consumed bytes, then the bytes in the buffer from the current position
on, then what the reader has not delivered. The number of consumed bytes is `current_index()`. -/
theorem C10_no_byte_lost (input : Reader) (buf : Bytes) (hbuf : 2 ≤ buf.length) (ops : List Op) (s : RJ)
    (h : History (.new input buf) ops s) :
    ∃ consumed, input.pending = consumed ++ s.b.valid.drop s.jidx ++ s.b.reader.pending ∧
      consumed.length = s.currentIndex := by
  obtain ⟨n, hm⟩ := h.moved (sync_new _ _) hbuf
  have hr := hm.rest
  have hi := hm.index
  have he := hm.enough
  rw [rest_new] at hr he
  refine ⟨input.pending.take n, ?_, ?_⟩
  · rw [List.append_assoc, show s.b.valid.drop s.jidx ++ s.b.reader.pending = s.rest from rfl, hr,
      List.take_append_drop]
  · rw [List.length_take, Nat.min_eq_left he, hi]
    simp [currentIndex, RJ.new, Buffer.new]

/-- The hypotheses hold for a history that reads over all chunk borders and shifts the buffer. -/
example : History (.new exReader [0xEE, 0xEE, 0xEE, 0xEE]) [.nextArray, .nextNumberBytes] exMid ∧
    exMid.b.nShifted ≠ 0 := ⟨exHistory, by decide⟩

/-! ## C23 -/

/-- **C23.** After any history on a new `RJiter`, `current_index()` is the number of input bytes before the
current position. -/
theorem C23_index_is_offset (input : Reader) (buf : Bytes) (hbuf : 2 ≤ buf.length) (ops : List Op) (s : RJ)
    (h : History (.new input buf) ops s) :
    s.currentIndex ≤ input.pending.length ∧ s.rest = input.pending.drop s.currentIndex := by
  obtain ⟨n, hm⟩ := h.moved (sync_new _ _) hbuf
  have hi := hm.index
  have he := hm.enough
  have hr := hm.rest
  rw [rest_new] at hr he
  have : s.currentIndex = n := by rw [hi]; simp [currentIndex, RJ.new, Buffer.new]
  rw [this]
  exact ⟨he, hr⟩

/-- **C23.** It never decreases. -/
theorem C23_index_monotone (input : Reader) (buf : Bytes) (hbuf : 2 ≤ buf.length) (ops ops' : List Op) (s s' : RJ)
    (h : History (.new input buf) ops s) (h' : History s ops' s') : s.currentIndex ≤ s'.currentIndex := by
  obtain ⟨n, hm⟩ := h.moved (sync_new _ _) hbuf
  obtain ⟨m, hm'⟩ := h'.moved hm.sync (by rw [hm.buf]; exact hbuf)
  rw [hm'.index]; omega

example : History exNew [.nextArray, .nextNumberBytes] exMid ∧ exMid.currentIndex = 4 := ⟨exHistory, by decide⟩

/-! ## C11 -/

/-- **C11.** Without I/O errors, `skip_n_bytes(n)` skips `min(n, bytes left)` bytes and returns this number,
for any `n` and any buffer that is not empty. -/
theorem C11_skip_n (s : RJ) (n fuel : Nat) (h : s.Sync) (hl : 0 < s.b.buf.length) (hc : s.b.reader.Clean)
    (hf : enoughFuel s fuel) :
    ∃ s', s.skipNBytes fuel n = (s', .ok (min n s.rest.length)) ∧ s.Moved s' (min n s.rest.length) := by
  unfold enoughFuel at hf
  rcases skipNBytes_spec s n fuel h hl (by omega) with h1 | ⟨_, _, _, _, h1⟩
  · exact h1
  · exact absurd hc h1

example : exNew.Sync ∧ exNew.b.reader.Clean ∧ enoughFuel exNew 20 ∧ exNew.b.buf.length < 7 ∧
    ∃ s', exNew.skipNBytes 20 7 = (s', .ok 7) ∧ s'.rest = [51, 93] :=
  ⟨sync_new _ _, trivial, by unfold enoughFuel; decide, by decide, _, rfl, by decide⟩

/-! ## C12 -/

/-- **C12.** Without I/O errors, `lookahead_n(n)` with `n` at most the buffer size returns the next
`min(n, bytes left)` bytes and consumes nothing. -/
theorem C12_lookahead_n (s : RJ) (n fuel : Nat) (h : s.Sync) (hn : n ≤ s.b.buf.length) (hc : s.b.reader.Clean)
    (hf : enoughFuel s fuel) :
    ∃ s', s.lookaheadN fuel n = (s', .ok (s.rest.take n)) ∧ s.Moved s' 0 := by
  unfold enoughFuel at hf
  rcases lookaheadN_spec s n fuel h (by omega) with h1 | ⟨_, _, _, h1, _⟩ | ⟨_, _, _, _, h1⟩
  · exact h1
  · omega
  · exact absurd hc h1

/-- **C12.** For any `n`: the answer is the next bytes, or `BufferFull`, the latter only if `n` is larger than
the buffer; the position is the same after both. -/
theorem C12_lookahead_n_any (s : RJ) (n fuel : Nat) (h : s.Sync) (hc : s.b.reader.Clean) (hf : enoughFuel s fuel) :
    ∃ s', s'.currentIndex = s.currentIndex ∧ s'.rest = s.rest ∧
      (s.lookaheadN fuel n = (s', .ok (s.rest.take n)) ∨
        s.b.buf.length < n ∧ ∃ x, s.lookaheadN fuel n = (s', .err ⟨.bufferFull, x⟩)) := by
  unfold enoughFuel at hf
  rcases lookaheadN_spec s n fuel h (by omega) with ⟨s', e, hm⟩ | ⟨s', x, e, hbig, _, hj, _, hfr⟩ | ⟨_, _, _, _, h1⟩
  · exact ⟨s', hm.index, hm.rest, .inl e⟩
  · refine ⟨s', ?_, ?_, .inr ⟨hbig, x, e⟩⟩
    · have := hfr.idx
      simp only [currentIndex]; omega
    · rw [RJ.rest, hj]; exact hfr.rest
  · exact absurd hc h1

example : exMid.Sync ∧ exMid.b.reader.Clean ∧ enoughFuel exMid 20 ∧
    ∃ s', exMid.lookaheadN 20 4 = (s', .ok [32, 44, 32, 51]) ∧ s'.currentIndex = 4 :=
  ⟨exMid_sync, trivial, by unfold enoughFuel; decide, _, rfl, by decide⟩

/-- **C12, the false part.** `BufferFull` is also reported if fewer than `n` bytes are left and all of them are
in the buffer: here four bytes are left, exactly as many as the buffer holds, and `lookahead_n(5)` fails
instead of returning them. -/
theorem C12_buffer_full_at_end : ∃ (s : RJ) (s' : RJ) (x : Nat),
    History (.new [.data 97 [98, 99, 100]] [0, 0, 0, 0]) [.lookaheadN 4, .lookaheadN 1] s ∧
    s.rest = [97, 98, 99, 100] ∧ ∀ fuel, 2 ≤ fuel → s.lookaheadN fuel 5 = (s', .err ⟨.bufferFull, x⟩) := by
  refine ⟨⟨⟨[], [97, 98, 99, 100], 4, 0, 0, 0⟩, 4, 0⟩, ⟨⟨[], [97, 98, 99, 100], 4, 0, 0, 0⟩, 4, 0⟩, 0, ?_, by decide, ?_⟩
  · exact .cons (fuel := 20) (r := .ok ()) (by unfold enoughFuel; decide) rfl (.ok _)
      (.cons (fuel := 20) (r := .ok ()) (by unfold enoughFuel; decide) rfl (.ok _) (.nil _))
  · intro fuel hf
    obtain ⟨fuel, rfl⟩ : ∃ m, fuel = m + 1 := ⟨fuel - 1, by omega⟩
    rfl

/-! ## C13 -/

/-- **C13, partial** (full statement: after an error the position is unchanged, too; that is false, see
`C13_buffer_full_moves`). Without I/O errors, `lookahead_while(p)` returns the longest prefix of the stream
whose bytes satisfy `p` and consumes nothing, or reports `BufferFull`; the latter only if at least as many
bytes satisfy `p` as fit in the buffer. -/
theorem C13_lookahead_while_partial (s : RJ) (p : Byte → Bool) (fuel : Nat) (h : s.Sync) (hc : s.b.reader.Clean)
    (hf : enoughFuel s fuel) :
    (∃ s', s.lookaheadWhile fuel p = (s', .ok (s.rest.takeWhile p)) ∧ s.Moved s' 0) ∨
    (s.b.buf.length ≤ (s.rest.takeWhile p).length ∧
      ∃ s' x, s.lookaheadWhile fuel p = (s', .err ⟨.bufferFull, x⟩)) := by
  unfold enoughFuel at hf
  rcases lookaheadWhile_spec s p fuel h (by omega) with h1 | ⟨s', x, e, hall, hlen, _⟩ | ⟨_, _, _, _, h1⟩
  · exact .inl h1
  · refine .inr ⟨?_, s', x, e⟩
    have h2 : s.rest = s.rest.take s.b.buf.length ++ s.rest.drop s.b.buf.length := (List.take_append_drop _ _).symm
    rw [h2, List.takeWhile_append_of_pos hall, List.length_append, List.length_take]
    omega
  · exact absurd hc h1

example : exMid.Sync ∧ exMid.b.reader.Clean ∧ enoughFuel exMid 20 ∧
    ∃ s', exMid.lookaheadWhile 20 (fun c => c == 32 || c == 44) = (s', .ok [32, 44, 32]) ∧ s'.currentIndex = 4 :=
  ⟨exMid_sync, trivial, by unfold enoughFuel; decide, _, rfl, by decide⟩

/-- **C13, the false part.** After `BufferFull` the position is not the old one: the buffer was shifted, but the
jiter keeps its old index. On the stream `nullaaaaa` with a buffer of five bytes, behind `null`, `current_index()`
goes from 4 to 8: four bytes are lost. -/
theorem C13_buffer_full_moves : ∃ s s' : RJ, ∃ x,
    History (.new [.data 110 [117, 108, 108, 97, 97, 97, 97, 97]] [0, 0, 0, 0, 0]) [.nextNull] s ∧
    (∀ fuel, 10 ≤ fuel → s.lookaheadWhile fuel (· == 97) = (s', .err ⟨.bufferFull, x⟩)) ∧
    s.currentIndex = 4 ∧ s'.currentIndex = 8 := by
  refine ⟨⟨⟨[.data 97 [97, 97, 97]], [110, 117, 108, 108, 97], 5, 0, 0, 0⟩, 5, 4⟩,
    ⟨⟨[], [97, 97, 97, 97, 97], 5, 4, 0, 4⟩, 5, 4⟩, 4, ?_, ?_, by decide, by decide⟩
  · exact .cons (fuel := 40) (r := .ok ()) (by unfold enoughFuel; decide) rfl (.ok _) (.nil _)
  · intro fuel hf
    obtain ⟨fuel, rfl⟩ : ∃ m, fuel = m + 10 := ⟨fuel - 10, by omega⟩
    rfl

/-! ## C14 -/

/-- **C14.** A token that fits in the buffer is skipped if the stream starts with it; otherwise the call
fails with `ExpectedSomeIdent` at the current index and consumes nothing. -/
theorem C14_known_skip_token (s : RJ) (t : Bytes) (fuel : Nat) (h : s.Sync) (hl : 0 < s.b.buf.length)
    (ht : t.length ≤ s.b.buf.length) (hc : s.b.reader.Clean) (hf : enoughFuel s fuel) :
    (t <+: s.rest → ∃ s', s.knownSkipToken fuel t = (s', .ok ()) ∧ s.Moved s' t.length) ∧
    (¬ t <+: s.rest → ∃ s', s.knownSkipToken fuel t = (s', .err ⟨.json .expectedSomeIdent, s.currentIndex⟩) ∧
      s.Moved s' 0) := by
  unfold enoughFuel at hf
  have hp : t <+: s.rest ↔ s.rest.take t.length = t := by
    rw [List.prefix_iff_eq_take]; exact eq_comm
  rw [hp]
  rcases knownSkipToken_spec s t fuel h hl ht (by omega) with ⟨s', e, hm, he⟩ | ⟨s', x, e, hm, rfl, he⟩ | ⟨_, _, _, _, h1⟩
  · exact ⟨fun _ => ⟨s', e, hm⟩, fun hn => absurd he hn⟩
  · exact ⟨fun hn => absurd hn he, fun _ => ⟨s', e, hm⟩⟩
  · exact absurd hc h1

example : exMid.Sync ∧ exMid.b.reader.Clean ∧ [32, 44, 32, 51] <+: exMid.rest ∧
    ∃ s', exMid.knownSkipToken 20 [32, 44, 32, 51] = (s', .ok ()) ∧ s'.rest = [93] :=
  ⟨exMid_sync, trivial, by rw [exMid_rest]; decide, _, rfl, by decide⟩

example : ¬ [32, 44, 51] <+: exMid.rest ∧
    ∃ s', exMid.knownSkipToken 20 [32, 44, 51] = (s', .err ⟨.json .expectedSomeIdent, 4⟩) :=
  ⟨by rw [exMid_rest]; decide, _, rfl⟩

/-! ## C15 -/

/-- **C15.** Without I/O errors and with a buffer that is not empty, `finish` returns. It returns `Ok` exactly
if only whitespace is left (and then consumes it); otherwise `TrailingCharacters`, in front of the first other byte. -/
theorem C15_finish (s : RJ) (fuel : Nat) (h : s.Sync) (hl : 0 < s.b.buf.length) (hc : s.b.reader.Clean)
    (hf : enoughFuel s fuel) :
    (Spaces s.rest → ∃ s', s.finish fuel = (s', .ok ()) ∧ s.Moved s' s.rest.length) ∧
    (∀ ws c t, s.rest = ws ++ c :: t → Spaces ws → ¬ Space c →
      ∃ s' x, s.finish fuel = (s', .err ⟨.json .trailingCharacters, x⟩) ∧ s.Moved s' ws.length) := by
  unfold enoughFuel at hf
  have hfu : 2 * s.b.reader.size + (if s.b.nBytes = s.b.buf.length then 1 else 0) < fuel := by split <;> omega
  rcases finishLoop_spec fuel s h hl hfu with ⟨s', e, hw, hm⟩ | ⟨s', x, ws, c, t, e, hr, hw, hcw, hm⟩ | ⟨_, _, _, _, h1⟩
  · refine ⟨fun _ => ⟨s', e, hm⟩, ?_⟩
    intro ws c t hr _ hcs
    exact absurd ((ws_iff _).mp hw c (by rw [hr]; simp)) hcs
  · refine ⟨?_, ?_⟩
    · intro hsp
      have := (isWs_iff c).mpr (hsp c (by rw [hr]; simp))
      rw [hcw] at this; exact absurd this (by simp)
    · intro ws' c' t' hr' hw' hcs
      refine ⟨s', x, e, ?_⟩
      have e1 := Jiter.wsLen_cons hw hcw t
      have e2 := Jiter.wsLen_cons ((ws_iff _).mpr hw') (c := c') (by
        cases hi : Jiter.isWs c' with
        | false => rfl
        | true => exact absurd ((isWs_iff c').mp hi) hcs) t'
      rw [← hr] at e1
      rw [← hr'] at e2
      rw [show ws'.length = ws.length from e2.symm.trans e1]
      exact hm
  · exact absurd hc h1

/-- White space over several chunks and a small buffer; then something that is not white space. -/
example : ∃ s', (RJ.new [.data 32 [10], .data 9 [13, 32]] [0, 0]).finish 20 = (s', .ok ()) ∧ s'.currentIndex = 5 :=
  ⟨_, rfl, by decide⟩

example : ∃ s' x, (RJ.new [.data 32 [10], .data 9 [13, 93]] [0, 0]).finish 20 =
    (s', .err ⟨.json .trailingCharacters, x⟩) ∧ s'.currentIndex = 4 := ⟨_, _, rfl, by decide⟩

/-! ## C16 -/

/-- **C16, partial** (full statement: for every byte `c` that is not whitespace. It is false for the form feed,
see `C16_form_feed`, which `skip_spaces` drops although it is not JSON whitespace). Without I/O errors `peek`
returns the first byte that is not whitespace and moves in front of it. -/
theorem C16_peek_partial (s : RJ) (fuel : Nat) (h : s.Sync) (hl : 0 < s.b.buf.length) (hc : s.b.reader.Clean)
    (hf : enoughFuel s fuel) (ws : Bytes) (c : Byte) (t : Bytes) (hr : s.rest = ws ++ c :: t) (hw : Spaces ws)
    (hcs : ¬ Space c) (hff : c ≠ 12) :
    ∃ s', s.peek fuel = (s', .ok c) ∧ s.Moved s' ws.length ∧
      ∀ fuel', enoughFuel s' fuel' → ∃ s'', s'.peek fuel' = (s'', .ok c) ∧ s'.Moved s'' 0 := by
  unfold enoughFuel at hf
  obtain ⟨s', e, hm⟩ := RJ.peek_complete (fuel := fuel) h hc (by omega) hl hr ((ws_iff _).mpr hw) (isAsciiWs_false hcs hff)
  refine ⟨s', e, hm, ?_⟩
  intro fuel' hf'
  unfold enoughFuel at hf'
  have hr' : s'.rest = [] ++ c :: t := by rw [hm.rest, hr]; simp
  exact RJ.peek_complete hm.sync (hm.clean hc) (by omega) (by rw [hm.buf]; exact hl) hr'
    ((ws_iff _).mpr (by intro c hc; simp at hc)) (isAsciiWs_false hcs hff)

/-- **C16.** If only whitespace is left, `peek` reports the end of the input. -/
theorem C16_peek_end (s : RJ) (fuel : Nat) (h : s.Sync) (hl : 0 < s.b.buf.length) (hc : s.b.reader.Clean)
    (hf : enoughFuel s fuel) (hw : Spaces s.rest) :
    ∃ s' x, s.peek fuel = (s', .err ⟨.json .eofWhileParsingValue, x⟩) := by
  unfold enoughFuel at hf
  exact RJ.peek_eof h hc (by omega) hl ((ws_iff _).mpr hw)

example : exMid.Sync ∧ exMid.b.reader.Clean ∧ exMid.rest = [32] ++ 44 :: [32, 51, 93] ∧
    ∃ s', exMid.peek 20 = (s', .ok 44) ∧ s'.currentIndex = 5 :=
  ⟨exMid_sync, trivial, exMid_rest, _, rfl, by decide⟩

example : Spaces (RJ.new [.data 32 [10], .data 9 [13, 32]] [0, 0]).rest ∧ ∃ s' x,
    (RJ.new [.data 32 [10], .data 9 [13, 32]] [0, 0]).peek 20 = (s', .err ⟨.json .eofWhileParsingValue, x⟩) :=
  ⟨by intro c hc; rw [rest_new] at hc; simp [Reader.pending] at hc; simp only [Space]; rcases hc with h | h | h | h | h <;> simp [h],
    _, _, rfl⟩

/-- **C16, the false part.** The same input, form feed and `5`: if it is in the buffer already, `peek` returns
the form feed; on a new `RJiter` it returns `5`, and the form feed is gone. -/
theorem C16_form_feed :
    (∀ fuel, 10 ≤ fuel → ∃ s', (RJ.new [.data 12 [53]] [0, 0]).peek fuel = (s', .ok 53)) ∧
    (∃ s, History (.new [.data 12 [53]] [0, 0]) [.lookaheadN 1] s ∧
      ∀ fuel, 10 ≤ fuel → ∃ s', s.peek fuel = (s', .ok 12)) := by
  refine ⟨?_, ⟨⟨[], [12, 53], 2, 0, 0, 0⟩, 2, 0⟩, ?_, ?_⟩
  · intro fuel hf
    obtain ⟨fuel, rfl⟩ : ∃ m, fuel = m + 10 := ⟨fuel - 10, by omega⟩
    exact ⟨_, rfl⟩
  · exact .cons (fuel := 20) (r := .ok ()) (by unfold enoughFuel; decide) rfl (.ok _) (.nil _)
  · intro fuel _
    exact ⟨_, rfl⟩

/-! ## C27 -/

/-- **C27, partial** (full statement: for every buffer. It is false for a buffer of one byte, see
`C27_one_byte_buffer`, and for an empty one). With a buffer of at least two bytes, every call returns. Every read of the
source that delivers something uses up one unit of fuel, so `2 * size + 2` bounds the number of reads. -/
theorem C27_every_call_returns_partial (input : Reader) (buf : Bytes) (hbuf : 2 ≤ buf.length) (ops : List Op) (s : RJ)
    (h : History (.new input buf) ops s) (op : Op) (fuel : Nat) (hf : 2 * s.b.reader.size + 2 ≤ fuel) :
    (op.run fuel s).2 ≠ .diverge := by
  obtain ⟨n, hm⟩ := h.moved (sync_new _ _) hbuf
  rcases (op.run_res s fuel hm.sync (by rw [hm.buf]; exact hbuf) hf).1 with ⟨e, h1 | h1⟩ | ⟨h1, _⟩ <;> rw [h1] <;> simp

example : History exNew [.nextArray, .nextNumberBytes] exMid ∧ 2 * exMid.b.reader.size + 2 ≤ 20 :=
  ⟨exHistory, by decide⟩

theorem skipSpacesLoop_stuck (f0 : Nat) (r : Reader) : ∀ fuel,
    (skipSpacesLoop f0 1 fuel ⟨r, [91], 1, 0, 0, 0⟩).2 = .diverge := by
  intro fuel
  induction fuel with
  | zero => rfl
  | succ fuel ih =>
    cases f0 with
    | zero => rfl
    | succ f0 => exact ih

/-- **C27, the false part.** On the document `[]` with a buffer of one byte, `known_array` never returns. -/
theorem C27_one_byte_buffer (fuel : Nat) : ((RJ.new [.data 91 [93]] [0]).knownArray fuel).2 = .diverge := by
  have hs : ∀ f, skipSpaces (f + 2) ⟨[.data 91 [93]], [0], 0, 0, 0, 0⟩ 0 = (⟨[.data 93 []], [91], 1, 0, 0, 0⟩, .ok ()) :=
    fun f => rfl
  match fuel with
  | 0 => rfl
  | 1 => rfl
  | fuel + 2 =>
    obtain ⟨b, hb⟩ : ∃ b, skipSpaces (fuel + 2) ⟨[.data 93 []], [91], 1, 0, 0, 0⟩ 1 = (b, .diverge) :=
      ⟨_, Prod.ext rfl (skipSpacesLoop_stuck (fuel + 2) [.data 93 []] (fuel + 2))⟩
    simp [RJ.knownArray, loopUntilSuccess, call, RJ.new, Buffer.new, jdata, Jiter.knownArray, Jiter.wsLen, jerr,
      skipSpacesFeeding, hs, hb]

/-! ## C29 -/

/-- Line and column as the source counts them for a text: the number of newlines, and the bytes behind the last. -/
def lineCol (l : Bytes) : Nat × Nat := (l.count 10, (l.reverse.takeWhile (· != 10)).length)

theorem lineCol_foldl (l : Bytes) : l.foldl advance (0, 0) = lineCol l := by
  have : ∀ l : Bytes, (l.reverse).foldr (fun c lc => advance lc c) (0, 0) = lineCol l := by
    intro l
    generalize hr : l.reverse = r
    have hl : l = r.reverse := by rw [← hr, List.reverse_reverse]
    subst hl
    clear hr
    induction r with
    | nil => rfl
    | cons c r ih =>
      rw [List.foldr_cons, ih]
      simp only [lineCol, advance, List.reverse_reverse, List.reverse_cons, List.count_append]
      by_cases hc : c = 10
      · subst hc; simp
      · simp [hc]
  rw [← this, List.foldr_reverse]

/-- **C29.** After any calls on a new `RJiter`, whatever their outcomes (errors included): the fill level is at
most the size of the buffer, which has not changed. There is a sequence `out` of bytes that were shifted out:
together with the bytes in the buffer and those still to be read it is the input, up to the order; its length
is the shift counter, and its line and column are the stored ones. -/
theorem C29_fill_level (input : Reader) (buf : Bytes) (s : RJ) (h : Calls (.new input buf) s) :
    s.b.nBytes ≤ s.b.buf.length ∧ s.b.buf.length = buf.length ∧
    ∃ out : Bytes, (out ++ (s.b.valid ++ s.b.reader.pending)).Perm input.pending ∧ out.length = s.b.nShifted ∧
      (s.b.line, s.b.column) = lineCol out := by
  obtain ⟨out, hv⟩ := h.reach
  obtain ⟨h1, h2, h3, h4, h5, _⟩ := hv.counts (Nat.zero_le _)
  refine ⟨h1, h2, out, ?_, ?_, ?_⟩
  · simpa [RJ.new, Buffer.new, Buffer.valid] using h5
  · rw [h3]; simp [RJ.new, Buffer.new]
  · rw [h4, ← lineCol_foldl]; rfl

/-- The number of stored newlines is that of the input, less those in the buffer and those still to be read. -/
theorem C29_lines (input : Reader) (buf : Bytes) (s : RJ) (h : Calls (.new input buf) s) :
    s.b.line + s.b.valid.count 10 + s.b.reader.pending.count 10 = input.pending.count 10 := by
  obtain ⟨_, _, out, hp, _, hlc⟩ := C29_fill_level input buf s h
  have := hp.count_eq 10
  simp only [List.count_append] at this
  simp only [lineCol, Prod.mk.injEq] at hlc
  omega

/-- A state that meets the hypothesis, behind an error and with a newline shifted out. -/
example : ∃ s, Calls (.new [.data 10 [32, 49], .fail 3, .data 32 [120]] [0, 0, 0, 0]) s ∧
    s.b.line = 1 ∧ s.b.nShifted = 2 :=
  ⟨_, .cons .peek 20 (.cons .nextNumberBytes 20 (.nil _)), by decide, by decide⟩

end Verif.RJiter
