import Verif.RJiter.Props
import Verif.RJiter.LongCut
import Verif.RJiter.LongSound

/-!
# Properties C20, C21, C22, C28, C43, C44 of `rjiter`: copying long strings

String bodies are described by the grammar of `StrSpec.lean`. `StaleSafe` (in `LongSafe.lean`) names the three
situations in which a byte left over in the working buffer behind the valid bytes cannot do harm.
-/

namespace Verif.RJiter

open Buffer RJ Jiter

instance Reader.decClean : (r : Reader) → Decidable r.Clean
  | [] => .isTrue trivial
  | .data _ _ :: t => Reader.decClean t
  | .fail _ :: _ => .isFalse id

instance (s : RJ) (fuel : Nat) : Decidable (enoughFuel s fuel) := inferInstanceAs (Decidable (_ ≤ _))
instance (c : Byte) (v : Nat) : Decidable (HexDigit c v) := inferInstanceAs (Decidable (_ ∨ _))

/-! ## C20 -/

/-- **C20, partial.** Full statement: without `hsafe`; it is false, see `C20_cut_in_escape`. -/
theorem C20_write_long_bytes_partial (s : RJ) (fuel : Nat) (w : Writer) (body t : Bytes) (h : s.Sync)
    (hlen : 8 ≤ s.b.buf.length) (hc : s.b.reader.Clean) (hf : enoughFuel s fuel) (hr : s.rest = 34 :: (body ++ 34 :: t))
    (hb : RawBody body) (hw : w.plan = []) (hsafe : StaleSafe s body) :
    ∃ s' w', s.writeLongBytes fuel w = ((s', w'), .ok ()) ∧ w'.out = w.out ++ body ∧ s.Moved s' (body.length + 2) := by
  unfold enoughFuel at hf
  obtain ⟨s', h1, h2⟩ := handleLong_safe .raw s fuel w body body t h hlen hc hr hb.long hw (by omega) hsafe
  exact ⟨s', _, h1, rfl, h2⟩

/-- A reader that delivers single bytes. -/
def oneByOne (l : Bytes) : Reader := l.map (fun b => .data b [])

/-- `ab\n é` with quotes. -/
def exLongBody : Bytes := [97, 98, 92, 110, 32, 0xC3, 0xA9, 99, 100]

theorem exLongBody_str : StrBody false exLongBody ['a', 'b', '\n', ' ', 'é', 'c', 'd'] :=
  .char 'a' _ _ ⟨by decide, by decide, by decide⟩ (.char 'b' _ _ ⟨by decide, by decide, by decide⟩
    (.esc 110 '\n' _ _ (by simp [Escape]) (.char ' ' _ _ ⟨by decide, by decide, by decide⟩
      (.char 'é' _ _ ⟨by decide, by decide, by decide⟩ (.char 'c' _ _ ⟨by decide, by decide, by decide⟩
        (.char 'd' _ _ ⟨by decide, by decide, by decide⟩ .nil))))))

/-- An 8-byte buffer and a 12-byte string: three segments, cut in front of the backslash and inside `é`. -/
def exLong : RJ := RJ.new [.data 34 (exLongBody ++ [34, 44])] (List.replicate 8 0)

example : exLong.Sync ∧ 8 ≤ exLong.b.buf.length ∧ exLong.b.reader.Clean ∧ enoughFuel exLong 100 ∧
    exLong.rest = 34 :: (exLongBody ++ 34 :: [44]) ∧ RawBody exLongBody ∧ StaleSafe exLong exLongBody :=
  ⟨sync_new _ _, by decide, by decide, by decide, by decide, exLongBody_str.raw,
    .inr (.inr ⟨trivial, fun h => by revert h; decide⟩)⟩

example : (exLong.writeLongBytes 100 ⟨[], []⟩).1.2.out = exLongBody ∧
    (exLong.writeLongBytes 100 ⟨[], []⟩).2 = .ok () := by decide +kernel

/-- **C20, the false part.** On `"你\"x"`, read byte by byte, `write_long_bytes` returns `Ok` after writing `你\`, and
stops in front of the `x`. -/
theorem C20_cut_in_escape : ∃ (s : RJ) (body : Bytes), s.Sync ∧ 8 ≤ s.b.buf.length ∧ s.b.reader.Clean ∧
    RawBody body ∧ s.rest = 34 :: (body ++ 34 :: []) ∧ enoughFuel s 40 ∧
    (s.writeLongBytes 40 ⟨[], []⟩).2 = .ok () ∧
    (s.writeLongBytes 40 ⟨[], []⟩).1.2.out = enc '你' ++ [92] ∧
    (s.writeLongBytes 40 ⟨[], []⟩).1.2.out ≠ body ∧
    (s.writeLongBytes 40 ⟨[], []⟩).1.1.rest = [120, 34] := by
  refine ⟨RJ.new (oneByOne (34 :: (enc '你' ++ [92, 34, 120, 34]))) (List.replicate 20 0), enc '你' ++ 92 :: 34 :: (enc 'x' ++ []),
    sync_new _ _, by decide, by decide +kernel, .char '你' _ ⟨by decide, by decide, by decide⟩
      (.esc 34 '"' _ (by simp [Escape]) (.char 'x' _ ⟨by decide, by decide, by decide⟩ .nil)), ?_⟩
  decide +kernel

/-! ## C21 -/

/-- **C21, partial.** Full statement: also for bodies with surrogate pairs (`StrBody true`), and without `hsafe`;
both are false, see `C21_split_pair` and `C21_cut_in_escape`. -/
theorem C21_write_long_str_partial (s : RJ) (fuel : Nat) (w : Writer) (body t : Bytes) (chars : List Char) (h : s.Sync)
    (hlen : 8 ≤ s.b.buf.length) (hc : s.b.reader.Clean) (hf : enoughFuel s fuel) (hr : s.rest = 34 :: (body ++ 34 :: t))
    (hb : StrBody false body chars) (hw : w.plan = []) (hsafe : StaleSafe s body) :
    ∃ s' w', s.writeLongStr fuel w = ((s', w'), .ok ()) ∧ w'.out = w.out ++ encAll chars ∧
      s.Moved s' (body.length + 2) := by
  unfold enoughFuel at hf
  obtain ⟨s', h1, h2⟩ := handleLong_safe .str s fuel w body (encAll chars) t h hlen hc hr hb.long hw (by omega) hsafe
  exact ⟨s', _, h1, rfl, h2⟩

example : exLong.Sync ∧ StrBody false exLongBody ['a', 'b', '\n', ' ', 'é', 'c', 'd'] ∧
    (exLong.writeLongStr 100 ⟨[], []⟩).1.2.out = [97, 98, 10, 32, 0xC3, 0xA9, 99, 100] ∧
    (exLong.writeLongStr 100 ⟨[], []⟩).2 = .ok () :=
  ⟨sync_new _ _, exLongBody_str, by decide +kernel⟩

/-- **C21, partial**: with surrogate pairs, for a string that is in the buffer as a whole, with its closing quote.
(Any buffer length; nothing is assumed about stale bytes.) -/
theorem C21_buffered_partial (s : RJ) (fuel : Nat) (w : Writer) (body t : Bytes) (chars : List Char) (h : s.Sync)
    (hf : enoughFuel s fuel) (hr : s.rest = 34 :: (body ++ 34 :: t)) (hin : s.jidx + body.length + 2 ≤ s.b.nBytes)
    (hb : StrBody true body chars) (hw : w.plan = []) :
    ∃ s' w', s.writeLongStr fuel w = ((s', w'), .ok ()) ∧ w'.out = w.out ++ encAll chars ∧
      s.Moved s' (body.length + 2) := by
  have hd : ∃ t', s.jdata = 34 :: (body ++ 34 :: t') := by
    have hl := jdata_length h
    have e := rest_eq h
    rw [hr] at e
    have e2 : s.jdata = (34 :: (body ++ 34 :: t)).take s.jdata.length := by rw [e, List.take_left]
    have e3 : (34 :: (body ++ 34 :: t)).take s.jdata.length = 34 :: (body ++ 34 :: t.take (s.jdata.length - (body.length + 2))) := by
      obtain ⟨j, hj⟩ : ∃ j, s.jdata.length = (body.length + (j + 1)) + 1 := ⟨s.jdata.length - (body.length + 2), by omega⟩
      rw [hj, List.take_succ_cons, List.take_append, List.take_of_length_le (by omega : body.length ≤ body.length + (j + 1)),
        show body.length + (j + 1) - body.length = j + 1 by omega, List.take_succ_cons,
        show body.length + (j + 1) + 1 - (body.length + 2) = j by omega]
    exact ⟨_, e2.trans e3⟩
  obtain ⟨t', hd⟩ := hd
  unfold enoughFuel at hf
  obtain ⟨f, rfl⟩ : ∃ f, fuel = f + 1 := ⟨fuel - 1, by omega⟩
  have hp : Kind.str.parser s.jdata = (body.length + 2, .ok (encAll chars)) := by rw [hd]; exact knownStr_body hb 34 t'
  refine ⟨{ s with jidx := s.jidx + (body.length + 2) }, { w with out := w.out ++ encAll chars }, ?_, rfl, Moved.inside h (by omega)⟩
  show handleLong .str (f + 1) s w = _
  rw [handleLong_succ, hp]
  simp only [Writer.writeAll, hw]

/-- The body `\ud83d\ude00`, a surrogate pair that stands for U+1F600. -/
def exPairBody : Bytes := [92, 117, 100, 56, 51, 100, 92, 117, 100, 101, 48, 48]

theorem exPair_str : StrBody true exPairBody ['😀'] := by
  refine .pair 100 56 51 100 100 101 48 48 0xD83D 0xDE00 '😀' [] [] rfl ?_ (by decide) (by decide) ?_ (by decide) (by decide) (by decide) .nil
  · exact ⟨13, 8, 3, 13, by decide, by decide, by decide, by decide, rfl⟩
  · exact ⟨13, 14, 0, 0, by decide, by decide, by decide, by decide, rfl⟩

example : ∃ s : RJ, s.Sync ∧ enoughFuel s 60 ∧ s.rest = 34 :: (exPairBody ++ 34 :: []) ∧
    s.jidx + exPairBody.length + 2 ≤ s.b.nBytes ∧ (s.writeLongStr 60 ⟨[], []⟩).1.2.out = enc '😀' := by
  refine ⟨(RJ.new [.data 34 (exPairBody ++ [34])] (List.replicate 20 0)).peek 60 |>.1, ?_⟩
  refine ⟨⟨?_, ?_, ?_⟩, ?_⟩ <;> decide +kernel

/-- **C21, a false part.** A surrogate pair read byte by byte is an error: its first half is decoded alone. The
same string arriving in one piece is decoded. -/
theorem C21_split_pair : ∃ (s : RJ) (body : Bytes) (chars : List Char), s.Sync ∧ 8 ≤ s.b.buf.length ∧ s.b.reader.Clean ∧
    StrBody true body chars ∧ s.rest = 34 :: (body ++ 34 :: []) ∧ enoughFuel s 60 ∧
    ∃ x, (s.writeLongStr 60 ⟨[], []⟩).2 = .err ⟨.json .loneLeadingSurrogateInHexEscape, x⟩ := by
  refine ⟨RJ.new (oneByOne (34 :: (exPairBody ++ [34]))) (List.replicate 20 0), exPairBody, ['😀'], sync_new _ _, by decide,
    by decide +kernel, exPair_str, by decide +kernel, by decide +kernel, ?_⟩
  exact ⟨7, by decide +kernel⟩

/-- **C21, a false part.** `"你\"x"` read byte by byte is an error for `write_long_str`: the segment `\` is decoded alone. -/
theorem C21_cut_in_escape : ∃ (s : RJ) (body : Bytes) (chars : List Char), s.Sync ∧ 8 ≤ s.b.buf.length ∧ s.b.reader.Clean ∧
    StrBody false body chars ∧ s.rest = 34 :: (body ++ 34 :: []) ∧ enoughFuel s 40 ∧
    ∃ e, (s.writeLongStr 40 ⟨[], []⟩).2 = .err e := by
  refine ⟨RJ.new (oneByOne (34 :: (enc '你' ++ [92, 34, 120, 34]))) (List.replicate 20 0), enc '你' ++ 92 :: 34 :: (enc 'x' ++ []),
    ['你', '"', 'x'], sync_new _ _, by decide, by decide +kernel, .char '你' _ _ ⟨by decide, by decide, by decide⟩
      (.esc 34 '"' _ _ (by simp [Escape]) (.char 'x' _ _ ⟨by decide, by decide, by decide⟩ .nil)), by decide +kernel, by decide +kernel, ?_⟩
  exact ⟨⟨.json .eofWhileParsingString, 6⟩, by decide +kernel⟩

/-! ## C22 -/

/-- Does a string body end somewhere: is there a quote that is not behind a backslash? -/
def closes : Bytes → Bool
  | [] => false
  | [c] => c == 34
  | c :: d :: t => if c = 34 then true else if c = 92 then closes t else closes (d :: t)

theorem closes_skip {c : Byte} (h : c ≠ 34) (h2 : c ≠ 92) (t : Bytes) : closes (c :: t) = closes t := by
  cases t with
  | nil => simp [closes, h]
  | cons d t => rw [closes, if_neg h, if_neg h2]

theorem closes_plain (l t : Bytes) (h : ∀ c ∈ l, PlainByte c) : closes (l ++ t) = closes t := by
  induction l with
  | nil => rfl
  | cons c l ih =>
    have hc := h c (by simp)
    rw [List.cons_append, closes_skip hc.1 hc.2.1]
    exact ih (fun x hx => h x (by simp [hx]))

theorem closes_esc (e : Byte) (t : Bytes) : closes (92 :: e :: t) = closes t := by
  rw [closes, if_neg (by decide), if_pos rfl]

theorem RawBody.closes {body : Bytes} (h : RawBody body) (t : Bytes) : Verif.RJiter.closes (body ++ 34 :: t) = true := by
  induction h with
  | nil => cases t <;> simp [Verif.RJiter.closes]
  | char ch r hp _ ih => rw [List.append_assoc, closes_plain _ _ (enc_plain hp)]; exact ih
  | esc e x r _ _ ih => rw [List.cons_append, List.cons_append, closes_esc]; exact ih
  | uni a b c d v r hx _ ih =>
    obtain ⟨_, _, _, _, ha, hb, hc, hd, _⟩ := hx
    show Verif.RJiter.closes (92 :: 117 :: ([a, b, c, d] ++ (r ++ 34 :: t))) = true
    rw [closes_esc, closes_plain]
    · exact ih
    · intro z hz
      simp only [List.mem_cons, List.not_mem_nil, or_false] at hz
      rcases hz with rfl | rfl | rfl | rfl
      · exact hex_plain ha
      · exact hex_plain hb
      · exact hex_plain hc
      · exact hex_plain hd

/-- What an `Ok` of `write_long_*` tells about the stream, for any stream. -/
theorem handleLong_ok0 {k : Kind} {s : RJ} {fuel : Nat} {w w' : Writer} {s' : RJ} (h : s.Sync)
    (hr : handleLong k fuel s w = ((s', w'), .ok ())) :
    ∃ q body t v, s.rest = q :: (body ++ 34 :: t) ∧ s.Moved s' (body.length + 2) ∧ w'.out = w.out ++ v ∧ WrittenFor k body v :=
  handleLong_ok k s w fuel s w 0 (.inl ⟨rfl, h, rfl⟩)
    ⟨by omega, [], by simp, by rw [List.take_zero]; exact WrittenFor.nil k⟩ s' w' hr

theorem writeLongStr_ok {s : RJ} {fuel : Nat} {w w' : Writer} {s' : RJ} (h : s.Sync)
    (hr : s.writeLongStr fuel w = ((s', w'), .ok ())) :
    ∃ q body chars t, s.rest = q :: (body ++ 34 :: t) ∧ StrBody true body chars ∧ s.Moved s' (body.length + 2) ∧
      w'.out = w.out ++ encAll chars := by
  obtain ⟨q, body, t, v, h1, h2, h3, h4⟩ := handleLong_ok0 (k := .str) h hr
  obtain ⟨hd, hu⟩ : Dec body v ∧ utf8Valid v = true := h4
  obtain ⟨chars, rfl⟩ := utf8Valid_chars _ v (Nat.le_refl _) hu
  exact ⟨q, body, chars, t, h1, hd.chars _ rfl, h2, h3⟩

/-- **C22** (`write_long_str`): positioned on the opening quote of a string without a closing quote, the call
does not succeed. Any buffer length, any chunking, any stale bytes, any fuel. -/
theorem C22_write_long_str (s : RJ) (fuel : Nat) (w : Writer) (h : s.Sync) (hno : closes (s.rest.drop 1) = false) :
    ∀ x, s.writeLongStr fuel w ≠ (x, .ok ()) := by
  intro ⟨s', w'⟩ hr
  obtain ⟨q, body, chars, t, h1, h2, _⟩ := writeLongStr_ok h hr
  rw [h1, List.drop_succ_cons, List.drop_zero, h2.raw.closes] at hno
  exact absurd hno (by decide)

/-- `"你\"x` without its closing quote. -/
def exCut : RJ := RJ.new (oneByOne (34 :: (enc '你' ++ [92, 34, 120]))) (List.replicate 20 0)

example : exCut.Sync ∧ closes (exCut.rest.drop 1) = false := ⟨sync_new _ _, by decide +kernel⟩

/-- **C22, partial** (`write_long_bytes`): if there is no quote at all. Full statement: `closes (s.rest.drop 1) = false`
is enough, as for `write_long_str`; it is false, see `C22_cut_in_escape`, `C22_cut_in_hex`. -/
theorem C22_no_quote_partial (s : RJ) (fuel : Nat) (w : Writer) (h : s.Sync) (hno : 34 ∉ s.rest.drop 1) :
    ∀ x, s.writeLongBytes fuel w ≠ (x, .ok ()) := by
  intro ⟨s', w'⟩ hr
  obtain ⟨q, body, t, v, h1, _⟩ := handleLong_ok0 (k := .raw) h hr
  rw [h1, List.drop_succ_cons, List.drop_zero] at hno
  exact hno (by simp)

example : (RJ.new [.data 34 [97, 98]] [0, 0]).Sync ∧ 34 ∉ (RJ.new [.data 34 [97, 98]] [0, 0]).rest.drop 1 :=
  ⟨sync_new _ _, by decide⟩

/-- **C22, partial** (`write_long_bytes`): if the stream ends inside a valid string (`p`, continued by `x`), and
stale bytes are harmless. -/
theorem C22_truncated_partial (s : RJ) (fuel : Nat) (w : Writer) (p x : Bytes) (h : s.Sync) (hlen : 8 ≤ s.b.buf.length)
    (hr : s.rest = 34 :: p) (hb : RawBody (p ++ x)) (hsafe : StaleSafe s (p ++ x)) :
    ∀ y, s.writeLongBytes fuel w ≠ (y, .ok ()) :=
  handleLong_cut_safe .raw s fuel w p x (p ++ x) h hlen hr hb.long hsafe

example : ∃ s : RJ, s.Sync ∧ 8 ≤ s.b.buf.length ∧ s.rest = 34 :: [97, 98, 92] ∧ RawBody ([97, 98, 92] ++ [110, 32, 0xC3, 0xA9, 99, 100]) ∧
    StaleSafe s ([97, 98, 92] ++ [110, 32, 0xC3, 0xA9, 99, 100]) :=
  ⟨RJ.new (oneByOne [34, 97, 98, 92]) (List.replicate 8 0), sync_new _ _, by decide, by decide, exLongBody_str.raw,
    .inr (.inl (by decide))⟩

/-- **C22, the false part.** `write_long_bytes` accepts `"你\"x` and the end of input. -/
theorem C22_cut_in_escape : ∃ s : RJ, s.Sync ∧ 8 ≤ s.b.buf.length ∧ s.b.reader.Clean ∧ closes (s.rest.drop 1) = false ∧
    enoughFuel s 40 ∧ (s.writeLongBytes 40 ⟨[], []⟩).2 = .ok () :=
  ⟨exCut, sync_new _ _, by decide, by decide +kernel, by decide +kernel, by decide +kernel, by decide +kernel⟩

/-- **C22, the false part.** `write_long_bytes` accepts the ASCII input `"\u123\"` and the end of input, when it arrives
byte by byte: the escape is taken to be six bytes long. -/
theorem C22_cut_in_hex : ∃ s : RJ, s.Sync ∧ 8 ≤ s.b.buf.length ∧ s.b.reader.Clean ∧ (∀ c ∈ s.rest, c.toNat < 0x80) ∧
    closes (s.rest.drop 1) = false ∧ enoughFuel s 40 ∧ (s.writeLongBytes 40 ⟨[], []⟩).2 = .ok () := by
  refine ⟨RJ.new (oneByOne [34, 92, 117, 49, 50, 51, 92, 34]) (List.replicate 20 0), sync_new _ _, by decide, ?_⟩
  decide +kernel

/-! ## C28 -/

/-- **C28, partial.** Full statement: for buffers of 7 bytes too; it is false, see `C28_seven`. -/
theorem C28_no_panic_partial (k : Kind) (s : RJ) (fuel : Nat) (w : Writer) (h : s.Sync) (hlen : 8 ≤ s.b.buf.length)
    (hf : enoughFuel s fuel) : ∀ x, handleLong k fuel s w ≠ (x, .panic) := by
  unfold enoughFuel at hf
  intro x hx
  rcases handleLong_sound k s fuel s w (.inl ⟨rfl, h⟩) (by omega) with ⟨_, _, _, h1, _⟩ | ⟨_, _, _, h1⟩ | ⟨_, _, _, h1⟩
  · rw [h1] at hx; simp at hx
  · rw [h1] at hx; simp at hx
  · omega

example : exCut.Sync ∧ 8 ≤ exCut.b.buf.length ∧ enoughFuel exCut 40 := ⟨sync_new _ _, by decide, by decide +kernel⟩

/-- **C28, the false part.** A 7-byte buffer filled with `"\u0041`: the byte behind the buffer is read. -/
theorem C28_seven (k : Kind) : ∃ s : RJ, s.Sync ∧ s.b.buf.length = 7 ∧ s.b.reader.Clean ∧ enoughFuel s 60 ∧
    RawBody ((s.rest.drop 1).take 6) ∧ s.rest = 34 :: ((s.rest.drop 1).take 6 ++ [34]) ∧
    (handleLong k 60 s ⟨[], []⟩).2 = .panic := by
  refine ⟨RJ.new [.data 34 [92, 117, 48, 48, 52, 49, 34]] (List.replicate 7 0), sync_new _ _, by decide, by decide, by decide, ?_, by decide, ?_⟩
  · refine .uni 48 48 52 49 65 _ ⟨0, 0, 4, 1, by decide, by decide, by decide, by decide, by decide⟩ .nil
  · cases k <;> decide +kernel

/-! ## C43 -/

/-- **C43** (`write_long_bytes`): whatever the stream holds, what an `Ok` consumed is what it wrote, and a quote on each side. -/
theorem C43_write_long_bytes (s : RJ) (fuel : Nat) (w w' : Writer) (s' : RJ) (h : s.Sync)
    (hr : s.writeLongBytes fuel w = ((s', w'), .ok ())) :
    ∃ q body t, s.rest = q :: (body ++ 34 :: t) ∧ w'.out = w.out ++ body ∧ s.Moved s' (body.length + 2) := by
  obtain ⟨q, body, t, v, h1, h2, h3, h4⟩ := handleLong_ok0 (k := .raw) h hr
  rw [show v = body from h4] at h3
  exact ⟨q, body, t, h1, h3, h2⟩

/-- **C43** (`write_long_str`): whatever the stream holds, an `Ok` consumed a valid string and wrote the characters it stands for. -/
theorem C43_write_long_str (s : RJ) (fuel : Nat) (w w' : Writer) (s' : RJ) (h : s.Sync)
    (hr : s.writeLongStr fuel w = ((s', w'), .ok ())) :
    ∃ q body chars t, s.rest = q :: (body ++ 34 :: t) ∧ StrBody true body chars ∧ w'.out = w.out ++ encAll chars ∧
      s.Moved s' (body.length + 2) := by
  obtain ⟨q, body, chars, t, h1, h2, h3, h4⟩ := writeLongStr_ok h hr
  exact ⟨q, body, chars, t, h1, h2, h4, h3⟩

/-- The two calls do succeed, also with a 3-byte buffer. -/
example : ∃ s : RJ, s.Sync ∧ s.b.buf.length = 3 ∧ (s.writeLongBytes 40 ⟨[], []⟩).2 = .ok () ∧ (s.writeLongStr 40 ⟨[], []⟩).2 = .ok () ∧
    (s.writeLongStr 40 ⟨[], []⟩).1.2.out = [97, 98, 99, 100] := by
  refine ⟨RJ.new [.data 34 [97, 98, 99, 100, 34]] (List.replicate 3 0), sync_new _ _, ?_⟩
  decide +kernel

end Verif.RJiter
