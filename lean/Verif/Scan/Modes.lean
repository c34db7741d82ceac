import Verif.Scan.Calls

/-!
# The situations in which `scan` is proved to work

* `wholeMode`: the reader delivers the whole input with one call, and it fits in the buffer.
* `streamMode`: any buffer that is large enough for the tokens; `ascii` for input that is all ASCII (otherwise strings
  must not contain backslashes, see C20); `one` for a reader that delivers as much as fits (otherwise objects with
  members, and no space in front of the first one, may occur in arrays only, see C17).
* `chunkMode` (in `ChunkMode.lean`): any reader that does not end a chunk within the first key of an object.
-/

namespace Verif.Scan

open Verif.RJiter RJ Jiter

/-- `C20` for a string that is in the buffer. -/
theorem writeLongBytes_buffered (s : RJ) (fuel : Nat) (w : Writer) (body t : Bytes) (h : s.Sync) (hf : enoughFuel s fuel)
    (hr : s.rest = 34 :: (body ++ 34 :: t)) (hin : s.jidx + body.length + 2 ≤ s.b.nBytes) (hb : RawBody body)
    (hw : w.plan = []) :
    ∃ s' w', s.writeLongBytes fuel w = ((s', w'), .ok ()) ∧ w'.out = w.out ++ body ∧ s.Moved s' (body.length + 2) := by
  have hd : ∃ t', s.jdata = 34 :: (body ++ 34 :: t') := by
    have hl := jdata_length h
    have e := rest_eq h
    rw [hr] at e
    have e2 : s.jdata = (34 :: (body ++ 34 :: t)).take s.jdata.length := by rw [e, List.take_left]
    have e3 : (34 :: (body ++ 34 :: t)).take s.jdata.length = 34 :: (body ++ 34 :: t.take (s.jdata.length - (body.length + 2))) := by
      obtain ⟨j, hj⟩ : ∃ j, s.jdata.length = (body.length + (j + 1)) + 1 := ⟨s.jdata.length - (body.length + 2), by omega⟩
      rw [hj, List.take_succ_cons, List.take_append, List.take_of_length_le (by omega : body.length ≤ body.length + (j + 1)),
        show body.length + (j + 1) - body.length = j + 1 by omega, List.take_succ_cons,
        show body.length + (j + 1) + 1 - (body.length + 2) = j by omega]
    exact ⟨_, e2.trans e3⟩
  obtain ⟨t', hd⟩ := hd
  unfold enoughFuel at hf
  obtain ⟨f, rfl⟩ : ∃ f, fuel = f + 1 := ⟨fuel - 1, by omega⟩
  have hp : Kind.raw.parser s.jdata = (body.length + 2, .ok body) := by rw [hd]; exact knownBytes_body hb 34 t'
  refine ⟨{ s with jidx := s.jidx + (body.length + 2) }, { w with out := w.out ++ body }, ?_, rfl, Moved.inside h (by omega)⟩
  show handleLong .raw (f + 1) s w = _
  rw [handleLong_succ, hp]
  simp only [Writer.writeAll, hw]

theorem refused_of_safe {s : RJ} {fuel : Nat} {body y : Bytes} {x : Byte} {ty : JsonErr} {off : Nat} (h : s.Sync) (h8 : 8 ≤ s.b.buf.length)
    (hc : s.b.reader.Clean) (hf : enoughFuel s fuel) (hb : RawBody body) (hx : Wrong x y ty off) (hr : s.rest = 34 :: (body ++ x :: y))
    (hsafe : StaleSafe s (body ++ [x])) : Refused s fuel := by
  have hf' := hf
  unfold enoughFuel at hf'
  obtain ⟨s', w', e, n, h1, h2⟩ := handleLong_wrong .raw s fuel ⟨[], []⟩ body body y x ty off hx h h8 hc hr hb.long rfl (by omega) hsafe
  obtain ⟨r', hr', _⟩ := h2.rest
  refine ⟨s', w', e, _, n, h1, h2.sync, h2.clean, h2.buf, ?_, hr', h2.index⟩
  have := h2.size
  unfold enoughFuel
  omega

/-- A broken string that is in the buffer. -/
theorem refused_buffered {s : RJ} {fuel : Nat} {body y : Bytes} {x : Byte} {ty : JsonErr} {off : Nat} (h : s.Sync)
    (hc : s.b.reader.Clean) (hf : enoughFuel s fuel) (hb : RawBody body) (hx : Wrong x y ty off) (hr : s.rest = 34 :: (body ++ x :: y))
    (hp : s.b.reader.pending = []) : Refused s fuel := by
  have hd : s.jdata = 34 :: (body ++ x :: y.take (y.length + off)) := by
    have e := rest_eq h
    rw [hp, List.append_nil, hr] at e
    rw [← e, List.take_of_length_le (by omega)]
  obtain ⟨f, rfl⟩ : ∃ f, fuel = f + 1 := ⟨fuel - 1, by unfold enoughFuel at hf; omega⟩
  refine ⟨s, ⟨[], []⟩, s.mkErr s.jidx ⟨.json ty, 1 + body.length + off⟩, _, 0, ?_, h, hc, rfl, hf, hr, rfl⟩
  show handleLong .raw (f + 1) s _ = _
  rw [handleLong_succ, hd, hb.long.wrong hx]
  simp only
  rw [if_pos (show (!canRetry (.json ty)) = true by cases hx <;> rfl)]
  rfl

theorem rest_length {s : RJ} (h : s.Sync) : s.rest.length = (s.b.nBytes - s.jidx) + s.b.reader.pending.length := by
  rw [rest_eq h, List.length_append, jdata_length h]

/-- Nothing has been read yet and everything fits, or everything has been read. -/
def Whole (b : Buffer) : Prop :=
  b.reader.OneChunk ∧ (b.reader.pending = [] ∨ b.nBytes = 0 ∧ b.reader.pending.length ≤ b.buf.length)

theorem shift_zero (b : Buffer) (h : b.nBytes = 0) (t f : Nat) : (b.shift t f).nBytes = 0 ∧ (b.shift t f).buf = b.buf := by
  unfold Buffer.shift
  simp only
  rw [if_neg (by omega)]
  exact ⟨h, rfl⟩

theorem Whole.readMore (b : Buffer) (hok : b.nBytes ≤ b.buf.length) (h : Whole b) : Whole b.readMore.1 := by
  obtain ⟨h1, h2⟩ := h
  refine ⟨readMore_keepsOneChunk b hok h1, ?_⟩
  have hfr := Frame.readMore hok (Nat.zero_le b.nBytes)
  have hok' : ∃ b' n, b.readMore = (b', .ok n) := by
    unfold Buffer.readMore
    rw [if_neg (by omega)]
    obtain ⟨r', bs, e⟩ := h1.ok (b.buf.length - b.nBytes)
    rw [e]
    exact ⟨_, _, rfl⟩
  obtain ⟨b', n, hr⟩ := hok'
  rw [hr] at hfr ⊢
  have hrest := hfr.rest
  simp only [List.drop_zero] at hrest
  have hlen := congrArg List.length hrest
  simp only [List.length_append, Buffer.valid_length hok, Buffer.valid_length hfr.ok] at hlen
  have hl := hfr.len
  simp only at hl ⊢
  left
  rcases (readMore_oneChunk hok h1 hr).2.2 with h3 | h3
  · exact h3
  · rw [← List.length_eq_zero_iff]
    rcases h2 with h2 | ⟨h2, _⟩
    · rw [h2] at hlen; simp at hlen; omega
    · omega

theorem Whole.shift (b : Buffer) (t f : Nat) (h : Whole b) : Whole (b.shift t f) := by
  obtain ⟨h1, h2⟩ := h
  refine ⟨by rw [shift_reader]; exact h1, ?_⟩
  rw [shift_reader]
  rcases h2 with h2 | ⟨h2, h3⟩
  · exact .inl h2
  · obtain ⟨a1, a2⟩ := shift_zero b h2 t f
    exact .inr ⟨a1, by rw [a2]; exact h3⟩

/-- The whole input fits in the buffer and is read with one call. -/
def wholeMode : Mode where
  inv := Whole
  read := Whole.readMore
  shift b t f _ h := h.shift b t f
  len := 0
  str _ := True
  head _ _ _ _ := True
  loose := True
  tail _ _ _ _ _ _ := trivial
  long := by
    intro s fuel w body t h h8 hc hf hi _ hb hw hr
    obtain ⟨h1, h2 | ⟨h2, _⟩⟩ := hi
    · refine writeLongBytes_buffered s fuel w body t h hf hr ?_ hb hw
      have := rest_length h
      rw [hr, h2] at this
      simp at this
      omega
    · exact C20_write_long_bytes_partial s fuel w body t h h8 hc hf hr hb hw (.inr (.inr ⟨h1, fun h3 => by omega⟩))
  wrong := by
    intro s fuel body y x ty off h h8 hc hf hi _ hb hx hr
    obtain ⟨h1, h2 | ⟨h2, _⟩⟩ := hi
    · exact refused_buffered h hc hf hb hx hr h2
    · exact refused_of_safe h h8 hc hf hb hx hr (.inr (.inr ⟨h1, fun h3 => by omega⟩))
  peek := by
    intro s s' fuel c ws w body w2 t h hc hf _ h8 hi _ _ hws hw hw2 hr e hj _
    have hre : Reach s.b s'.b := by
      have := Op.run_reach .peek fuel s
      simp only [Op.run, e] at this
      exact this
    have hi' : Whole s'.b := hre.keeps Whole.readMore (fun b t f _ h => h.shift b t f) h.ok hi
    obtain ⟨s2, e2, hm, _⟩ := C16_peek_partial s fuel h (by omega) hc hf ws 123 _ hr hws (by unfold Space; decide) (by decide)
    rw [e] at e2
    simp only [Prod.mk.injEq] at e2
    obtain ⟨rfl, _⟩ := e2
    rcases hi'.2 with h2 | ⟨h2, _⟩
    · right
      have h3 := rest_length hm.sync
      rw [moved_rest hm hr, h2, hj] at h3
      simp at h3
      omega
    · left; omega

/-- Byte of an ASCII character. -/
def Ascii (c : Byte) : Prop := c.toNat < 0x80

/-- The condition on the buffer in `streamMode`. -/
def Stream (ascii one : Bool) (b : Buffer) : Prop :=
  (ascii = true → AllBytes Ascii b) ∧ (one = true → b.reader.OneChunk)

/-- Input of any length, a buffer of any length that is at least `len`. -/
def streamMode (ascii one : Bool) (len : Nat) : Mode where
  inv := Stream ascii one
  read b hok h := ⟨fun ha => (h.1 ha).readMore hok, fun ho => readMore_keepsOneChunk b hok (h.2 ho)⟩
  shift b t f _ h := ⟨fun ha => (h.1 ha).shift t f, fun ho => by rw [shift_reader]; exact h.2 ho⟩
  len := len
  str body := ascii = true ∨ 92 ∉ body
  head ws w body _ := w = [] → one = true ∧ ws.length + body.length + 3 ≤ len
  loose := False
  tail a ws w body w2 h h0 := ⟨(h h0).1, by have := (h h0).2; simp only [List.length_append] at this; omega⟩
  long := by
    intro s fuel w body t h h8 hc hf hi hs hb hw hr
    refine C20_write_long_bytes_partial s fuel w body t h h8 hc hf hr hb hw ?_
    rcases hs with hs | hs
    · refine .inr (.inl ⟨(hi.1 hs).1, ?_⟩)
      intro c hc
      have hc' : c ∈ s.b.valid.drop s.jidx ++ s.b.reader.pending := hc
      rcases List.mem_append.mp hc' with hc | hc
      · exact (hi.1 hs).1 c (List.mem_of_mem_take (List.mem_of_mem_drop hc))
      · exact (hi.1 hs).2 c hc
    · exact .inl hs
  wrong := by
    intro s fuel body y x ty off h h8 hc hf hi hs hb hx hr
    refine refused_of_safe h h8 hc hf hb hx hr ?_
    rcases hs with hs | hs
    · refine .inr (.inl ⟨(hi.1 hs).1, ?_⟩)
      intro c hc
      have hc' : c ∈ s.b.valid.drop s.jidx ++ s.b.reader.pending := hc
      rcases List.mem_append.mp hc' with hc | hc
      · exact (hi.1 hs).1 c (List.mem_of_mem_take (List.mem_of_mem_drop hc))
      · exact (hi.1 hs).2 c hc
    · exact .inl hs
  peek := by
    intro s s' fuel c ws w body w2 t h hc hf hlen h8 hi hrd hh0 hws hw hw2 hr e hj hw0
    have hh := hh0 hw0
    obtain ⟨s2, e2, hm, _⟩ := C16_peek_partial s fuel h (by omega) hc hf ws 123 _ hr hws (by unfold Space; decide) (by decide)
    rw [e] at e2
    simp only [Prod.mk.injEq, Res.ok.injEq] at e2
    obtain ⟨rfl, rfl⟩ := e2
    right
    have hf' := hf
    unfold enoughFuel at hf'
    rcases peek_room reads_oneChunk h (by omega) (by omega) (hi.2 hh.1) (fun h0 => (hrd.resolve_left id).resolve_left (fun h => h h0)) hr ((ws_iff _).mpr hws) (by decide) e hj with h2 | h2 | h2
    · have h3 := rest_length hm.sync
      rw [moved_rest hm hr, h2, hj] at h3
      simp at h3
      omega
    · have := hh.2
      have := hm.buf
      omega
    · exact h2.elim

end Verif.Scan
