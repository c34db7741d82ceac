import Verif.RJiter.Buffer

/-!
# Facts about the buffer
-/

namespace Verif.RJiter

/-! ### Reader -/

theorem Reader.read_zero (r : Reader) : r.read 0 = (r, .ok []) := by simp [Reader.read]

/-- What a read can do. -/
theorem Reader.read_cases (r : Reader) (room : Nat) :
    (room = 0 ∧ r.read room = (r, .ok [])) ∨
    (0 < room ∧ r = [] ∧ r.read room = ([], .ok [])) ∨
    (0 < room ∧ ∃ k r', r = .fail k :: r' ∧ r.read room = (r', .error k)) ∨
    (0 < room ∧ ∃ r' bs, r.read room = (r', .ok bs) ∧ 0 < bs.length ∧ bs.length ≤ room ∧
      r.pending = bs ++ Reader.pending r' ∧ Reader.size r' + bs.length = r.size ∧
      (r.Clean → Reader.Clean r')) := by
  by_cases h0 : room = 0
  · left; simp [h0, Reader.read]
  right
  have hp : 0 < room := by omega
  match r with
  | [] => left; simp [Reader.read, h0, hp]
  | .fail k :: r' => right; left; refine ⟨hp, k, r', rfl, by simp [Reader.read, h0]⟩
  | .data b bs :: r' =>
    right; right
    refine ⟨hp, ?_⟩
    simp only [Reader.read, if_neg h0]
    cases hd : bs.drop (room - 1) with
    | nil =>
      have hl : bs.length ≤ room - 1 := by
        have := congrArg List.length hd; simp at this; omega
      exact ⟨r', b :: bs, rfl, by simp, by simp; omega, by simp [Reader.pending],
        by simp [Reader.size]; omega, by simp [Reader.Clean]⟩
    | cons c cs =>
      have hl := congrArg List.length hd
      simp at hl
      refine ⟨.data c cs :: r', b :: bs.take (room - 1), rfl, by simp, by simp; omega, ?_, ?_, ?_⟩
      · simp only [Reader.pending]
        have := List.take_append_drop (room - 1) bs
        rw [hd] at this
        conv => lhs; rw [← this]
        simp
      · simp [Reader.size]; omega
      · simp [Reader.Clean]

theorem Reader.pending_nil_of_size {r : Reader} (h : r.size = 0) : r = [] := by
  match r with
  | [] => rfl
  | .fail k :: r' => simp [Reader.size] at h
  | .data b bs :: r' => simp [Reader.size] at h

theorem Reader.Clean.pending_nil {r : Reader} (hc : r.Clean) (h : r.pending = []) : r = [] := by
  match r with
  | [] => rfl
  | .fail k :: r' => simp [Reader.Clean] at hc
  | .data b bs :: r' => simp [Reader.pending] at h

namespace Buffer

theorem valid_length {b : Buffer} (h : b.nBytes ≤ b.buf.length) : b.valid.length = b.nBytes := by
  simp [valid, h]

/-- What `read_more` can do in a proper state: nothing because there is no room, nothing because the input has
ended, an I/O error, or a real read. -/
theorem readMore_cases (b : Buffer) (h : b.nBytes ≤ b.buf.length) :
    (b.nBytes = b.buf.length ∧ b.readMore = (b, .ok 0)) ∨
    (b.reader = [] ∧ b.readMore = (b, .ok 0)) ∨
    (∃ k r', b.nBytes < b.buf.length ∧ b.reader = .fail k :: r' ∧
      b.readMore = ({ b with reader := r' }, .err ⟨.io k, b.nBytes⟩)) ∨
    (∃ b' bs, b.readMore = (b', .ok bs.length) ∧ 0 < bs.length ∧ b'.valid = b.valid ++ bs ∧
      b'.nBytes = b.nBytes + bs.length ∧ b'.nBytes ≤ b'.buf.length ∧ b'.buf.length = b.buf.length ∧
      b.reader.pending = bs ++ b'.reader.pending ∧ b'.reader.size + bs.length = b.reader.size ∧
      (b.reader.Clean → b'.reader.Clean) ∧ b'.nShifted = b.nShifted ∧ b'.line = b.line ∧
      b'.column = b.column ∧ (∀ j, b'.nBytes ≤ j → b'.buf[j]? = b.buf[j]?)) := by
  have hno : ¬ b.buf.length < b.nBytes := by omega
  have heq : b.buf.take b.nBytes ++ [] ++ b.buf.drop (b.nBytes + 0) = b.buf := by simp
  unfold readMore
  rw [if_neg hno]
  rcases b.reader.read_cases (b.buf.length - b.nBytes) with ⟨h0, e⟩ | ⟨h0, hr, e⟩ | ⟨h0, k, r', hr, e⟩ |
    ⟨h0, r', bs, e, hb0, hb1, hp, hs, hc⟩
  · left
    rw [e]
    refine ⟨by omega, ?_⟩
    simp
  · right; left
    refine ⟨hr, ?_⟩
    rw [e]
    simp
    rw [← hr]
  · right; right; left
    exact ⟨k, r', by omega, hr, by rw [e]⟩
  · right; right; right
    rw [e]
    have hl : (b.buf.take b.nBytes ++ bs).length = b.nBytes + bs.length := by simp [h]
    refine ⟨_, bs, rfl, hb0, ?_, rfl, ?_, ?_, hp, hs, hc, rfl, rfl, rfl, ?_⟩
    · simp only [valid]
      rw [List.take_append_of_le_length (by omega), List.take_of_length_le (by omega)]
    · simp; omega
    · simp; omega
    · intro j hj
      simp only at hj ⊢
      rw [List.getElem?_append_right (by omega), List.getElem?_drop, hl]
      congr 1; omega

/-- The effect of `shift_buffer`, for `to_pos ≤ from_pos`. -/
theorem shift_spec (b : Buffer) (h : b.nBytes ≤ b.buf.length) {t f : Nat} (htf : t ≤ f) :
    (b.shift t f).valid = b.valid.take t ++ b.valid.drop f ∧
    (b.shift t f).nBytes = b.nBytes - (min f b.nBytes - t) ∧
    (b.shift t f).nShifted = b.nShifted + (min f b.nBytes - t) ∧
    (b.shift t f).buf.length = b.buf.length ∧
    (b.shift t f).nBytes ≤ (b.shift t f).buf.length ∧
    (b.shift t f).reader = b.reader ∧
    ((b.shift t f).line, (b.shift t f).column) =
      ((b.valid.take (min f b.nBytes)).drop t).foldl advance (b.line, b.column) := by
  have hv : b.valid.length = b.nBytes := valid_length h
  have hlc : (if t < min f b.nBytes then ((b.buf.take (min f b.nBytes)).drop t).foldl advance (b.line, b.column)
      else (b.line, b.column)) =
      ((b.valid.take (min f b.nBytes)).drop t).foldl advance (b.line, b.column) := by
    have e : b.valid.take (min f b.nBytes) = b.buf.take (min f b.nBytes) := by
      rw [valid, List.take_take]; congr 1; omega
    rw [e]
    split
    · rfl
    · rw [List.drop_eq_nil_of_le (by simp; omega)]; rfl
  unfold shift
  simp only [hlc]
  by_cases hc : f > t ∧ t < b.nBytes
  · simp only [if_pos hc]
    by_cases hf : f < b.nBytes
    · simp only [if_pos hf]
      have hm : ((b.buf.take b.nBytes).drop f).length = b.nBytes - f := by simp [h]
      have hl : (b.buf.take t ++ (b.buf.take b.nBytes).drop f).length = b.nBytes - (min f b.nBytes - t) := by
        rw [List.length_append, hm, List.length_take]; omega
      refine ⟨?_, by trivial, by trivial, ?_, ?_, by trivial, by trivial⟩
      · simp only [valid]
        rw [List.take_append_of_le_length (by omega), List.take_of_length_le (by omega)]
        rw [List.take_take]; congr 2; omega
      · simp; omega
      · simp; omega
    · simp only [if_neg hf]
      refine ⟨?_, by trivial, by trivial, by trivial, by omega, by trivial, by trivial⟩
      rw [List.drop_eq_nil_of_le (by omega : b.valid.length ≤ f)]
      simp only [valid, List.append_nil]
      rw [List.take_take]; congr 1; omega
  · simp only [if_neg hc]
    refine ⟨?_, by omega, by omega, by trivial, h, by trivial, by trivial⟩
    have e : ({ b with
        line := (((b.valid.take (min f b.nBytes)).drop t).foldl advance (b.line, b.column)).1,
        column := (((b.valid.take (min f b.nBytes)).drop t).foldl advance (b.line, b.column)).2 } :
          Buffer).valid = b.valid := rfl
    rw [e]
    by_cases h1 : f > t
    · rw [List.take_of_length_le (by omega), List.drop_eq_nil_of_le (by omega)]; simp
    · rw [show f = t by omega, List.take_append_drop]

end Buffer

/-! ### Positions -/

/-- Position `k` in `b` is the same place of the stream as position `k0` in the earlier state `b0`, and
nothing of the stream from there on is lost or changed. -/
structure Frame (b0 b : Buffer) (k0 k : Nat) : Prop where
  ok : b.nBytes ≤ b.buf.length
  len : b.buf.length = b0.buf.length
  pos : k ≤ b.nBytes
  rest : b.valid.drop k ++ b.reader.pending = b0.valid.drop k0 ++ b0.reader.pending
  idx : b.nShifted + k = b0.nShifted + k0
  size : b.reader.size ≤ b0.reader.size
  total : b.nShifted + b.nBytes + b.reader.size ≤ b0.nShifted + b0.nBytes + b0.reader.size
  clean : b0.reader.Clean → b.reader.Clean

theorem Frame.refl {b : Buffer} (h : b.nBytes ≤ b.buf.length) {k : Nat} (hk : k ≤ b.nBytes) :
    Frame b b k k := ⟨h, rfl, hk, rfl, rfl, Nat.le_refl _, Nat.le_refl _, id⟩

theorem Frame.trans {a b c : Buffer} {i j k : Nat} (h1 : Frame a b i j) (h2 : Frame b c j k) :
    Frame a c i k :=
  ⟨h2.ok, h2.len.trans h1.len, h2.pos, h2.rest.trans h1.rest, h2.idx.trans h1.idx,
    Nat.le_trans h2.size h1.size, Nat.le_trans h2.total h1.total, h2.clean ∘ h1.clean⟩

/-- A frame at `k` is also a frame at every later position still in the buffer. -/
theorem Frame.add {a b : Buffer} {i k : Nat} (h : Frame a b i k) {n : Nat} (hn : k + n ≤ b.nBytes)
    (hi : i + n ≤ a.valid.length) : Frame a b (i + n) (k + n) := by
  refine ⟨h.ok, h.len, hn, ?_, ?_, h.size, h.total, h.clean⟩
  · have := congrArg (List.drop n) h.rest
    rw [List.drop_append_of_le_length (by simp [Buffer.valid_length h.ok]; omega),
      List.drop_append_of_le_length (by simp; omega), List.drop_drop, List.drop_drop] at this
    exact this
  · have := h.idx; omega

theorem Frame.shift0 {b : Buffer} (h : b.nBytes ≤ b.buf.length) {k : Nat} (hk : k ≤ b.nBytes) :
    Frame b (b.shift 0 k) k 0 := by
  obtain ⟨h1, h2, h3, h4, h5, h6, _⟩ := b.shift_spec h (Nat.zero_le k)
  refine ⟨h5, h4, Nat.zero_le _, ?_, by omega, by rw [h6]; exact Nat.le_refl _,
    by rw [h6]; omega, by rw [h6]; exact id⟩
  rw [h1, h6]; simp

theorem Frame.shift {b : Buffer} (h : b.nBytes ≤ b.buf.length) {t k : Nat} (ht : t ≤ k)
    (hk : k ≤ b.nBytes) : Frame b (b.shift t k) k t := by
  obtain ⟨h1, h2, h3, h4, h5, h6, _⟩ := b.shift_spec h ht
  refine ⟨h5, h4, by omega, ?_, by omega, by rw [h6]; exact Nat.le_refl _,
    by rw [h6]; omega, by rw [h6]; exact id⟩
  rw [h1, h6, List.drop_append_of_le_length (by simp [Buffer.valid_length h]; omega)]
  simp

/-- `read_more` keeps every position. -/
theorem Frame.readMore {b : Buffer} (h : b.nBytes ≤ b.buf.length) {k : Nat} (hk : k ≤ b.nBytes) :
    Frame b b.readMore.1 k k := by
  rcases b.readMore_cases h with ⟨_, e⟩ | ⟨_, e⟩ | ⟨q, r', _, hr, e⟩ |
    ⟨b', bs, e, hb, hv, hn, ho, hl, hp, hs, hc, hsh, _⟩
  · rw [e]; exact .refl h hk
  · rw [e]; exact .refl h hk
  · rw [e]
    refine ⟨h, rfl, hk, ?_, rfl, ?_, ?_, ?_⟩
    · simp only [Buffer.valid, hr, Reader.pending]
    · simp only [hr, Reader.size]; omega
    · simp only [hr, Reader.size]; omega
    · simp [hr, Reader.Clean]
  · rw [e]
    show Frame b b' k k
    refine ⟨ho, hl, by omega, ?_, by omega, by omega, by omega, hc⟩
    rw [hv, List.drop_append_of_le_length (by rw [Buffer.valid_length h]; omega), hp]
    simp

end Verif.RJiter
