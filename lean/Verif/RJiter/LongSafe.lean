import Verif.RJiter.LongDone

/-!
# When no stale continuation byte can get in the way of `handle_long`
-/

namespace Verif.RJiter

open Buffer RJ Jiter

/-- The reader delivers all it has in one read, if there is room (like a slice or a memory buffer). -/
def Reader.OneChunk : Reader → Prop
  | [] => True
  | [.data _ _] => True
  | _ => False

theorem Reader.OneChunk.read {r : Reader} (h : r.OneChunk) {room : Nat} {r' : Reader} {bs : Bytes}
    (hr : r.read room = (r', .ok bs)) : r'.OneChunk ∧ (r'.pending = [] ∨ bs.length = room) := by
  unfold Reader.read at hr
  by_cases h0 : room = 0
  · rw [if_pos h0] at hr
    simp only [Prod.mk.injEq, Except.ok.injEq] at hr
    obtain ⟨rfl, rfl⟩ := hr
    exact ⟨h, .inr h0.symm⟩
  · rw [if_neg h0] at hr
    match r, h with
    | [], _ =>
      simp only [Prod.mk.injEq, Except.ok.injEq] at hr
      obtain ⟨rfl, rfl⟩ := hr
      exact ⟨trivial, .inl rfl⟩
    | [.data b bs0], _ =>
      simp only at hr
      cases hd : bs0.drop (room - 1) with
      | nil =>
        rw [hd] at hr
        simp only [Prod.mk.injEq, Except.ok.injEq] at hr
        obtain ⟨rfl, rfl⟩ := hr
        exact ⟨trivial, .inl rfl⟩
      | cons c cs =>
        rw [hd] at hr
        simp only [Prod.mk.injEq, Except.ok.injEq] at hr
        obtain ⟨rfl, rfl⟩ := hr
        refine ⟨trivial, .inr ?_⟩
        have := congrArg List.length hd
        simp only [List.length_drop, List.length_cons] at this
        simp only [List.length_cons, List.length_take]
        omega

theorem Reader.OneChunk.clean {r : Reader} (h : r.OneChunk) : r.Clean := by
  match r, h with
  | [], _ => trivial
  | [.data _ _], _ => trivial

theorem readMore_oneChunk {b : Buffer} (hok : b.nBytes ≤ b.buf.length) (h : b.reader.OneChunk) {b' : Buffer} {n : Nat}
    (hr : b.readMore = (b', .ok n)) :
    b'.reader.OneChunk ∧ b'.buf.length = b.buf.length ∧ (b'.reader.pending = [] ∨ b'.nBytes = b'.buf.length) := by
  have hl : b'.buf.length = b.buf.length := by
    have := (Frame.readMore hok (Nat.zero_le _)).len
    rw [hr] at this; exact this
  unfold Buffer.readMore at hr
  rw [if_neg (by omega)] at hr
  rcases hrd : b.reader.read (b.buf.length - b.nBytes) with ⟨r', res⟩
  rw [hrd] at hr
  cases res with
  | error k => simp at hr
  | ok bs =>
    simp only [Prod.mk.injEq, Res.ok.injEq] at hr
    obtain ⟨rfl, _⟩ := hr
    obtain ⟨h1, h2⟩ := h.read hrd
    refine ⟨h1, hl, ?_⟩
    rcases h2 with h2 | h2
    · exact .inl h2
    · right
      show b.nBytes + bs.length = _
      rw [hl]; omega

/-- Everything in the buffer and still to come satisfies `Q`. -/
def AllBytes (Q : Byte → Prop) (b : Buffer) : Prop := (∀ c ∈ b.buf, Q c) ∧ ∀ c ∈ b.reader.pending, Q c

theorem shift_reader (b : Buffer) (t f : Nat) : (b.shift t f).reader = b.reader := by
  unfold Buffer.shift
  simp only
  split
  · split <;> rfl
  · rfl

theorem AllBytes.shift {Q : Byte → Prop} {b : Buffer} (h : AllBytes Q b) (t f : Nat) : AllBytes Q (b.shift t f) := by
  refine ⟨?_, by rw [shift_reader]; exact h.2⟩
  unfold Buffer.shift
  simp only
  split
  · split
    · simp only
      intro c hc
      simp only [List.mem_append] at hc
      rcases hc with (hc | hc) | hc
      · exact h.1 c (List.mem_of_mem_take hc)
      · exact h.1 c (List.mem_of_mem_take (List.mem_of_mem_drop hc))
      · exact h.1 c (List.mem_of_mem_drop hc)
    · exact h.1
  · exact h.1

theorem AllBytes.readMore {Q : Byte → Prop} {b : Buffer} (h : AllBytes Q b) (hok : b.nBytes ≤ b.buf.length) :
    AllBytes Q b.readMore.1 := by
  have hp := (Frame.readMore hok (Nat.le_refl _)).rest
  unfold Buffer.readMore at hp ⊢
  rw [if_neg (by omega)] at hp ⊢
  rcases hrd : b.reader.read (b.buf.length - b.nBytes) with ⟨r', res⟩
  rw [hrd] at hp
  cases res with
  | error k =>
    refine ⟨h.1, ?_⟩
    simp only [List.append_cancel_left_eq, Buffer.valid] at hp
    intro c hc
    have hc' : c ∈ r'.pending := hc
    rw [hp] at hc'
    exact h.2 c hc'
  | ok bs =>
    simp only [Buffer.valid] at hp
    rw [List.drop_eq_nil_of_le (as := b.buf.take b.nBytes) (by simp; omega), List.nil_append] at hp
    have hl : (b.buf.take b.nBytes).length = b.nBytes := by simp [hok]
    rw [List.append_assoc, List.take_append, hl, List.drop_append, List.length_take, hl,
      List.take_take, Nat.min_eq_right (by omega),
      Nat.sub_self, List.drop_zero, Nat.add_sub_cancel_left, List.take_left, List.drop_eq_nil_of_le (by simp; omega),
      List.nil_append] at hp
    refine ⟨?_, ?_⟩
    · intro c hc
      simp only [List.mem_append] at hc
      rcases hc with (hc | hc) | hc
      · exact h.1 c (List.mem_of_mem_take hc)
      · apply h.2; rw [← hp]; exact List.mem_append_left _ hc
      · exact h.1 c (List.mem_of_mem_drop hc)
    · intro c hc
      apply h.2; rw [← hp]; exact List.mem_append_right _ hc

/-- Sufficient conditions on the state and the body under which `handle_long` is not confused by a byte left over
behind the valid ones:
* there is no escape in the body; or
* all bytes in the working buffer and still to come are ASCII; or
* the reader delivers as much as fits; and, should 3 or 7 unread bytes be in the buffer, the byte at place 3 or 7
  of the buffer is not a UTF-8 continuation byte. -/
def StaleSafe (s : RJ) (body : Bytes) : Prop :=
  92 ∉ body ∨
  ((∀ c ∈ s.b.buf, c.toNat < 0x80) ∧ ∀ c ∈ s.rest, c.toNat < 0x80) ∨
  (s.b.reader.OneChunk ∧ (s.b.nBytes - s.jidx = 3 ∨ s.b.nBytes - s.jidx = 7 →
    ∀ c, s.b.buf[s.b.nBytes - s.jidx]? = some c → c.toNat < 0x80 ∨ 0xC0 ≤ c.toNat))

theorem shift0_getElem? {b : Buffer} (hok : b.nBytes ≤ b.buf.length) {k j : Nat}
    (hj : b.nBytes - k ≤ j) : (b.shift 0 k).buf[j]? = b.buf[j]? := by
  unfold Buffer.shift
  simp only
  by_cases hc : k > 0 ∧ 0 < b.nBytes
  · rw [if_pos hc]
    by_cases hf : k < b.nBytes
    · rw [if_pos hf]
      simp only [List.take_zero, List.nil_append]
      rw [List.getElem?_append_right (by simp; omega), List.getElem?_drop]
      congr 1
      simp only [List.length_drop, List.length_take]
      omega
    · rw [if_neg hf]
  · rw [if_neg hc]

/-- The invariant of the loop in each of the three cases. -/
theorem StaleSafe.inv {s : RJ} {body : Bytes} (hsafe : StaleSafe s body) (h : s.Sync) (hlen : 8 ≤ s.b.buf.length) :
    ∃ (P : Prop) (J : Buffer → Prop),
      (∀ b seg b' n, J b → b.nBytes ≤ b.buf.length → seg ≤ b.nBytes → 8 ≤ b.buf.length →
        (if seg > 1 then b.shift 1 seg else b).readMore = (b', .ok n) → n ≠ 0 → J b') ∧
      (P → ∀ b, J b → b.reader.pending ≠ [] → b.nBytes = 3 ∨ b.nBytes = 7 → leadAt b.buf b.nBytes = true) ∧
      (92 ∈ body → P) ∧ J (startBuf s) := by
  rcases hsafe with hno | ⟨hbuf, hrest⟩ | ⟨hone, hst⟩
  · exact ⟨False, fun _ => True, fun _ _ _ _ _ _ _ _ _ _ => trivial, fun h => h.elim, fun h => hno h, trivial⟩
  · refine ⟨True, fun b => 8 ≤ b.buf.length ∧ AllBytes (fun c => isLeading c = true) b, ?_, ?_, fun _ => trivial, ?_⟩
    · intro b seg b' n ⟨hl8, hJ⟩ hok hseg hl hrm hn
      have h3 : AllBytes (fun c => isLeading c = true) (if seg > 1 then b.shift 1 seg else b) := by
        split
        · exact hJ.shift 1 seg
        · exact hJ
      have hok3 : (if seg > 1 then b.shift 1 seg else b).nBytes ≤ (if seg > 1 then b.shift 1 seg else b).buf.length := by
        split
        · exact (b.shift_spec hok (by omega)).2.2.2.2.1
        · exact hok
      have := h3.readMore hok3
      have hl4 := (Frame.readMore hok3 (Nat.zero_le _)).len
      rw [hrm] at this hl4
      refine ⟨?_, this⟩
      have hl3 : (if seg > 1 then b.shift 1 seg else b).buf.length = b.buf.length := by
        split
        · exact (b.shift_spec hok (by omega)).2.2.2.1
        · rfl
      rw [show b'.buf.length = _ from hl4, hl3]
      exact hl8
    · intro _ b ⟨hl8, hJ⟩ _ hn
      unfold leadAt
      cases hb : b.buf[b.nBytes]? with
      | none =>
        rw [List.getElem?_eq_none_iff] at hb
        omega
      | some c => simp [hJ.1 c (List.mem_of_getElem? hb)]
    · have hall : AllBytes (fun c => isLeading c = true) s.b :=
        ⟨fun c hc => isLeading_small (hbuf c hc), fun c hc => isLeading_small (hrest c (by
          rw [RJ.rest, Buffer.rest]; exact List.mem_append_right _ hc))⟩
      unfold startBuf
      split
      · exact ⟨by rw [(s.b.shift_spec h.ok (Nat.zero_le _)).2.2.2.1]; exact hlen, hall.shift 0 _⟩
      · exact ⟨hlen, hall⟩
  · refine ⟨True, fun b => b.reader.OneChunk ∧ 8 ≤ b.buf.length ∧
        (b.reader.pending = [] ∨ b.nBytes = b.buf.length ∨ (b.nBytes = 3 ∨ b.nBytes = 7 → leadAt b.buf b.nBytes = true)),
      ?_, ?_, fun _ => trivial, ?_⟩
    · intro b seg b' n ⟨hJ, _⟩ hok hseg hl hrm hn
      have h3 : (if seg > 1 then b.shift 1 seg else b).reader.OneChunk ∧
          (if seg > 1 then b.shift 1 seg else b).nBytes ≤ (if seg > 1 then b.shift 1 seg else b).buf.length ∧
          (if seg > 1 then b.shift 1 seg else b).buf.length = b.buf.length := by
        split
        · rename_i h1
          obtain ⟨_, _, _, e4, e5, e6, _⟩ := b.shift_spec hok (t := 1) (f := seg) (by omega)
          rw [e6]
          exact ⟨hJ, e5, e4⟩
        · exact ⟨hJ, hok, rfl⟩
      obtain ⟨h4, h5, h6⟩ := readMore_oneChunk h3.2.1 h3.1 hrm
      refine ⟨h4, by omega, ?_⟩
      rcases h6 with h6 | h6
      · exact .inl h6
      · exact .inr (.inl h6)
    · intro _ b ⟨_, h1, h2⟩ hp hn
      rcases h2 with h2 | h2 | h2
      · exact absurd h2 hp
      · omega
      · exact h2 hn
    · obtain ⟨_, e2, _, e4, e5, e6, _⟩ := s.b.shift_spec h.ok (t := 0) (f := s.jidx) (by omega)
      have key : ∀ c, s.b.buf[s.b.nBytes - s.jidx]? = some c → c.toNat < 0x80 ∨ 0xC0 ≤ c.toNat →
          leadAt s.b.buf (s.b.nBytes - s.jidx) = true := by
        intro c hc h1
        unfold leadAt
        rw [hc]
        simp [(isLeading_iff c).mpr h1]
      have hbnd : s.b.nBytes - s.jidx = 3 ∨ s.b.nBytes - s.jidx = 7 → leadAt s.b.buf (s.b.nBytes - s.jidx) = true := by
        intro hn
        have hlt : s.b.nBytes - s.jidx < s.b.buf.length := by omega
        exact key _ (List.getElem?_eq_getElem hlt) (hst hn _ (List.getElem?_eq_getElem hlt))
      unfold startBuf
      by_cases h0 : s.jidx > 0
      · rw [if_pos h0]
        refine ⟨by rw [e6]; exact hone, by rw [e4]; exact hlen, .inr (.inr ?_)⟩
        rw [e2, Nat.min_eq_left h.idx, Nat.sub_zero]
        intro hn
        have := hbnd hn
        unfold leadAt at this ⊢
        rw [shift0_getElem? h.ok (Nat.le_refl _)]
        exact this
      · rw [if_neg h0]
        refine ⟨hone, hlen, .inr (.inr ?_)⟩
        rw [show s.jidx = 0 by omega, Nat.sub_zero] at hbnd
        exact hbnd

theorem handleLong_safe (k : Kind) (s : RJ) (fuel : Nat) (w : Writer) (body v t : Bytes) (h : s.Sync)
    (hlen : 8 ≤ s.b.buf.length) (hcl : s.b.reader.Clean) (hr : s.rest = 34 :: (body ++ 34 :: t)) (hb : LongBody k body v)
    (hw : w.plan = []) (hf : s.b.reader.size < fuel) (hsafe : StaleSafe s body) :
    ∃ s', handleLong k fuel s w = ((s', { w with out := w.out ++ v }), .ok ()) ∧ s.Moved s' (body.length + 2) := by
  rw [show body.length + 2 = 0 + (body.length + 2) by omega]
  obtain ⟨P, J, h1, h2, h3, h4⟩ := hsafe.inv h hlen
  exact handleLong_complete k s t P J h1 h2 hlen hcl fuel s w 0 body v (.inl ⟨rfl, h, rfl⟩) hr hb h3 h4 hw hf

end Verif.RJiter
