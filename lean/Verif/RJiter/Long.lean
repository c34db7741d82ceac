import Verif.RJiter.StrLemmas
import Verif.RJiter.Sound

/-!
# `handle_long`: what holds for every stream
-/

namespace Verif.RJiter

open Buffer RJ Jiter

theorem RJ.Kind.parser_prefix (k : Kind) : PrefixFn k.parser := by
  cases k
  · exact knownBytes_prefix
  · exact knownStr_prefix

/-- The string functions do not move when they fail. -/
theorem RJ.Kind.parser_error (k : Kind) {d : Bytes} {n : Nat} {e : JErr} (h : k.parser d = (n, .error e)) : n = 0 := by
  cases k
  · simp only [Kind.parser, Jiter.knownBytes] at h
    split at h
    · simp only [jerr, Prod.mk.injEq] at h; exact h.1.symm
    · simp at h
  · simp only [Kind.parser, Jiter.knownStr] at h
    split at h
    · simp only [jerr, Prod.mk.injEq] at h; exact h.1.symm
    · simp at h

theorem backToLeading_le (buf : Bytes) (n : Nat) : backToLeading buf n ≤ n := by
  induction n with
  | zero => exact Nat.le_refl _
  | succ n ih => simp only [backToLeading]; split <;> omega

theorem findIdx?_lt {p : Byte → Bool} {l : Bytes} {i : Nat} (h : l.findIdx? p = some i) : i < l.length := by
  rw [List.findIdx?_eq_some_iff_getElem] at h
  exact h.1

/-- The segment ends inside the valid bytes, or right behind them if the buffer starts with an escape. -/
theorem segmentEnd_le {b : Buffer} (h : b.nBytes ≤ b.buf.length) :
    segmentEnd b ≤ b.nBytes ∧ (segmentEnd b < b.nBytes ∨ segmentEnd b ≤ 7) := by
  unfold segmentEnd
  split
  · split <;> omega
  · rename_i bs heq
    have := findIdx?_lt heq
    rw [valid_length h] at this
    split
    · omega
    · split
      · omega
      · split
        · split
          · omega
          · split <;> omega
        · omega

theorem writeSegment_res (k : Kind) (buf : Bytes) (e i : Nat) (w : Writer) :
    (∃ w', writeSegment k buf e i w = (w', .ok ())) ∨ (∃ w' er, writeSegment k buf e i w = (w', .err er)) := by
  cases k
  · simp only [writeSegment]
    rcases w.writeAll ((buf.take e).drop 1) with ⟨w', b⟩
    cases b
    rotate_left
    · right; exact ⟨_, _, rfl⟩
    · left; exact ⟨_, rfl⟩
  · simp only [writeSegment]
    rcases Jiter.knownStr (buf.take e ++ [34]) with ⟨n, r⟩
    cases r with
    | error er => right; exact ⟨_, _, rfl⟩
    | ok v =>
      simp only
      rcases w.writeAll v with ⟨w', b⟩
      cases b
      rotate_left
      · right; exact ⟨_, _, rfl⟩
      · left; exact ⟨_, rfl⟩

/-- The buffer while `handle_long` runs: the byte at the start of the string, then the stream behind the `m`
bytes that were written. -/
structure LongInv (s0 : RJ) (s : RJ) (m : Nat) : Prop where
  ok : s.b.nBytes ≤ s.b.buf.length
  len : s.b.buf.length = s0.b.buf.length
  jlen : s.jlen = s.b.nBytes
  jidx : s.jidx = 0
  rest : s.b.rest 0 = s0.rest.take 1 ++ s0.rest.drop (1 + m)
  enough : 0 < m → 1 + m ≤ s0.rest.length ∧ 1 ≤ s.b.nBytes
  shifted : s.b.nShifted = s0.currentIndex + m
  size : s.b.reader.size ≤ s0.b.reader.size
  clean : s0.b.reader.Clean → s.b.reader.Clean

/-- A frame that puts the position to the start of the buffer. -/
theorem LongInv.ofFrame {s0 s : RJ} (hf : Frame s0.b s.b s0.jidx 0) (hl : s.jlen = s.b.nBytes) (hj : s.jidx = 0) :
    LongInv s0 s 0 := by
  have := hf.idx
  refine ⟨hf.ok, hf.len, hl, hj, ?_, by omega, ?_, hf.size, hf.clean⟩
  · rw [show s.b.rest 0 = s0.rest from hf.rest, Nat.add_zero, List.take_append_drop]
  · simp only [currentIndex]; omega

/-- Writing the segment `1 .. seg`. -/
theorem LongInv.shift {s0 s : RJ} {m seg : Nat} (h : LongInv s0 s m) (h1 : 1 < seg) (h2 : seg ≤ s.b.nBytes) :
    LongInv s0 { s with b := s.b.shift 1 seg, jlen := (s.b.shift 1 seg).nBytes } (m + (seg - 1)) := by
  have hf : Frame s.b (s.b.shift 1 seg) seg 1 := .shift h.ok (by omega) h2
  obtain ⟨e1, e2, e3, e4, e5, e6, _⟩ := s.b.shift_spec h.ok (t := 1) (f := seg) (by omega)
  have hlen := congrArg List.length h.rest
  rw [rest_length _ h.ok] at hlen
  simp only [List.length_append, List.length_take, List.length_drop] at hlen
  have hr : (s.b.rest 0).drop seg = s0.rest.drop (1 + (m + (seg - 1))) := by
    rw [h.rest, List.drop_append, List.length_take]
    by_cases hs : s0.rest.length = 0
    · have : s0.rest = [] := List.length_eq_zero_iff.mp hs
      rw [this]; simp
    · rw [Nat.min_eq_left (by omega), List.drop_eq_nil_of_le (by simp; omega), List.nil_append, List.drop_drop]
      congr 1; omega
  refine ⟨hf.ok, hf.len.trans h.len, rfl, h.jidx, ?_, ?_, ?_, Nat.le_trans hf.size h.size, fun hc => hf.clean (h.clean hc)⟩
  · show (s.b.shift 1 seg).rest 0 = _
    rw [Buffer.rest, List.drop_zero, e1, e6, List.append_assoc]
    have t1 : s.b.valid.take 1 = s0.rest.take 1 := by
      have := congrArg (List.take 1) h.rest
      rw [Buffer.rest, List.drop_zero, List.take_append_of_le_length (by rw [valid_length h.ok]; omega)] at this
      rw [this, List.take_append, List.take_take, List.length_take, Nat.min_self]
      have : 1 ≤ s0.rest.length := by omega
      rw [Nat.min_eq_left this]; simp
    rw [t1, ← hr, Buffer.rest, List.drop_zero, List.drop_append_of_le_length (by rw [valid_length h.ok]; omega)]
  · intro _
    refine ⟨by omega, ?_⟩
    show 1 ≤ (s.b.shift 1 seg).nBytes
    rw [e2, Nat.min_eq_left h2]; omega
  · show (s.b.shift 1 seg).nShifted = _
    rw [e3, Nat.min_eq_left h2, h.shifted]; omega

theorem LongInv.read {s0 s : RJ} {m : Nat} (h : LongInv s0 s m) :
    LongInv s0 ({ s with b := s.b.readMore.1 } : RJ).refresh m := by
  have hf : Frame s.b s.b.readMore.1 0 0 := .readMore h.ok (Nat.zero_le _)
  have hi := hf.idx
  have hs := h.shifted
  refine ⟨hf.ok, hf.len.trans h.len, rfl, rfl, ?_, ?_, ?_, Nat.le_trans hf.size h.size, fun hc => hf.clean (h.clean hc)⟩
  · rw [← h.rest]; exact hf.rest
  · intro hm
    refine ⟨(h.enough hm).1, ?_⟩
    have hf1 : Frame s.b s.b.readMore.1 1 1 := .readMore h.ok (h.enough hm).2
    exact hf1.pos
  · show s.b.readMore.1.nShifted = _
    omega

/-- A success of the parser on the buffer. -/
theorem LongInv.moved {s0 s : RJ} {m n : Nat} (h : LongInv s0 s m) (hn : 2 ≤ n) (hle : n ≤ s.b.nBytes) :
    s0.Moved { s with jidx := s.jidx + n } (m + n) := by
  have hlen := congrArg List.length h.rest
  rw [rest_length _ h.ok] at hlen
  simp only [List.length_append, List.length_take, List.length_drop] at hlen
  have hj := h.jidx
  refine ⟨⟨h.ok, h.jlen, by simp only; omega⟩, by omega, ?_, ?_, h.len, h.size, h.clean⟩
  · show s.b.rest (s.jidx + n) = _
    have : s.b.rest n = (s.b.rest 0).drop n := by
      rw [Buffer.rest, Buffer.rest, List.drop_zero, List.drop_append_of_le_length (by rw [valid_length h.ok]; omega)]
    rw [hj, Nat.zero_add, this, h.rest, List.drop_append, List.length_take, Nat.min_eq_left (by omega),
      List.drop_eq_nil_of_le (by simp; omega), List.nil_append, List.drop_drop]
    congr 1; omega
  · have := h.shifted
    simp only [currentIndex] at *; omega

/-- What `handle_long` may return, for any stream: a success is a move forward; it always returns; it panics
only if the segment ends outside the buffer. -/
def LongRes (s0 : RJ) (x : (RJ × Writer) × Res Unit) : Prop :=
  (∃ s' w' n, x = ((s', w'), .ok ()) ∧ s0.Moved s' n) ∨
  (∃ s' w' e, x = ((s', w'), .err e)) ∨
  (∃ s' w', x = ((s', w'), .panic) ∧ s0.b.buf.length < 8)

/-- One round of `handle_long` behind a failed parser call, from a state whose string starts the buffer. -/
def longRound (k : Kind) (fuel : Nat) (s2 : RJ) (e : JErr) (start : Nat) (w : Writer) : (RJ × Writer) × Res Unit :=
  if s2.b.buf.length ≤ segmentEnd s2.b then ((s2, w), .panic)
  else
    match (if backToLeading s2.b.buf (segmentEnd s2.b) > 1 then
        writeSegment k s2.b.buf (backToLeading s2.b.buf (segmentEnd s2.b)) s2.currentIndex w else (w, .ok ())) with
    | (w1, .ok ()) =>
      match (if backToLeading s2.b.buf (segmentEnd s2.b) > 1 then
          s2.b.shift 1 (backToLeading s2.b.buf (segmentEnd s2.b)) else s2.b).readMore with
      | (b4, .ok n) =>
        if n = 0 then
          (({ s2 with b := b4 }, w1),
            .err (.fromJiter ({ s2 with b := b4 } : RJ).currentIndex e.type (start + e.index)))
        else handleLong k fuel ({ s2 with b := b4 } : RJ).refresh w1
      | (b4, .err er) => (({ s2 with b := b4 }, w1), .err er)
      | (b4, .panic) => (({ s2 with b := b4 }, w1), .panic)
      | (b4, .diverge) => (({ s2 with b := b4 }, w1), .diverge)
    | (w1, .err er) => ((s2, w1), .err er)
    | (w1, .panic) => ((s2, w1), .panic)
    | (w1, .diverge) => ((s2, w1), .diverge)

theorem handleLong_succ (k : Kind) (fuel : Nat) (s : RJ) (w : Writer) :
    handleLong k (fuel + 1) s w =
      match k.parser s.jdata with
      | (n, .ok v) =>
        match w.writeAll v with
        | (w1, none) => (({ s with jidx := s.jidx + n }, w1), .ok ())
        | (w1, some kind) => (({ s with jidx := s.jidx + n }, w1), .err ⟨.io kind, ({ s with jidx := s.jidx + n } : RJ).currentIndex⟩)
      | (n, .error e) =>
        if !canRetry e.type then (({ s with jidx := s.jidx + n }, w), .err (({ s with jidx := s.jidx + n } : RJ).mkErr s.jidx e))
        else
          longRound k fuel (if s.jidx + n > 0 then
            ({ s with b := s.b.shift 0 (s.jidx + n), jidx := s.jidx + n } : RJ).refresh else { s with jidx := s.jidx + n }) e s.jidx w := by
  simp only [handleLong, call]
  rcases k.parser s.jdata with ⟨n, r⟩
  cases r with
  | ok v => rfl
  | error e => rfl

theorem handleLong_sound (k : Kind) (s0 : RJ) : ∀ (fuel : Nat) (s : RJ) (w : Writer),
    ((s = s0 ∧ s0.Sync) ∨ ∃ m, LongInv s0 s m) → s.b.reader.size < fuel → LongRes s0 (handleLong k fuel s w) := by
  intro fuel
  induction fuel with
  | zero => intro s w _ h; omega
  | succ fuel ih =>
    intro s w hs hfuel
    have hsync : s.Sync := by
      rcases hs with ⟨rfl, h⟩ | ⟨m, h⟩
      · exact h
      · exact ⟨h.ok, h.jlen, by rw [h.jidx]; exact Nat.zero_le _⟩
    rw [handleLong_succ]
    rcases hp : k.parser s.jdata with ⟨n, r⟩
    cases r with
    | ok v =>
      simp only
      obtain ⟨h2, hle, _⟩ := k.parser_prefix _ _ _ hp
      rw [jdata_length hsync] at hle
      have hm : ∃ q, s0.Moved { s with jidx := s.jidx + n } q := by
        rcases hs with ⟨rfl, h⟩ | ⟨m, h⟩
        · exact ⟨n, Moved.inside h (by have := h.idx; omega)⟩
        · exact ⟨m + n, h.moved h2 (by omega)⟩
      obtain ⟨q, hq⟩ := hm
      rcases w.writeAll v with ⟨w1, b⟩
      cases b
      rotate_left
      · right; left; exact ⟨_, _, _, rfl⟩
      · left; exact ⟨_, _, q, rfl, hq⟩
    | error e =>
      have hn := k.parser_error hp
      subst hn
      simp only [Nat.add_zero]
      by_cases hr : (!canRetry e.type) = true
      · rw [if_pos hr]
        right; left; exact ⟨_, _, _, rfl⟩
      · rw [if_neg hr]
        -- the string is at the start of the buffer
        have hinv : ∃ m, LongInv s0 (if s.jidx > 0 then ({ s with b := s.b.shift 0 s.jidx, jidx := s.jidx } : RJ).refresh
            else { s with jidx := s.jidx }) m := by
          rcases hs with ⟨rfl, h⟩ | ⟨m, h⟩
          · by_cases h0 : s.jidx > 0
            · rw [if_pos h0]
              exact ⟨0, LongInv.ofFrame (s := ({ s with b := s.b.shift 0 s.jidx, jidx := s.jidx } : RJ).refresh)
                (Frame.shift0 h.ok h.idx) rfl rfl⟩
            · rw [if_neg h0]
              refine ⟨0, LongInv.ofFrame (s := { s with jidx := s.jidx }) ?_ h.len (by show s.jidx = 0; omega)⟩
              have : Frame s.b s.b s.jidx s.jidx := Frame.refl h.ok h.idx
              rwa [show s.jidx = 0 by omega] at this ⊢
          · rw [if_neg (by rw [h.jidx]; omega)]
            exact ⟨m, h⟩
        have hsz : (if s.jidx > 0 then ({ s with b := s.b.shift 0 s.jidx, jidx := s.jidx } : RJ).refresh
            else { s with jidx := s.jidx }).b.reader.size < fuel + 1 := by
          split
          · show (s.b.shift 0 s.jidx).reader.size < _
            rw [(s.b.shift_spec hsync.ok (Nat.zero_le _)).2.2.2.2.2.1]; exact hfuel
          · exact hfuel
        revert hinv hsz
        generalize (if s.jidx > 0 then ({ s with b := s.b.shift 0 s.jidx, jidx := s.jidx } : RJ).refresh
            else { s with jidx := s.jidx }) = s2
        intro ⟨m, hinv⟩ hsz
        unfold longRound
        have hseg := segmentEnd_le hinv.ok
        by_cases hpan : s2.b.buf.length ≤ segmentEnd s2.b
        · rw [if_pos hpan]
          right; right
          refine ⟨_, _, rfl, ?_⟩
          have := hinv.ok
          rw [← hinv.len]; omega
        · rw [if_neg hpan]
          have hbl := backToLeading_le s2.b.buf (segmentEnd s2.b)
          generalize backToLeading s2.b.buf (segmentEnd s2.b) = seg at hbl
          -- write
          have hw : (∃ w', (if seg > 1 then writeSegment k s2.b.buf seg s2.currentIndex w else (w, .ok ())) = (w', .ok ())) ∨
              (∃ w' er, (if seg > 1 then writeSegment k s2.b.buf seg s2.currentIndex w else (w, .ok ())) = (w', .err er)) := by
            by_cases h1 : seg > 1
            · rw [if_pos h1]; exact writeSegment_res _ _ _ _ _
            · rw [if_neg h1]; left; exact ⟨_, rfl⟩
          rcases hw with ⟨w1, e1⟩ | ⟨w1, er, e1⟩
          · rw [e1]
            simp only
            have hinv3 : ∃ m', LongInv s0 ⟨if seg > 1 then s2.b.shift 1 seg else s2.b,
                (if seg > 1 then s2.b.shift 1 seg else s2.b).nBytes, s2.jidx⟩ m' := by
              by_cases h1 : seg > 1
              · rw [if_pos h1]; exact ⟨_, hinv.shift h1 (by omega)⟩
              · rw [if_neg h1, ← hinv.jlen]; exact ⟨m, hinv⟩
            have hsz3 : (if seg > 1 then s2.b.shift 1 seg else s2.b).reader.size < fuel + 1 := by
              split
              · rw [(s2.b.shift_spec hinv.ok (by omega)).2.2.2.2.2.1]; exact hsz
              · exact hsz
            revert hinv3 hsz3
            generalize (if seg > 1 then s2.b.shift 1 seg else s2.b) = b3
            intro ⟨m', hinv3⟩ hsz3
            have hrd := hinv3.read
            rcases b3.readMore_cases hinv3.ok with ⟨_, e⟩ | ⟨_, e⟩ | ⟨q, r', hlt, hr, e⟩ |
              ⟨b', bs, e, hb, hv, hn, ho, hl', hp, hs', hcl, _⟩
            · rw [e]; simp only [if_true]; right; left; exact ⟨_, _, _, rfl⟩
            · rw [e]; simp only [if_true]; right; left; exact ⟨_, _, _, rfl⟩
            · rw [e]; right; left; exact ⟨_, _, _, rfl⟩
            · simp only [e] at hrd ⊢
              rw [if_neg (by omega)]
              exact ih _ _ (.inr ⟨m', hrd⟩) (by show b'.reader.size < fuel; omega)
          · rw [e1]
            right; left; exact ⟨_, _, _, rfl⟩

end Verif.RJiter
