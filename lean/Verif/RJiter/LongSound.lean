import Verif.RJiter.Long
import Verif.RJiter.StrSound

/-!
# What a success of `handle_long` means, for every stream
-/

namespace Verif.RJiter

open Buffer RJ Jiter

/-- What was written for the bytes that were consumed. -/
def WrittenFor : Kind → Bytes → Bytes → Prop
  | .raw, a, x => x = a
  | .str, a, x => Dec a x ∧ utf8Valid x = true

theorem WrittenFor.nil (k : Kind) : WrittenFor k [] [] := by
  cases k
  · rfl
  · exact ⟨.nil, rfl⟩

theorem WrittenFor.append {k : Kind} {a x b y : Bytes} (h1 : WrittenFor k a x) (h2 : WrittenFor k b y) :
    WrittenFor k (a ++ b) (x ++ y) := by
  cases k
  · rw [show x = a from h1, show y = b from h2]; rfl
  · exact ⟨h1.1.append h2.1, utf8Valid_append h1.2 h2.2⟩

theorem RJ.Kind.parser_ok (k : Kind) {d : Bytes} {n : Nat} {v : Bytes} (h : k.parser d = (n, .ok v)) :
    ∃ body t, d.drop 1 = body ++ 34 :: t ∧ n = body.length + 2 ∧ WrittenFor k body v := by
  cases k with
  | raw =>
    obtain ⟨t, h1, h2⟩ := knownBytes_ok h
    exact ⟨v, t, h1, h2, rfl⟩
  | str =>
    obtain ⟨body, t, h1, h2, h3, h4⟩ := knownStr_ok h
    exact ⟨body, t, h1, h2, h3, h4⟩

theorem Writer.writeAll_true {w w' : Writer} {v : Bytes} (h : w.writeAll v = (w', none)) : w'.out = w.out ++ v := by
  unfold Writer.writeAll at h
  split at h
  · simp only [Prod.mk.injEq, and_true] at h; rw [← h]
  · simp only [Prod.mk.injEq, and_true] at h; rw [← h]
  · simp at h

/-- A segment of an incomplete string. -/
theorem writeSegment_ok {k : Kind} {buf : Bytes} {e i : Nat} {w w' : Writer} {q : Byte} {x y : Bytes}
    (h : writeSegment k buf e i w = (w', .ok ())) (hb : buf.take e = q :: x)
    (hno : ∀ n v, k.parser (q :: (x ++ y)) ≠ (n, .ok v)) :
    ∃ v, w'.out = w.out ++ v ∧ WrittenFor k x v := by
  cases k with
  | raw =>
    simp only [writeSegment, hb, List.drop_succ_cons, List.drop_zero] at h
    rcases hw : w.writeAll x with ⟨w1, b⟩
    rw [hw] at h
    cases b
    rotate_left
    · simp at h
    · simp only [Prod.mk.injEq, and_true] at h
      subst h
      exact ⟨x, Writer.writeAll_true hw, rfl⟩
  | str =>
    simp only [writeSegment, hb, List.cons_append] at h
    rcases hk : Jiter.knownStr (q :: (x ++ [34])) with ⟨n, r⟩
    rw [hk] at h
    cases r with
    | error er => simp at h
    | ok v =>
      simp only at h
      rcases hw : w.writeAll v with ⟨w1, b⟩
      rw [hw] at h
      cases b
      rotate_left
      · simp at h
      · simp only [Prod.mk.injEq, and_true] at h
        subst h
        refine ⟨v, Writer.writeAll_true hw, ?_⟩
        obtain ⟨body, t, h1, h2, h3, h4⟩ := knownStr_ok hk
        simp only [List.drop_succ_cons, List.drop_zero] at h1
        -- the quote found is the one that was put there
        have hlen : x.length = body.length := by
          apply Classical.byContradiction
          intro hne
          have hl := congrArg List.length h1
          simp only [List.length_append, List.length_cons, List.length_nil] at hl
          have hlt : body.length < x.length := by omega
          have hx : x = body ++ 34 :: t.take (x.length - body.length - 1) := by
            have h5 := congrArg (List.take x.length) h1
            rw [List.take_left, List.take_append, List.take_of_length_le (by omega)] at h5
            obtain ⟨d, hd⟩ : ∃ d, x.length - body.length = d + 1 := ⟨x.length - body.length - 1, by omega⟩
            rw [hd, List.take_succ_cons] at h5
            rw [show x.length - body.length - 1 = d by omega]
            exact h5
          obtain ⟨s, rfl⟩ := utf8Valid_chars _ v (Nat.le_refl _) h4
          have hk2 := knownStr_body (h3.chars s rfl) q (t.take (x.length - body.length - 1) ++ y)
          apply hno _ _
          rw [hx, List.append_assoc, List.cons_append]
          exact hk2
        have hxb : x = body := by
          have h5 := congrArg (List.take x.length) h1
          rwa [List.take_left, hlen, List.take_left] at h5
        rw [hxb]
        exact ⟨h3, h4⟩

/-- The bytes consumed so far and what was written for them. -/
structure LongDone (k : Kind) (s0 : RJ) (w0 : Writer) (w : Writer) (m : Nat) : Prop where
  le : 0 < m → 1 + m ≤ s0.rest.length
  out : ∃ x, w.out = w0.out ++ x ∧ WrittenFor k ((s0.rest.drop 1).take m) x

theorem handleLong_ok (k : Kind) (s0 : RJ) (w0 : Writer) : ∀ (fuel : Nat) (s : RJ) (w : Writer) (m : Nat),
    ((s = s0 ∧ s0.Sync ∧ m = 0) ∨ LongInv s0 s m) → LongDone k s0 w0 w m → ∀ s' w', handleLong k fuel s w = ((s', w'), .ok ()) →
    ∃ q body t v, s0.rest = q :: (body ++ 34 :: t) ∧ s0.Moved s' (body.length + 2) ∧ w'.out = w0.out ++ v ∧
      WrittenFor k body v := by
  intro fuel
  induction fuel with
  | zero => intro s w m _ _ s' w' h; simp [handleLong] at h
  | succ fuel ih =>
    intro s w m hs hd s' w' hh
    have hsync : s.Sync := by
      rcases hs with ⟨rfl, h, _⟩ | h
      · exact h
      · exact ⟨h.ok, h.jlen, by rw [h.jidx]; exact Nat.zero_le _⟩
    have hsrest : s.rest = s0.rest.take 1 ++ s0.rest.drop (1 + m) := by
      rcases hs with ⟨rfl, h, rfl⟩ | h
      · rw [Nat.add_zero, List.take_append_drop]
      · rw [← h.rest, RJ.rest, h.jidx]
    have hjr : s.rest = s.jdata ++ s.b.reader.pending := rest_eq hsync
    rw [handleLong_succ] at hh
    rcases hp : k.parser s.jdata with ⟨n, r⟩
    rw [hp] at hh
    cases r with
    | ok v =>
      simp only at hh
      rcases hw : w.writeAll v with ⟨w1, b⟩
      rw [hw] at hh
      cases b
      rotate_left
      · simp at hh
      · simp only [Prod.mk.injEq, and_true] at hh
        obtain ⟨rfl, rfl⟩ := hh
        obtain ⟨h2, hle, _⟩ := k.parser_prefix _ _ _ hp
        rw [jdata_length hsync] at hle
        obtain ⟨body, t, hb, hn, hwf⟩ := k.parser_ok hp
        have hout := Writer.writeAll_true hw
        obtain ⟨x, hx, hxw⟩ := hd.out
        have hm : s0.Moved { s with jidx := s.jidx + n } (m + n) := by
          rcases hs with ⟨rfl, h, rfl⟩ | h
          · rw [Nat.zero_add]; exact Moved.inside h (by have := h.idx; omega)
          · exact h.moved h2 (by omega)
        have hjl := jdata_length hsync
        cases hj : s.jdata with
        | nil => rw [hj] at hjl; simp at hjl; omega
        | cons q jt =>
          rw [hj, List.drop_succ_cons, List.drop_zero] at hb
          -- the stream from the start
          have hrest1 : s.rest = q :: (body ++ 34 :: (t ++ s.b.reader.pending)) := by
            rw [hjr, hj, hb]; simp
          rw [hsrest] at hrest1
          cases hr0 : s0.rest with
          | nil => rw [hr0] at hrest1; simp at hrest1
          | cons q0 r0 =>
            rw [hr0] at hrest1 hxw
            simp only [List.take_succ_cons, List.take_zero, List.cons_append, List.nil_append, List.cons.injEq] at hrest1
            obtain ⟨rfl, h3⟩ := hrest1
            rw [show 1 + m = m + 1 by omega, List.drop_succ_cons] at h3
            rw [List.drop_succ_cons, List.drop_zero] at hxw
            refine ⟨q0, r0.take m ++ body, t ++ s.b.reader.pending, x ++ v, ?_, ?_, ?_, hxw.append hwf⟩
            · rw [List.append_assoc, ← h3, List.take_append_drop]
            · have : (r0.take m ++ body).length + 2 = m + n := by
                have hle2 := hd.le
                rw [hr0, List.length_cons] at hle2
                rw [List.length_append, List.length_take]
                omega
              rw [this]; exact hm
            · rw [hout, hx, List.append_assoc]
    | error e =>
      have hn := k.parser_error hp
      subst hn
      simp only [Nat.add_zero] at hh
      by_cases hr : (!canRetry e.type) = true
      · rw [if_pos hr] at hh; simp at hh
      · rw [if_neg hr] at hh
        -- the string is at the start of the buffer
        have hinv : LongInv s0 (if s.jidx > 0 then ({ s with b := s.b.shift 0 s.jidx, jidx := s.jidx } : RJ).refresh
            else { s with jidx := s.jidx }) m ∧ (if s.jidx > 0 then ({ s with b := s.b.shift 0 s.jidx, jidx := s.jidx } : RJ).refresh
            else { s with jidx := s.jidx }).b.valid = s.jdata := by
          by_cases h0 : s.jidx > 0
          · rw [if_pos h0]
            rcases hs with ⟨rfl, h, rfl⟩ | h
            · refine ⟨LongInv.ofFrame (s := ({ s with b := s.b.shift 0 s.jidx, jidx := s.jidx } : RJ).refresh)
                (Frame.shift0 h.ok h.idx) rfl rfl, ?_⟩
              show (s.b.shift 0 s.jidx).valid = _
              rw [(s.b.shift_spec h.ok (Nat.zero_le _)).1, jdata_eq h]
              rfl
            · have := h.jidx; omega
          · rw [if_neg h0]
            have hj0 : s.jidx = 0 := by omega
            refine ⟨?_, ?_⟩
            · rcases hs with ⟨rfl, h, rfl⟩ | h
              · refine LongInv.ofFrame (s := { s with jidx := s.jidx }) ?_ h.len hj0
                have : Frame s.b s.b s.jidx s.jidx := Frame.refl h.ok h.idx
                rwa [hj0] at this ⊢
              · exact h
            · show s.b.valid = _
              rw [jdata_eq hsync, hj0]; rfl
        revert hinv hh
        generalize (if s.jidx > 0 then ({ s with b := s.b.shift 0 s.jidx, jidx := s.jidx } : RJ).refresh
            else { s with jidx := s.jidx }) = s2
        intro hh ⟨hinv, hval⟩
        unfold longRound at hh
        have hseg := segmentEnd_le hinv.ok
        by_cases hpan : s2.b.buf.length ≤ segmentEnd s2.b
        · rw [if_pos hpan] at hh; simp at hh
        · rw [if_neg hpan] at hh
          have hbl := backToLeading_le s2.b.buf (segmentEnd s2.b)
          revert hh
          generalize backToLeading s2.b.buf (segmentEnd s2.b) = seg at hbl
          intro hh
          have hvl := valid_length hinv.ok
          -- the rest of the round
          have hgen : ∀ (b3 : Buffer) (m' : Nat) (w1 : Writer), LongInv s0 ⟨b3, b3.nBytes, s2.jidx⟩ m' → LongDone k s0 w0 w1 m' →
              (match b3.readMore with
                | (b4, .ok n) =>
                  if n = 0 then
                    (({ s2 with b := b4 }, w1),
                      .err (.fromJiter ({ s2 with b := b4 } : RJ).currentIndex e.type (s.jidx + e.index)))
                  else handleLong k fuel ({ s2 with b := b4 } : RJ).refresh w1
                | (b4, .err er) => (({ s2 with b := b4 }, w1), .err er)
                | (b4, .panic) => (({ s2 with b := b4 }, w1), .panic)
                | (b4, .diverge) => (({ s2 with b := b4 }, w1), .diverge)) = ((s', w'), Res.ok ()) →
              ∃ q body t v, s0.rest = q :: (body ++ 34 :: t) ∧ s0.Moved s' (body.length + 2) ∧ w'.out = w0.out ++ v ∧
                WrittenFor k body v := by
            intro b3 m' w1 hinv3 hd3 hm
            have hrd := hinv3.read
            rcases hrm : b3.readMore with ⟨b4, res⟩
            simp only [hrm] at hm hrd
            cases res with
            | ok n =>
              simp only at hm
              by_cases hn0 : n = 0
              · rw [if_pos hn0] at hm; simp at hm
              · rw [if_neg hn0] at hm
                exact ih _ _ m' (.inr hrd) hd3 _ _ hm
            | err er => simp at hm
            | panic => simp at hm
            | diverge => simp at hm
          by_cases h1 : seg > 1
          · simp only [h1, if_true] at hh
            rcases hws : writeSegment k s2.b.buf seg s2.currentIndex w with ⟨w1, res⟩
            rw [hws] at hh
            cases res with
            | ok u =>
              simp only at hh
              refine hgen _ _ _ (hinv.shift h1 (by omega)) ?_ hh
              -- what the segment is
              have hjl : 1 < s2.b.valid.length := by omega
              have hsegv : s2.b.buf.take seg = s2.b.valid.take seg := by
                rw [Buffer.valid, List.take_take, Nat.min_eq_left (by omega)]
              cases hv : s2.b.valid with
              | nil => rw [hv] at hjl; simp at hjl
              | cons q jt =>
                obtain ⟨g, rfl⟩ : ∃ g, seg = g + 1 := ⟨seg - 1, by omega⟩
                rw [hv, List.take_succ_cons] at hsegv
                obtain ⟨v1, ho1, hw1⟩ := writeSegment_ok (y := jt.drop g) hws hsegv (by
                  intro n v hcon
                  rw [List.take_append_drop, ← hv, hval, hp] at hcon
                  simp at hcon)
                obtain ⟨x, hx, hxw⟩ := hd.out
                -- the segment in the stream
                have hrest2 := hinv.rest
                rw [Buffer.rest, List.drop_zero, hv] at hrest2
                cases hr0 : s0.rest with
                | nil => rw [hr0] at hrest2; simp at hrest2
                | cons q0 r0 =>
                  rw [hr0] at hrest2 hxw
                  simp only [List.take_succ_cons, List.take_zero, List.cons_append, List.nil_append, List.cons.injEq] at hrest2
                  obtain ⟨rfl, h3⟩ := hrest2
                  rw [show 1 + m = m + 1 by omega, List.drop_succ_cons] at h3
                  rw [List.drop_succ_cons, List.drop_zero] at hxw
                  have hgl : g ≤ jt.length := by rw [hv, List.length_cons] at hvl; omega
                  have hjt : jt.take g = (r0.drop m).take g := by
                    rw [← h3, List.take_append_of_le_length hgl]
                  have hl3 := congrArg List.length h3
                  rw [List.length_append, List.length_drop] at hl3
                  refine ⟨?_, x ++ v1, ?_, ?_⟩
                  · intro _
                    rw [hr0, List.length_cons]; omega
                  · rw [ho1, hx, List.append_assoc]
                  · rw [hr0, List.drop_succ_cons, List.drop_zero, Nat.add_sub_cancel, List.take_add]
                    rw [hjt] at hw1
                    exact hxw.append hw1
            | err er => simp at hh
            | panic => simp at hh
            | diverge => simp at hh
          · simp only [h1, if_false] at hh
            exact hgen s2.b m w (by rw [← hinv.jlen]; exact hinv) hd hh

end Verif.RJiter
