import Verif.RJiter.LongSound

/-!
# What `handle_long` has written, whatever its result is
-/

namespace Verif.RJiter

open Buffer RJ Jiter

theorem Writer.writeAll_part (w : Writer) (v : Bytes) :
    ∃ y z, v = y ++ z ∧ (w.writeAll v).1.out = w.out ++ y ∧ ((w.writeAll v).2 = none → z = []) ∧
      (w.plan = [] → z = [] ∧ (w.writeAll v).2 = none ∧ (w.writeAll v).1.plan = []) := by
  unfold Writer.writeAll
  rcases w with ⟨out, _ | ⟨_ | f, plan⟩⟩
  · exact ⟨v, [], by simp, rfl, fun _ => rfl, fun _ => ⟨rfl, rfl, rfl⟩⟩
  · exact ⟨v, [], by simp, rfl, fun _ => rfl, fun h => by simp at h⟩
  · exact ⟨v.take f.part, v.drop f.part, (List.take_append_drop ..).symm, rfl, fun h => by simp at h, fun h => by simp at h⟩

/-- A segment of an incomplete string. -/
theorem writeSegment_part {k : Kind} {buf : Bytes} {e i : Nat} {w w' : Writer} {r : Res Unit} {q : Byte} {x y : Bytes}
    (h : writeSegment k buf e i w = (w', r)) (hb : buf.take e = q :: x)
    (hno : ∀ n v, k.parser (q :: (x ++ y)) ≠ (n, .ok v)) :
    ((∀ u, r ≠ .ok u) ∧ w' = w) ∨
    ∃ v y z, v = y ++ z ∧ WrittenFor k x v ∧ w'.out = w.out ++ y ∧ (r = .ok () → z = []) ∧ (w.plan = [] → z = [] ∧ w'.plan = []) := by
  have hw : ∀ v, WrittenFor k x v → (∃ (w1 : Writer) (o : Option Nat), w.writeAll v = (w1, o) ∧ w' = w1 ∧ (r = .ok () → o = none)) →
      ∃ v y z, v = y ++ z ∧ WrittenFor k x v ∧ w'.out = w.out ++ y ∧ (r = .ok () → z = []) ∧ (w.plan = [] → z = [] ∧ w'.plan = []) := by
    rintro v hv ⟨w1, o, e, rfl, ho⟩
    obtain ⟨y, z, h1, h2, h3, h4⟩ := w.writeAll_part v
    rw [e] at h2 h3 h4
    exact ⟨v, y, z, h1, hv, h2, fun h => h3 (ho h), fun h => ⟨(h4 h).1, (h4 h).2.2⟩⟩
  cases k with
  | raw =>
    right
    simp only [writeSegment, hb, List.drop_succ_cons, List.drop_zero] at h
    refine hw x rfl ?_
    rcases hx : w.writeAll x with ⟨w1, _ | o⟩
    · rw [hx] at h; simp only [Prod.mk.injEq] at h; exact ⟨_, _, rfl, h.1.symm, fun _ => rfl⟩
    · rw [hx] at h; simp only [Prod.mk.injEq] at h; exact ⟨_, _, rfl, h.1.symm, fun hr => by rw [hr] at h; simp at h⟩
  | str =>
    have hclean := @writeSegment_ok .str buf e i ⟨[], []⟩
    simp only [writeSegment] at h hclean
    rcases hk : Jiter.knownStr (buf.take e ++ [34]) with ⟨n, er | v⟩
    · left
      rw [hk] at h
      simp only [Prod.mk.injEq] at h
      exact ⟨fun u hu => by rw [hu] at h; simp at h, h.1.symm⟩
    · right
      rw [hk] at h hclean
      obtain ⟨v', h1, h2⟩ := hclean (w' := ⟨[] ++ v, []⟩) rfl hb hno
      simp only [List.nil_append] at h1
      subst h1
      refine hw v h2 ?_
      simp only at h
      rcases hx : w.writeAll v with ⟨w1, _ | o⟩
      · rw [hx] at h; simp only [Prod.mk.injEq] at h; exact ⟨_, _, rfl, h.1.symm, fun _ => rfl⟩
      · rw [hx] at h; simp only [Prod.mk.injEq] at h; exact ⟨_, _, rfl, h.1.symm, fun hr => by rw [hr] at h; simp at h⟩

/-- Some of what is to be written for a beginning of `body`. -/
def WrittenPart (k : Kind) (body : Bytes) (w0 w' : Writer) (clean : Prop) : Prop :=
  ∃ a t v y z, body = a ++ t ∧ WrittenFor k a v ∧ v = y ++ z ∧ w'.out = w0.out ++ y ∧ (clean → z = [])

theorem LongDone.part {k : Kind} {s0 : RJ} {w0 w : Writer} {m : Nat} {P : Prop} (h : LongDone k s0 w0 w m) :
    WrittenPart k (s0.rest.drop 1) w0 w P := by
  obtain ⟨x, h1, h2⟩ := h.out
  exact ⟨_, (s0.rest.drop 1).drop m, x, x, [], (List.take_append_drop ..).symm, h2, by simp, h1, fun _ => rfl⟩

/-- A little more. -/
theorem LongDone.more {k : Kind} {s0 : RJ} {w0 w w' : Writer} {m : Nat} {P : Prop} (h : LongDone k s0 w0 w m) {b t v y z : Bytes}
    (hb : (s0.rest.drop 1).drop m = b ++ t) (hv : WrittenFor k b v) (he : v = y ++ z) (ho : w'.out = w.out ++ y) (hz : P → z = []) :
    WrittenPart k (s0.rest.drop 1) w0 w' P := by
  obtain ⟨x, h1, h2⟩ := h.out
  refine ⟨(s0.rest.drop 1).take m ++ b, t, x ++ v, x ++ y, z, ?_, h2.append hv, by rw [he, List.append_assoc], by rw [ho, h1, List.append_assoc], hz⟩
  rw [List.append_assoc, ← hb, List.take_append_drop]

theorem handleLong_part (k : Kind) (s0 : RJ) (w0 : Writer) (P : Prop) : ∀ (fuel : Nat) (s : RJ) (w : Writer) (m : Nat),
    ((s = s0 ∧ s0.Sync ∧ m = 0) ∨ LongInv s0 s m) → LongDone k s0 w0 w m → (P → w.plan = []) → ∀ s' w' r, handleLong k fuel s w = ((s', w'), r) →
    WrittenPart k (s0.rest.drop 1) w0 w' P := by
  intro fuel
  induction fuel with
  | zero =>
    intro s w m _ hd _ s' w' r h
    simp only [handleLong, Prod.mk.injEq] at h
    rw [← h.1.2]; exact hd.part
  | succ fuel ih =>
    intro s w m hs hd hP s' w' r hh
    have hsync : s.Sync := by
      rcases hs with ⟨rfl, h, _⟩ | h
      · exact h
      · exact ⟨h.ok, h.jlen, by rw [h.jidx]; exact Nat.zero_le _⟩
    have hsrest : s.rest = s0.rest.take 1 ++ s0.rest.drop (1 + m) := by
      rcases hs with ⟨rfl, h, rfl⟩ | h
      · rw [Nat.add_zero, List.take_append_drop]
      · rw [← h.rest, RJ.rest, h.jidx]
    have hjr : s.rest = s.jdata ++ s.b.reader.pending := rest_eq hsync
    rw [handleLong_succ] at hh
    rcases hp : k.parser s.jdata with ⟨n, r1⟩
    rw [hp] at hh
    cases r1 with
    | ok v =>
      simp only at hh
      have hw1 : w' = (w.writeAll v).1 := by
        revert hh
        rcases w.writeAll v with ⟨w1, _ | o⟩
        · intro hh; simp only [Prod.mk.injEq] at hh; exact hh.1.2.symm
        · intro hh; simp only [Prod.mk.injEq] at hh; exact hh.1.2.symm
      obtain ⟨y, z, h1, h2, _, h4⟩ := w.writeAll_part v
      obtain ⟨body, t, hb, hn, hwf⟩ := k.parser_ok hp
      have hjl := jdata_length hsync
      obtain ⟨h2n, hle, _⟩ := k.parser_prefix _ _ _ hp
      cases hj : s.jdata with
      | nil => rw [hj] at hle; simp at hle; omega
      | cons q jt =>
        rw [hj, List.drop_succ_cons, List.drop_zero] at hb
        have hrest1 : s.rest = q :: (body ++ 34 :: (t ++ s.b.reader.pending)) := by
          rw [hjr, hj, hb]; simp
        rw [hsrest] at hrest1
        refine hd.more (b := body) (t := 34 :: (t ++ s.b.reader.pending)) ?_ hwf h1 (by rw [hw1]; exact h2) fun hc => (h4 (hP hc)).1
        cases hr0 : s0.rest with
        | nil => rw [hr0] at hrest1; simp at hrest1
        | cons q0 r0 =>
          rw [hr0] at hrest1
          simp only [List.take_succ_cons, List.take_zero, List.cons_append, List.nil_append, List.cons.injEq] at hrest1
          obtain ⟨rfl, h3⟩ := hrest1
          rw [show 1 + m = m + 1 by omega, List.drop_succ_cons] at h3
          rw [List.drop_succ_cons, List.drop_zero, h3]
    | error e =>
      have hn := k.parser_error hp
      subst hn
      simp only [Nat.add_zero] at hh
      by_cases hr : (!canRetry e.type) = true
      · rw [if_pos hr] at hh
        simp only [Prod.mk.injEq] at hh
        rw [← hh.1.2]; exact hd.part
      · rw [if_neg hr] at hh
        -- the string is at the start of the buffer
        have hinv : LongInv s0 (if s.jidx > 0 then ({ s with b := s.b.shift 0 s.jidx, jidx := s.jidx } : RJ).refresh
            else { s with jidx := s.jidx }) m ∧ (if s.jidx > 0 then ({ s with b := s.b.shift 0 s.jidx, jidx := s.jidx } : RJ).refresh
            else { s with jidx := s.jidx }).b.valid = s.jdata := by
          by_cases h0 : s.jidx > 0
          · rw [if_pos h0]
            rcases hs with ⟨rfl, h, rfl⟩ | h
            · refine ⟨LongInv.ofFrame (s := ({ s with b := s.b.shift 0 s.jidx, jidx := s.jidx } : RJ).refresh)
                (Frame.shift0 h.ok h.idx) rfl rfl, ?_⟩
              show (s.b.shift 0 s.jidx).valid = _
              rw [(s.b.shift_spec h.ok (Nat.zero_le _)).1, jdata_eq h]
              rfl
            · have := h.jidx; omega
          · rw [if_neg h0]
            have hj0 : s.jidx = 0 := by omega
            refine ⟨?_, ?_⟩
            · rcases hs with ⟨rfl, h, rfl⟩ | h
              · refine LongInv.ofFrame (s := { s with jidx := s.jidx }) ?_ h.len hj0
                have : Frame s.b s.b s.jidx s.jidx := Frame.refl h.ok h.idx
                rwa [hj0] at this ⊢
              · exact h
            · show s.b.valid = _
              rw [jdata_eq hsync, hj0]; rfl
        revert hinv hh
        generalize (if s.jidx > 0 then ({ s with b := s.b.shift 0 s.jidx, jidx := s.jidx } : RJ).refresh
            else { s with jidx := s.jidx }) = s2
        intro hh ⟨hinv, hval⟩
        unfold longRound at hh
        have hseg := segmentEnd_le hinv.ok
        by_cases hpan : s2.b.buf.length ≤ segmentEnd s2.b
        · rw [if_pos hpan] at hh
          simp only [Prod.mk.injEq] at hh
          rw [← hh.1.2]; exact hd.part
        · rw [if_neg hpan] at hh
          have hbl := backToLeading_le s2.b.buf (segmentEnd s2.b)
          revert hh
          generalize backToLeading s2.b.buf (segmentEnd s2.b) = seg at hbl
          intro hh
          have hvl := valid_length hinv.ok
          -- the rest of the round
          have hgen : ∀ (b3 : Buffer) (m' : Nat) (w1 : Writer), LongInv s0 ⟨b3, b3.nBytes, s2.jidx⟩ m' → LongDone k s0 w0 w1 m' →
              (P → w1.plan = []) →
              (match b3.readMore with
                | (b4, .ok n) =>
                  if n = 0 then
                    (({ s2 with b := b4 }, w1),
                      .err (.fromJiter ({ s2 with b := b4 } : RJ).currentIndex e.type (s.jidx + e.index)))
                  else handleLong k fuel ({ s2 with b := b4 } : RJ).refresh w1
                | (b4, .err er) => (({ s2 with b := b4 }, w1), .err er)
                | (b4, .panic) => (({ s2 with b := b4 }, w1), .panic)
                | (b4, .diverge) => (({ s2 with b := b4 }, w1), .diverge)) = ((s', w'), r) →
              WrittenPart k (s0.rest.drop 1) w0 w' P := by
            intro b3 m' w1 hinv3 hd3 hP3 hm
            have hrd := hinv3.read
            rcases hrm : b3.readMore with ⟨b4, res⟩
            simp only [hrm] at hm hrd
            cases res with
            | ok n =>
              simp only at hm
              by_cases hn0 : n = 0
              · rw [if_pos hn0] at hm
                simp only [Prod.mk.injEq] at hm
                rw [← hm.1.2]; exact hd3.part
              · rw [if_neg hn0] at hm
                exact ih _ _ m' (.inr hrd) hd3 hP3 _ _ _ hm
            | err er => simp only [Prod.mk.injEq] at hm; rw [← hm.1.2]; exact hd3.part
            | panic => simp only [Prod.mk.injEq] at hm; rw [← hm.1.2]; exact hd3.part
            | diverge => simp only [Prod.mk.injEq] at hm; rw [← hm.1.2]; exact hd3.part
          by_cases h1 : seg > 1
          · simp only [h1, if_true] at hh
            rcases hws : writeSegment k s2.b.buf seg s2.currentIndex w with ⟨w1, res⟩
            rw [hws] at hh
            -- what the segment is
            have hjl : 1 < s2.b.valid.length := by omega
            have hsegv : s2.b.buf.take seg = s2.b.valid.take seg := by
              rw [Buffer.valid, List.take_take, Nat.min_eq_left (by omega)]
            cases hv : s2.b.valid with
            | nil => rw [hv] at hjl; simp at hjl
            | cons q jt =>
              obtain ⟨g, rfl⟩ : ∃ g, seg = g + 1 := ⟨seg - 1, by omega⟩
              rw [hv, List.take_succ_cons] at hsegv
              have hpart := writeSegment_part (y := jt.drop g) hws hsegv (by
                intro n v hcon
                rw [List.take_append_drop, ← hv, hval, hp] at hcon
                simp at hcon)
              -- the segment in the stream
              have hrest2 := hinv.rest
              rw [Buffer.rest, List.drop_zero, hv] at hrest2
              have hgl : g ≤ jt.length := by rw [hv, List.length_cons] at hvl; omega
              have hst : (s0.rest.drop 1).drop m = jt ++ s2.b.reader.pending := by
                cases hr0 : s0.rest with
                | nil => rw [hr0] at hrest2; simp at hrest2
                | cons q0 r0 =>
                  rw [hr0] at hrest2
                  simp only [List.take_succ_cons, List.take_zero, List.cons_append, List.nil_append, List.cons.injEq] at hrest2
                  obtain ⟨rfl, h3⟩ := hrest2
                  rw [show 1 + m = m + 1 by omega, List.drop_succ_cons] at h3
                  rw [List.drop_succ_cons, List.drop_zero, h3]
              have hst2 : (s0.rest.drop 1).drop m = jt.take g ++ (jt.drop g ++ s2.b.reader.pending) := by
                rw [hst, ← List.append_assoc, List.take_append_drop]
              rcases hpart with ⟨hne, rfl⟩ | ⟨v1, y, z, he1, hw1, ho1, hz, hcl⟩
              · have : w' = w1 := by
                  cases res with
                  | ok u => exact absurd rfl (hne u)
                  | err er => simp only [Prod.mk.injEq] at hh; exact hh.1.2.symm
                  | panic => simp only [Prod.mk.injEq] at hh; exact hh.1.2.symm
                  | diverge => simp only [Prod.mk.injEq] at hh; exact hh.1.2.symm
                rw [this]; exact hd.part
              · have hstop : w' = w1 → WrittenPart k (s0.rest.drop 1) w0 w' P := by
                  intro e; rw [e]; exact hd.more hst2 hw1 he1 ho1 fun hp => (hcl (hP hp)).1
                cases res with
                | ok u =>
                  simp only at hh
                  have hz := hz rfl
                  subst hz
                  rw [List.append_nil] at he1
                  subst he1
                  refine hgen _ _ _ (hinv.shift h1 (by omega)) ?_ (fun hp => (hcl (hP hp)).2) hh
                  obtain ⟨x, hx, hxw⟩ := hd.out
                  have hl3 := congrArg List.length hst
                  rw [List.length_append, List.length_drop, List.length_drop] at hl3
                  refine ⟨?_, x ++ v1, ?_, ?_⟩
                  · intro _; have := hd.le; omega
                  · rw [ho1, hx, List.append_assoc]
                  · rw [Nat.add_sub_cancel, List.take_add, hst, List.take_append_of_le_length hgl]
                    exact hxw.append hw1
                | err er => simp only [Prod.mk.injEq] at hh; exact hstop hh.1.2.symm
                | panic => simp only [Prod.mk.injEq] at hh; exact hstop hh.1.2.symm
                | diverge => simp only [Prod.mk.injEq] at hh; exact hstop hh.1.2.symm
          · simp only [h1, if_false] at hh
            exact hgen s2.b m w (by rw [← hinv.jlen]; exact hinv) hd hP hh

end Verif.RJiter
