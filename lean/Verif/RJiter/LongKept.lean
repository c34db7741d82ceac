import Verif.RJiter.LongPart
import Verif.RJiter.Skim

/-!
# What `write_long_bytes` has written, whatever its result is: where it stops
-/

namespace Verif.RJiter

open Buffer RJ Jiter

/-- A part `y` of some bytes `a` at the beginning of `body`, in which a quote only stands behind a backslash; under `strict`, behind a
backslash that is not itself escaped. -/
def KeptPart (strict : Prop) (body : Bytes) (w0 w' : Writer) (clean : Prop) : Prop :=
  ∃ a t y z, body = a ++ t ∧ a = y ++ z ∧ w'.out = w0.out ++ y ∧ Weak a ∧ (strict → Skim true a) ∧ (clean → z = [])

theorem SkimDone.kept {strict P : Prop} {s0 s : RJ} {w0 w : Writer} {m : Nat} (h : SkimDone strict s0 s m)
    (ho : w.out = w0.out ++ (s0.rest.drop 1).take m) : KeptPart strict (s0.rest.drop 1) w0 w P :=
  ⟨_, _, _, [], (List.take_append_drop m _).symm, (List.append_nil _).symm, ho, h.weak, h.skim, fun _ => rfl⟩

theorem SkimDone.more {strict P : Prop} {s0 s : RJ} {w0 w w' : Writer} {m : Nat} (h : SkimDone strict s0 s m)
    (ho : w.out = w0.out ++ (s0.rest.drop 1).take m) {b t y z : Bytes} (hb : (s0.rest.drop 1).drop m = b ++ t) (he : b = y ++ z)
    (ho' : w'.out = w.out ++ y) (hwk : Weak b) (hsk : strict → Skim true b) (hz : P → z = []) :
    KeptPart strict (s0.rest.drop 1) w0 w' P :=
  ⟨(s0.rest.drop 1).take m ++ b, t, (s0.rest.drop 1).take m ++ y, z, by rw [List.append_assoc, ← hb, List.take_append_drop],
    by rw [he, List.append_assoc], by rw [ho', ho, List.append_assoc], h.weak.append hwk, fun hs => (h.skim hs).append (hsk hs), hz⟩

theorem handleLong_kept (strict : Prop) (s0 : RJ) (w0 : Writer) (P : Prop) (hq : ∀ q t, s0.rest = q :: t → q ≠ 92) : ∀ (fuel : Nat) (s : RJ) (w : Writer) (m : Nat),
    ((s = s0 ∧ s0.Sync ∧ m = 0) ∨ LongInv s0 s m) → SkimDone strict s0 s m →
    w.out = w0.out ++ (s0.rest.drop 1).take m → (P → w.plan = []) → ∀ s' w' r, handleLong .raw fuel s w = ((s', w'), r) →
    KeptPart strict (s0.rest.drop 1) w0 w' P := by
  intro fuel
  induction fuel with
  | zero =>
    intro s w m _ hd ho _ s' w' r h
    simp only [handleLong, Prod.mk.injEq] at h
    rw [← h.1.2]; exact hd.kept ho
  | succ fuel ih =>
    intro s w m hs hd ho hP s' w' r hh
    have hsync : s.Sync := by
      rcases hs with ⟨rfl, h, _⟩ | h
      · exact h
      · exact ⟨h.ok, h.jlen, by rw [h.jidx]; exact Nat.zero_le _⟩
    have hsrest : s.rest = s0.rest.take 1 ++ s0.rest.drop (1 + m) := by
      rcases hs with ⟨rfl, h, rfl⟩ | h
      · rw [Nat.add_zero, List.take_append_drop]
      · rw [← h.rest, RJ.rest, h.jidx]
    have hjr : s.rest = s.jdata ++ s.b.reader.pending := rest_eq hsync
    rw [handleLong_succ] at hh
    rcases hp : Kind.raw.parser s.jdata with ⟨n, r1⟩
    rw [hp] at hh
    cases r1 with
    | ok v =>
      simp only at hh
      have hw1 : w' = (w.writeAll v).1 := by
        revert hh
        rcases w.writeAll v with ⟨w1, _ | o⟩
        · intro hh; simp only [Prod.mk.injEq] at hh; exact hh.1.2.symm
        · intro hh; simp only [Prod.mk.injEq] at hh; exact hh.1.2.symm
      obtain ⟨y, z, h1, h2, _, h4⟩ := w.writeAll_part v
      obtain ⟨h2n, hle, _⟩ := Kind.raw.parser_prefix _ _ _ hp
      obtain ⟨hsk, t, hb, hn⟩ := knownBytes_skim (show Jiter.knownBytes s.jdata = (n, .ok v) from hp)
      cases hj : s.jdata with
      | nil => rw [hj] at hle; simp at hle; omega
      | cons q jt =>
        rw [hj, List.drop_succ_cons, List.drop_zero] at hb
        have hrest1 : s.rest = q :: (v ++ 34 :: (t ++ s.b.reader.pending)) := by
          rw [hjr, hj, hb]; simp
        rw [hsrest] at hrest1
        refine hd.more ho (b := v) (t := 34 :: (t ++ s.b.reader.pending)) ?_ h1 (by rw [hw1]; exact h2) (hsk.weak) (fun _ => hsk.widen _)
          fun hc => (h4 (hP hc)).1
        cases hr0 : s0.rest with
        | nil => rw [hr0] at hrest1; simp at hrest1
        | cons q0 r0 =>
          rw [hr0] at hrest1
          simp only [List.take_succ_cons, List.take_zero, List.cons_append, List.nil_append, List.cons.injEq] at hrest1
          obtain ⟨rfl, h3⟩ := hrest1
          rw [show 1 + m = m + 1 by omega, List.drop_succ_cons] at h3
          rw [List.drop_succ_cons, List.drop_zero, h3]
    | error e =>
      have hn := Kind.raw.parser_error hp
      subst hn
      simp only [Nat.add_zero] at hh
      by_cases hr : (!canRetry e.type) = true
      · rw [if_pos hr] at hh
        simp only [Prod.mk.injEq] at hh
        rw [← hh.1.2]; exact hd.kept ho
      · rw [if_neg hr] at hh
        obtain ⟨j, hraw⟩ := knownBytes_more (show Jiter.knownBytes s.jdata = (0, .error e) from hp) (by simpa using hr)
        -- the string is at the start of the buffer
        have hinv : LongInv s0 (if s.jidx > 0 then ({ s with b := s.b.shift 0 s.jidx, jidx := s.jidx } : RJ).refresh
            else { s with jidx := s.jidx }) m ∧ (if s.jidx > 0 then ({ s with b := s.b.shift 0 s.jidx, jidx := s.jidx } : RJ).refresh
            else { s with jidx := s.jidx }).b.valid = s.jdata ∧
            SkimDone strict s0 (if s.jidx > 0 then ({ s with b := s.b.shift 0 s.jidx, jidx := s.jidx } : RJ).refresh
            else { s with jidx := s.jidx }) m := by
          by_cases h0 : s.jidx > 0
          · rw [if_pos h0]
            rcases hs with ⟨rfl, h, rfl⟩ | h
            · refine ⟨LongInv.ofFrame (s := ({ s with b := s.b.shift 0 s.jidx, jidx := s.jidx } : RJ).refresh)
                (Frame.shift0 h.ok h.idx) rfl rfl, ?_, hd.le, hd.weak, hd.skim, fun hs => (hd.safe hs).imp (fun h => h.shift _ _) id⟩
              show (s.b.shift 0 s.jidx).valid = _
              rw [(s.b.shift_spec h.ok (Nat.zero_le _)).1, jdata_eq h]
              rfl
            · have := h.jidx; omega
          · rw [if_neg h0]
            have hj0 : s.jidx = 0 := by omega
            refine ⟨?_, ?_, hd.le, hd.weak, hd.skim, hd.safe⟩
            · rcases hs with ⟨rfl, h, rfl⟩ | h
              · refine LongInv.ofFrame (s := { s with jidx := s.jidx }) ?_ h.len hj0
                have : Frame s.b s.b s.jidx s.jidx := Frame.refl h.ok h.idx
                rwa [hj0] at this ⊢
              · exact h
            · show s.b.valid = _
              rw [jdata_eq hsync, hj0]; rfl
        clear hd
        revert hinv hh
        generalize (if s.jidx > 0 then ({ s with b := s.b.shift 0 s.jidx, jidx := s.jidx } : RJ).refresh
            else { s with jidx := s.jidx }) = s2
        intro hh ⟨hinv, hval, hd⟩
        unfold longRound at hh
        have hseg := segmentEnd_le hinv.ok
        by_cases hpan : s2.b.buf.length ≤ segmentEnd s2.b
        · rw [if_pos hpan] at hh
          simp only [Prod.mk.injEq] at hh
          rw [← hh.1.2]; exact hd.kept ho
        · rw [if_neg hpan] at hh
          have hbl := backToLeading_le s2.b.buf (segmentEnd s2.b)
          generalize hsg : backToLeading s2.b.buf (segmentEnd s2.b) = seg at hbl hh
          have hvl := valid_length hinv.ok
          -- the rest of the round
          have hgen : ∀ (b3 : Buffer) (m' : Nat) (w1 : Writer), LongInv s0 ⟨b3, b3.nBytes, s2.jidx⟩ m' →
              SkimDone strict s0 ⟨b3, b3.nBytes, s2.jidx⟩ m' →
              w1.out = w0.out ++ (s0.rest.drop 1).take m' → (P → w1.plan = []) →
              (match b3.readMore with
                | (b4, .ok n) =>
                  if n = 0 then
                    (({ s2 with b := b4 }, w1),
                      .err (.fromJiter ({ s2 with b := b4 } : RJ).currentIndex e.type (s.jidx + e.index)))
                  else handleLong .raw fuel ({ s2 with b := b4 } : RJ).refresh w1
                | (b4, .err er) => (({ s2 with b := b4 }, w1), .err er)
                | (b4, .panic) => (({ s2 with b := b4 }, w1), .panic)
                | (b4, .diverge) => (({ s2 with b := b4 }, w1), .diverge)) = ((s', w'), r) →
              KeptPart strict (s0.rest.drop 1) w0 w' P := by
            intro b3 m' w1 hinv3 hd3 ho3 hP3 hm
            have hrd := hinv3.read
            have hsf := fun hs => (hd3.safe hs).imp (fun h => h.readMore hinv3.ok) id
            rcases hrm : b3.readMore with ⟨b4, res⟩
            simp only [hrm] at hm hrd hsf
            cases res with
            | ok n =>
              simp only at hm
              by_cases hn0 : n = 0
              · rw [if_pos hn0] at hm
                simp only [Prod.mk.injEq] at hm
                rw [← hm.1.2]; exact hd3.kept ho3
              · rw [if_neg hn0] at hm
                exact ih _ _ m' (.inr hrd) ⟨hd3.le, hd3.weak, hd3.skim, hsf⟩ ho3 hP3 _ _ _ hm
            | err er => simp only [Prod.mk.injEq] at hm; rw [← hm.1.2]; exact hd3.kept ho3
            | panic => simp only [Prod.mk.injEq] at hm; rw [← hm.1.2]; exact hd3.kept ho3
            | diverge => simp only [Prod.mk.injEq] at hm; rw [← hm.1.2]; exact hd3.kept ho3
          by_cases h1 : seg > 1
          · simp only [h1, if_true] at hh
            rcases hws : writeSegment .raw s2.b.buf seg s2.currentIndex w with ⟨w1, res⟩
            rw [hws] at hh
            cases hv : s2.b.valid with
            | nil => rw [hv] at hvl; simp at hvl; omega
            | cons q jt =>
              obtain ⟨g, rfl⟩ : ∃ g, seg = g + 1 := ⟨seg - 1, by omega⟩
              have hsegv : s2.b.buf.take (g + 1) = q :: jt.take g := by
                rw [← List.take_succ_cons, ← hv, Buffer.valid, List.take_take, Nat.min_eq_left (by omega)]
              rw [← hval, hv, List.drop_succ_cons, List.drop_zero] at hraw
              have hgl : g ≤ jt.length := by rw [hv, List.length_cons] at hvl; omega
              have hrest2 := hinv.rest
              rw [Buffer.rest, List.drop_zero, hv] at hrest2
              have hst : (s0.rest.drop 1).drop m = jt ++ s2.b.reader.pending ∧ s0.rest ≠ [] ∧ q ≠ 92 := by
                cases hr0 : s0.rest with
                | nil => rw [hr0] at hrest2; simp at hrest2
                | cons q0 r0 =>
                  rw [hr0] at hrest2
                  simp only [List.take_succ_cons, List.take_zero, List.cons_append, List.nil_append, List.cons.injEq] at hrest2
                  obtain ⟨rfl, h3⟩ := hrest2
                  rw [show 1 + m = m + 1 by omega, List.drop_succ_cons] at h3
                  exact ⟨by rw [List.drop_succ_cons, List.drop_zero, h3], by simp, hq _ _ hr0⟩
              obtain ⟨hst, hne, hq92⟩ := hst
              have hst2 : (s0.rest.drop 1).drop m = jt.take g ++ (jt.drop g ++ s2.b.reader.pending) := by
                rw [hst, ← List.append_assoc, List.take_append_drop]
              have hsk := fun hs : strict => segment_skim hinv.ok hv hq92 hraw (by omega) (by
                rcases hd.safe hs with h | h
                · exact .inl h.1
                · refine .inr fun hm => h ?_
                  refine List.mem_of_mem_drop (i := 1) (List.mem_of_mem_drop (i := m) ?_)
                  rw [hst]
                  exact List.mem_append_left _ hm) hsg (by omega)
              have hwk := rawString_weak _ _ _ _ (Nat.le_refl _) hraw g
              simp only [writeSegment, hsegv, List.drop_succ_cons, List.drop_zero] at hws
              obtain ⟨y, z, e1, e2, e3, e4⟩ := w.writeAll_part (jt.take g)
              rcases hwa : w.writeAll (jt.take g) with ⟨w2, _ | o⟩
              · rw [hwa] at hws e2 e3 e4
                simp only [Prod.mk.injEq] at hws
                obtain ⟨rfl, rfl⟩ := hws
                simp only at hh
                obtain rfl := e3 rfl
                rw [List.append_nil] at e1
                subst e1
                have hl3 := congrArg List.length hst
                rw [List.length_append, List.length_drop, List.length_drop] at hl3
                have htake : (s0.rest.drop 1).take (m + g) = (s0.rest.drop 1).take m ++ jt.take g := by
                  rw [List.take_add, hst, List.take_append_of_le_length hgl]
                refine hgen _ _ _ (hinv.shift h1 (by omega)) ?_ ?_ (fun hp => (e4 (hP hp)).2.2) hh
                · refine ⟨?_, ?_, fun hs => ?_, fun hs => (hd.safe hs).imp (fun h => h.shift _ _) id⟩
                  · intro _
                    have := hd.le
                    have : 0 < s0.rest.length := List.length_pos_iff.mpr hne
                    omega
                  · rw [Nat.add_sub_cancel, htake]; exact hd.weak.append hwk
                  · rw [Nat.add_sub_cancel, htake]; exact (hd.skim hs).append (hsk hs)
                · rw [Nat.add_sub_cancel, htake, e2, ho, List.append_assoc]
              · rw [hwa] at hws e2 e3 e4
                simp only [Prod.mk.injEq] at hws
                obtain ⟨rfl, rfl⟩ := hws
                simp only [Prod.mk.injEq] at hh
                rw [← hh.1.2]
                exact hd.more ho hst2 e1 e2 hwk hsk fun hp => (e4 (hP hp)).1
          · simp only [h1, if_false] at hh
            exact hgen s2.b m w (by rw [← hinv.jlen]; exact hinv) ⟨hd.le, hd.weak, hd.skim, hd.safe⟩ ho hP hh

end Verif.RJiter
