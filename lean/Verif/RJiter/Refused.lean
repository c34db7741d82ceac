import Verif.RJiter.Accept
import Verif.RJiter.Column
import Verif.RJiter.Loose
import Verif.RJiter.Numberless

/-!
# Where a value that could not be read leaves the parser

What a client can find if it goes on behind a failed call, as `scan` does with its SSE tokens.
-/

namespace Verif.RJiter

open Buffer RJ Jiter

/-! ## Numbers -/

/-- The errors of the retry loop: the position is in front of the number, or behind a number at which the data or the buffer ends. -/
theorem RJ.retryLoop_refused (s0 : RJ) (hcl : s0.b.reader.Clean) :
    ∀ (fuel : Nat) (s : RJ), Fed none s0 s.b → s.jlen = s.b.nBytes →
      (s.jidx = 0 ∨ s.jidx = s.b.nBytes ∧ ∃ v, Jiter.nextNumberBytes ((norm none s0.rest).take s.b.nBytes) = (s.b.nBytes, .ok v)) →
      ∀ s' er, retryLoop Jiter.nextNumberBytes true fuel s = (s', .err er) →
      s0.Moved s' (s0.rest.length - (norm none s0.rest).length) ∨
      ∃ k v, Jiter.nextNumberBytes ((norm none s0.rest).take k) = (k, .ok v) ∧ (k = (norm none s0.rest).length ∨ k = s0.b.buf.length) ∧
        s0.Moved s' (s0.rest.length - (norm none s0.rest).length + k) := by
  intro fuel
  induction fuel with
  | zero => intro s _ _ _ s' er h; simp [retryLoop] at h
  | succ fuel ih =>
    intro s hfed hl hj s' er h
    have hrl := congrArg List.length hfed.rest
    rw [rest_length _ hfed.ok] at hrl
    have hlen := hfed.len
    have hfr := hfed.readMore
    simp only [retryLoop, call] at h
    rcases hj with h0 | ⟨h0, w, hw⟩
    · have hjd : s.jdata = (norm none s0.rest).take s.b.nBytes := by
        rw [← hfed.rest, ← valid_take_rest hfed.ok, jdata, hl, h0]; simp [Buffer.valid]
      rcases hfv : Jiter.nextNumberBytes s.jdata with ⟨n, e | w⟩
      · rw [hfv] at h
        have hn : n = 0 := by
          rw [hjd] at hfv
          exact nextNumber_stillWs.head nextNumber_stillNil (norm_none_head _) hfv
        subst hn
        have hs0 : ({ s with jidx := s.jidx + 0 } : RJ) = s := by cases s; rfl
        rw [hs0] at h
        simp only at h
        have hmv : ∀ b', Fed none s0 b' → b'.nBytes = s.b.nBytes →
            s0.Moved { s with b := b' } (s0.rest.length - (norm none s0.rest).length) := by
          intro b' hf' hb
          have := Moved.ofFed (s' := { s with b := b' }) hf' (by simp [hl, hb]) (by simp [h0]) (.inr (by intro t ht; cases ht))
          simpa [h0] using this
        split at h
        · simp only [Prod.mk.injEq] at h
          rw [← h.1]; exact .inl (hmv _ hfed rfl)
        · rcases s.b.readMore_cases hfed.ok with ⟨hno, e1⟩ | ⟨hno, e1⟩ | ⟨q, r', hlt, hr, e1⟩ |
            ⟨b', bs, e1, hb, hv, hnb, ho, hl', hp, hs', hcl, _⟩
          · rw [e1] at h hfr
            simp only [if_true, Prod.mk.injEq] at h
            rw [← h.1]; exact .inl (hmv _ hfr rfl)
          · rw [e1] at h hfr
            simp only [if_true, Prod.mk.injEq] at h
            rw [← h.1]; exact .inl (hmv _ hfr rfl)
          · rw [e1] at h hfr
            simp only [Prod.mk.injEq] at h
            rw [← h.1]; exact .inl (hmv _ hfr rfl)
          · rw [e1] at h hfr
            simp only [show bs.length ≠ 0 by omega, if_false] at h
            exact ih _ hfr rfl (.inl rfl) s' er h
      · rw [hfv] at h
        simp only at h
        split at h
        · simp at h
        · rcases s.b.readMore_cases hfed.ok with ⟨hno, e1⟩ | ⟨hno, e1⟩ | ⟨q, r', hlt, hr, e1⟩ |
            ⟨b', bs, e1, hb, hv, hnb, ho, hl', hp, hs', hcl, _⟩
          · rw [e1] at h
            simp at h
          · rw [e1] at h
            simp at h
          · have := hfed.clean hcl
            rw [hr] at this
            simp [Reader.Clean] at this
          · rw [e1] at h hfr
            simp only [show bs.length ≠ 0 by omega, if_false] at h
            exact ih _ hfr rfl (.inl rfl) s' er h
    · have hjd : s.jdata = [] := by simp [jdata, hl, h0]
      have hnil : Jiter.nextNumberBytes [] = (0, .error ⟨.json .eofWhileParsingValue, 0⟩) := rfl
      have hmv : ∀ b', Fed none s0 b' → b'.nBytes = s.b.nBytes →
          s0.Moved { s with b := b', jidx := s.jidx + 0 } (s0.rest.length - (norm none s0.rest).length + s.b.nBytes) := by
        intro b' hf' hb
        have := Moved.ofFed (s' := { s with b := b', jidx := s.jidx + 0 }) hf' (by simp [hl, hb]) (by simp [h0, hb]) (.inr (by intro t ht; cases ht))
        simpa [h0] using this
      rw [hjd, hnil] at h
      simp only at h
      rw [if_neg (by decide)] at h
      rcases s.b.readMore_cases hfed.ok with ⟨hno, e1⟩ | ⟨hno, e1⟩ | ⟨q, r', hlt, hr, e1⟩ |
        ⟨b', bs, e1, hb, hv, hnb, ho, hl', hp, hs', hcl, _⟩
      · rw [e1] at h hfr
        simp only [if_true, Prod.mk.injEq] at h
        rw [← h.1]
        exact .inr ⟨_, w, hw, .inr (by omega), hmv _ hfr rfl⟩
      · rw [e1] at h hfr
        simp only [if_true, Prod.mk.injEq] at h
        rw [← h.1]
        exact .inr ⟨_, w, hw, .inl (by rw [hno] at hrl; simp [Reader.pending] at hrl; omega), hmv _ hfr rfl⟩
      · have := hfed.clean hcl
        rw [hr] at this
        simp [Reader.Clean] at this
      · rw [e1] at h hfr
        simp only [show bs.length ≠ 0 by omega, if_false] at h
        exact ih _ hfr rfl (.inl rfl) s' er h

/-- A number that was read to the end of the data. -/
theorem nextNumber_whole {r : Bytes} {c : Byte} {t : Bytes} (hr : r = c :: t) (hca : isAsciiWs c = false) {k : Nat} {v : Bytes}
    (hk : Jiter.nextNumberBytes (r.take k) = (k, .ok v)) : Number (r.take k) ∧ k ≤ r.length := by
  have hb := (nextNumber_jsound.bound _ _ _ hk).1
  have hkl : k ≤ r.length := by rw [List.length_take] at hb; omega
  have hlen : (r.take k).length = k := by rw [List.length_take]; omega
  refine ⟨?_, hkl⟩
  cases k with
  | zero => simp only [List.take_zero] at hk; simp [show Jiter.nextNumberBytes [] = (0, .error ⟨.json .eofWhileParsingValue, 0⟩) from rfl] at hk
  | succ k =>
    rw [hr, List.take_succ_cons] at hk ⊢
    have hp : Jiter.peek (c :: t.take k) = (0, .ok c) := by simpa using peek_tok Ws.nil (isWs_of_not_ascii hca) (t.take k)
    simp only [Jiter.nextNumberBytes, hp] at hk
    split at hk
    · simp only [List.drop_zero] at hk
      cases hn : numberEnd (c :: t.take k) with
      | error e => rw [hn] at hk; simp [jerr] at hk
      | ok m =>
        rw [hn] at hk
        simp only [Prod.mk.injEq, Nat.zero_add] at hk
        have := numberEnd_ok hn
        rw [hk.1, List.take_of_length_le (by rw [hr, List.take_succ_cons] at hlen; omega)] at this
        exact this
    · simp at hk

/-- A failed `next_number_bytes`: the position is kept, or it is behind a number at which the input or the buffer ends. -/
theorem RJ.nextNumber_refused {s s' : RJ} {fuel : Nat} {er : Err} (h : s.Sync) (hl : 8 ≤ s.b.buf.length) (hf : enoughFuel s fuel)
    (hcl : s.b.reader.Clean) {c : Byte} {t : Bytes} (hc : s.rest = c :: t) (hca : isAsciiWs c = false)
    (e : s.nextNumberBytes fuel = (s', .err er)) :
    s.Moved s' 0 ∨ ∃ k, Number (s.rest.take k) ∧ k ≤ s.rest.length ∧ (k = s.rest.length ∨ k = s.b.buf.length) ∧ s.Moved s' k := by
  have hnorm : norm none s.rest = s.rest := by rw [hc]; simpa using norm_none Ws.nil hca t
  unfold enoughFuel at hf
  have hz : s.rest.length - (norm none s.rest).length = 0 := by rw [hnorm]; omega
  have e : s.loopUntilSuccess fuel Jiter.nextNumberBytes none true = (s', .err er) := e
  simp only [loopUntilSuccess, call] at e
  have hretry : ∀ j, (s.jidx = 0 → j = 0 ∨ j = s.b.nBytes ∧ ∃ v, Jiter.nextNumberBytes (s.rest.take s.b.nBytes) = (s.b.nBytes, .ok v)) →
      (match ({ s with jidx := j } : RJ).skipSpacesFeeding fuel s.jidx none with
        | (s2, .ok ()) => retryLoop Jiter.nextNumberBytes true fuel s2
        | (s2, .err e) => (s2, .err e)
        | (s2, .panic) => (s2, .panic)
        | (s2, .diverge) => (s2, .diverge)) = (s', .err er) →
      s.Moved s' 0 ∨ ∃ k, Number (s.rest.take k) ∧ k ≤ s.rest.length ∧ (k = s.rest.length ∨ k = s.b.buf.length) ∧ s.Moved s' k := by
    intro j hj he
    rcases skipSpacesFeeding_spec s { s with jidx := j } none fuel h rfl rfl (by omega) (by simp) (by omega) with
      ⟨s2, e2, hfed, hjl, hpos⟩ | ⟨s2, kd, x, e2, hcl'⟩
    · rw [e2] at he
      have := RJ.retryLoop_refused s hcl fuel s2 hfed hjl (by
        rcases hpos with h0 | ⟨g1, g2, g3, g4⟩
        · exact .inl h0
        · simp only at g1
          have hb := congrArg List.length g4
          rw [valid_length hfed.ok, valid_length h.ok] at hb
          rcases hj g2 with k1 | ⟨k1, k2⟩
          · exact .inl (by omega)
          · exact .inr ⟨by omega, by rw [hb, hnorm]; exact k2⟩) s' er he
      rw [hz, hnorm] at this
      rcases this with this | ⟨k, v, g1, g2, g3⟩
      · exact .inl this
      · obtain ⟨g4, g5⟩ := nextNumber_whole hc hca g1
        rw [Nat.zero_add] at g3
        exact .inr ⟨k, g4, g5, g2, g3⟩
    · exact absurd hcl hcl'
  have hjd : s.jdata = s.rest.take s.jdata.length := by rw [rest_eq h, List.take_left]
  have hjl := jdata_length h
  rcases hfv : Jiter.nextNumberBytes s.jdata with ⟨n, e1 | w⟩
  · rw [hfv] at e
    have hn : n = 0 := by
      rw [hjd, ← hnorm] at hfv
      exact nextNumber_stillWs.head nextNumber_stillNil (norm_none_head _) hfv
    refine hretry _ (fun hx => ?_) e
    left; omega
  · rw [hfv] at e
    simp only at e
    split at e
    · simp at e
    · rename_i hro
      simp only [reallyOk, Bool.not_true, Bool.false_or, decide_eq_true_eq] at hro
      have hb := (nextNumber_jsound.bound _ _ _ hfv).1
      refine hretry _ (fun hx => ?_) e
      right
      have hn : n = s.b.nBytes := by omega
      have hj : s.jdata.length = s.b.nBytes := by omega
      refine ⟨by omega, w, ?_⟩
      rw [← hj, ← hjd, hfv, hn, hj]

/-- The same behind form feeds, which are dropped. -/
theorem RJ.nextNumber_refused_ff {s s' : RJ} {fuel : Nat} {er : Err} (h : s.Sync) (hl : 8 ≤ s.b.buf.length) (hf : enoughFuel s fuel)
    (hcl : s.b.reader.Clean) {t : Bytes} (hc : s.rest = 12 :: t) (e : s.nextNumberBytes fuel = (s', .err er)) :
    s.Moved s' (s.rest.length - (norm none s.rest).length) ∨
    ∃ k, Number ((norm none s.rest).take k) ∧ k ≤ (norm none s.rest).length ∧ (k = (norm none s.rest).length ∨ k = s.b.buf.length) ∧
      s.Moved s' (s.rest.length - (norm none s.rest).length + k) := by
  unfold enoughFuel at hf
  have e : s.loopUntilSuccess fuel Jiter.nextNumberBytes none true = (s', .err er) := e
  simp only [loopUntilSuccess, call] at e
  have hfirst : ∃ e1, Jiter.nextNumberBytes s.jdata = (0, .error e1) := by
    have hjd : s.jdata = s.rest.take s.jdata.length := by rw [rest_eq h, List.take_left]
    rw [hjd, hc]
    cases s.jdata.length with
    | zero => exact ⟨_, rfl⟩
    | succ k =>
      rw [List.take_succ_cons]
      have hp : Jiter.peek (12 :: t.take k) = (0, .ok 12) := by simpa using peek_tok Ws.nil (c := 12) (by decide) (t.take k)
      simp only [Jiter.nextNumberBytes, hp]
      exact ⟨_, rfl⟩
  obtain ⟨e1, hfirst⟩ := hfirst
  rw [hfirst] at e
  simp only at e
  rcases skipSpacesFeeding_spec s { s with jidx := s.jidx + 0 } none fuel h rfl rfl (by omega) (by simp) (by omega) with
    ⟨s2, e2, hfed, hjl, hpos⟩ | ⟨s2, kd, x, e2, hcl'⟩
  · rw [e2] at e
    have := RJ.retryLoop_refused s hcl fuel s2 hfed hjl (by
      rcases hpos with h0 | ⟨g1, g2, g3, g4⟩
      · exact .inl h0
      · simp only at g1
        exact .inl (by omega)) s' er e
    rcases this with this | ⟨k, v, g1, g2, g3⟩
    · exact .inl this
    · cases hn : norm none s.rest with
      | nil =>
        rw [hn] at g1
        simp only [List.take_nil] at g1
        simp [show Jiter.nextNumberBytes [] = (0, .error ⟨.json .eofWhileParsingValue, 0⟩) from rfl] at g1
      | cons d u =>
        have hd : isAsciiWs d = false := by
          obtain ⟨_, _, _, h3⟩ := norm_none_split s.rest
          exact h3 d (by rw [hn]; rfl)
        obtain ⟨g4, g5⟩ := nextNumber_whole hn hd g1
        rw [hn] at g2 g3 g4 g5
        exact .inr ⟨k, g4, g5, g2, g3⟩
  · exact absurd hcl hcl'

/-! ## Strings -/

/-- A failed `write_long_bytes` leaves a quote in front of the parser: the one of the string, or one that was put there instead of what
is already written. -/
theorem RJ.handleLong_quote : ∀ (fuel : Nat) (s : RJ) (w : Writer), s.Sync → w.plan = [] → (∃ t, s.rest = 34 :: t) →
    ∀ s' w' er, handleLong .raw fuel s w = ((s', w'), .err er) → ∃ t, s'.rest = 34 :: t := by
  intro fuel
  induction fuel with
  | zero => intro s w _ _ _ s' w' er h; simp [handleLong] at h
  | succ fuel ih =>
    intro s w hsy hw ⟨t, ht⟩ s' w' er h
    have hwa : ∀ bs, w.writeAll bs = (⟨w.out ++ bs, []⟩, none) := by
      intro bs
      rcases w with ⟨o, p⟩
      simp only at hw
      subst hw
      rfl
    simp only [handleLong, call] at h
    rcases hfv : Kind.raw.parser s.jdata with ⟨n, r⟩
    rw [hfv] at h
    cases r with
    | ok v =>
      simp only [hwa] at h
      simp at h
    | error e =>
      have hn := Kind.raw.parser_within hfv
      subst hn
      simp only [Nat.add_zero] at h
      by_cases hcr : (!canRetry e.type) = true
      · rw [if_pos hcr] at h
        simp only [Prod.mk.injEq] at h
        rw [← h.1.1]
        exact ⟨t, ht⟩
      · rw [if_neg hcr] at h
        generalize hs2 : (if s.jidx > 0 then ({ s with b := s.b.shift 0 s.jidx } : RJ).refresh else s) = s2 at h
        have h2 : s2.Sync ∧ s2.jidx = 0 ∧ s2.rest = 34 :: t := by
          by_cases hj : s.jidx > 0
          · rw [if_pos hj] at hs2
            have hf : Frame s.b (s.b.shift 0 s.jidx) s.jidx 0 := .shift0 hsy.ok hsy.idx
            rw [← hs2]
            refine ⟨⟨hf.ok, rfl, Nat.zero_le _⟩, rfl, ?_⟩
            rw [← ht]
            exact hf.rest
          · rw [if_neg hj] at hs2
            rw [← hs2]
            exact ⟨hsy, by omega, ht⟩
        obtain ⟨hsy2, hj2, ht2⟩ := h2
        by_cases hsg : s2.b.buf.length ≤ segmentEnd s2.b
        · rw [if_pos hsg] at h; simp at h
        · rw [if_neg hsg] at h
          have hsl := backToLeading_le s2.b.buf (segmentEnd s2.b)
          generalize backToLeading s2.b.buf (segmentEnd s2.b) = seg at h hsl
          have hwr : ∃ w1, (if seg > 1 then writeSegment .raw s2.b.buf seg s2.currentIndex w else (w, .ok ())) = (w1, .ok ()) ∧ w1.plan = [] := by
            by_cases hg : seg > 1
            · rw [if_pos hg]
              simp only [writeSegment, hwa]
              exact ⟨_, rfl, rfl⟩
            · rw [if_neg hg]
              exact ⟨_, rfl, hw⟩
          obtain ⟨w1, hwr, hw1⟩ := hwr
          rw [hwr] at h
          simp only at h
          have hr3 : ∀ b3, b3 = (if seg > 1 then s2.b.shift 1 seg else s2.b) → b3.nBytes ≤ b3.buf.length ∧ ∃ t, b3.rest 0 = 34 :: t := by
            intro b3 hb3
            by_cases hg : seg > 1
            · rw [if_pos hg] at hb3
              have hv : s2.b.valid.head? = some 34 := by
                have hrest : s2.b.valid.drop s2.jidx ++ s2.b.reader.pending = 34 :: t := ht2
                rw [hj2, List.drop_zero] at hrest
                cases hvv : s2.b.valid with
                | nil =>
                  have h0 : s2.b.nBytes = 0 := by
                    have := valid_length hsy2.ok
                    rw [hvv] at this; simpa using this.symm
                  have : segmentEnd s2.b = 0 := by simp [segmentEnd, hvv, h0]
                  omega
                | cons q y =>
                  rw [hvv] at hrest
                  simp only [List.cons_append, List.cons.injEq] at hrest
                  simp [hrest.1]
              obtain ⟨g1, g2⟩ := shift_one_head hsy2.ok hv (f := seg) (by omega)
              rw [hb3]
              refine ⟨g1, ?_⟩
              show ∃ t, (s2.b.shift 1 seg).valid.drop 0 ++ _ = 34 :: t
              cases hvv : (s2.b.shift 1 seg).valid with
              | nil => rw [hvv] at g2; simp at g2
              | cons q y =>
                rw [hvv] at g2
                simp only [List.head?_cons, Option.some.injEq] at g2
                exact ⟨_, by rw [g2]; rfl⟩
            · rw [if_neg hg] at hb3
              rw [hb3]
              exact ⟨hsy2.ok, t, by rw [← ht2, RJ.rest, hj2]⟩
          obtain ⟨hok3, t3, ht3⟩ := hr3 _ rfl
          generalize (if seg > 1 then s2.b.shift 1 seg else s2.b) = b3 at h hok3 ht3
          have hfr : Frame b3 b3.readMore.1 0 0 := .readMore hok3 (Nat.zero_le _)
          have h4 : b3.readMore.1.rest 0 = 34 :: t3 := by rw [← ht3]; exact hfr.rest
          rcases hrm : b3.readMore with ⟨b4, m | er1 | _ | _⟩
          · rw [hrm] at h h4 hfr
            simp only at h
            by_cases hm : m = 0
            · rw [if_pos hm] at h
              simp only [Prod.mk.injEq] at h
              rw [← h.1.1]
              exact ⟨t3, by simp only [RJ.rest, hj2]; exact h4⟩
            · rw [if_neg hm] at h
              exact ih ({ s2 with b := b4 } : RJ).refresh w1 ⟨hfr.ok, rfl, Nat.zero_le _⟩ hw1 ⟨t3, h4⟩ _ _ _ h
          · rw [hrm] at h h4
            simp only [Prod.mk.injEq] at h
            rw [← h.1.1]
            exact ⟨t3, by simp only [RJ.rest, hj2]; exact h4⟩
          · rw [hrm] at h; simp at h
          · rw [hrm] at h; simp at h

/-! ## Tokens -/

/-- Everything `known_skip_token` can do after a failed call, if the reader does not fail. -/
theorem RJ.knownSkipToken_loose_text (s : RJ) (t : Bytes) (fuel : Nat) (ok : s.b.nBytes ≤ s.b.buf.length) (idx : s.jidx ≤ s.b.nBytes)
    (hl : 0 < s.b.buf.length) (hf : s.b.reader.size < fuel) (hcl : s.b.reader.Clean) :
    (∃ s', s.knownSkipToken fuel t = (s', .ok ()) ∧ s'.Sync ∧ s.rest = t ++ s'.rest ∧
      s'.b.buf.length = s.b.buf.length ∧ s'.b.reader.size ≤ s.b.reader.size ∧ s'.b.reader.Clean) ∨
    (∃ s' e, s.knownSkipToken fuel t = (s', .err e) ∧ Loose s s' ∧ s'.rest = s.rest) := by
  have hsy : ({ s with jlen := s.b.nBytes } : RJ).Sync := ⟨ok, rfl, idx⟩
  have hal : Alike s { s with jlen := s.b.nBytes } := ⟨rfl, rfl⟩
  have hla := lookaheadN_alike hal fuel t.length
  simp only [knownSkipToken]
  rcases lookaheadN_spec { s with jlen := s.b.nBytes } t.length fuel hsy hf with
    ⟨s1, e, hm⟩ | ⟨s1, x, e, hbig, _, _, _, hfr⟩ | ⟨s', kd, x, e, hc⟩
  · rw [e] at hla
    rcases hx : s.lookaheadN fuel t.length with ⟨s2, r⟩
    rw [hx] at hla
    obtain ⟨h1, h2⟩ := hla
    simp only at h1 h2
    subst h1
    have hrest : s2.rest = s.rest := by
      have := hm.rest
      simp only [RJ.rest] at this ⊢
      rw [h2.1, h2.2, this]; rfl
    have hlo : Loose s s2 := by
      refine ⟨by rw [h2.1]; exact hm.sync.ok, by rw [h2.1, h2.2]; exact hm.sync.idx, by rw [h2.1]; exact hm.buf,
        by rw [h2.1]; exact hm.size, by rw [hrest]; exact Nat.le_refl _, fun h => by rw [h2.1]; exact hm.clean h⟩
    simp only
    by_cases heq : List.take t.length ({ s with jlen := s.b.nBytes } : RJ).rest = t
    · rw [if_pos heq]
      have heq' : s.rest.take t.length = t := heq
      have hlen : t.length ≤ s.rest.length := by
        have := congrArg List.length heq'
        rw [List.length_take] at this
        omega
      have hsk := skipNBytes_alike h2 fuel t.length
      rcases skipNBytes_spec s1 t.length fuel hm.sync (by rw [hm.buf]; exact hl)
        (Nat.lt_of_le_of_lt hm.size hf) with ⟨s3, e3, hm3⟩ | ⟨s3, kd, x, e3, hc3⟩
      · rw [e3] at hsk
        rcases hy : s2.skipNBytes fuel t.length with ⟨s4, r4⟩
        rw [hy] at hsk
        obtain ⟨g1, g2⟩ := hsk
        simp only at g1 g2
        subst g1
        have hjl := skipNBytes_ok_len hy
        have hs34 : s4 = s3 := by
          have h1 := hm3.sync.len
          have h2 := g2.1
          have h3 := g2.2
          obtain ⟨b4, j4, l4⟩ := s4
          obtain ⟨b3, j3, l3⟩ := s3
          simp only at hjl h1 h2 h3
          subst h2 h3
          rw [hjl, h1]
        subst hs34
        left
        have hr1 : s1.rest = s.rest := hm.rest
        rw [hr1, Nat.min_eq_left hlen] at hm3
        refine ⟨s4, rfl, hm3.sync, ?_, hm3.buf.trans hm.buf, Nat.le_trans hm3.size hm.size,
          hm3.clean (hm.clean hcl)⟩
        have h5 := hm3.rest
        rw [hr1] at h5
        rw [h5]
        conv => lhs; rw [← List.take_append_drop t.length s.rest, heq']
      · exact absurd (hm.clean hcl) hc3
    · rw [if_neg heq]
      exact .inr ⟨_, _, rfl, hlo, hrest⟩
  · rw [e] at hla
    rcases hx : s.lookaheadN fuel t.length with ⟨s2, r⟩
    rw [hx] at hla
    obtain ⟨h1, h2⟩ := hla
    simp only at h1 h2
    subst h1
    rename_i hji _
    have hji : s1.jidx = s.jidx := hji
    have hfr' : Frame s.b s2.b s.jidx s2.jidx := by rw [h2.1, h2.2, hji]; exact hfr
    exact .inr ⟨_, _, rfl, .ofFrame hfr', hfr'.rest⟩
  · exact absurd hcl hc

/-! ## `array_step` -/

/-- An `Ok` of `array_step` anywhere. If the parser is at the start of its buffer, the failed attempt for a comma with a bracket behind it is continued
at the bracket. -/
theorem RJ.arrayStep_cold {s s' : RJ} {fuel : Nat} {v : Option Byte} (h : s.Sync) (hl : 1 < s.b.buf.length) (hf : enoughFuel s fuel)
    (hok : s.arrayStep fuel = (s', .ok v)) :
    (∃ ws t, s.rest = ws ++ 93 :: t ∧ Blank ws ∧ v = none ∧ s'.rest = t ∧ ∃ n, s.Moved s' n) ∨
    (∃ ws ws2 c t, s.rest = ws ++ 44 :: (ws2 ++ c :: t) ∧ Blank ws ∧ Blank ws2 ∧ isWs c = false ∧ c ≠ 93 ∧ v = some c ∧
      s'.rest = c :: t ∧ ∃ n, s.Moved s' n) ∨
    ∃ t, s.jidx = 0 ∧ s.rest = 44 :: 93 :: t ∧ v = none ∧ s'.rest = t ∧ ∃ n, s.Moved s' n := by
  rcases loop_any arrayStep_jsound h hl hf hok with h1 | ⟨h0, hn, d, n, e, m, ⟨u, hd⟩, hd1, hd2, hm⟩
  · rcases RJ.arrayStep_seen h1 with ⟨ws, t, e, hw, hv, hs, hm⟩ | ⟨ws, ws2, c, t, e, hw, hw2, hc⟩
    · exact .inl ⟨ws, t, e, .of_aws hw, hv, hs, hm⟩
    · exact .inr (.inl ⟨ws, ws2, c, t, e, .of_aws hw, .of_aws hw2, hc⟩)
  · right; right
    have hdrop : ∀ (w : Bytes) (x : Byte) (y : Bytes), Ws w → isAsciiWs x = false → (w ++ x :: y).dropWhile isAsciiWs = x :: y := by
      intro w x y hw hx
      rw [List.dropWhile_append_of_pos (AWs.of_ws hw), List.dropWhile_cons_of_neg (by simp [hx])]
    rcases arrayStep_err hd1 with h1 | ⟨ws, ws2, t, rfl, hw, hw2⟩ | ⟨ws, c, t, rfl, hw, hc, h44, h93⟩
    · rw [h1] at hd2; exact absurd hd2 (arrayStep_nil m v)
    · have hr : s.rest = ws ++ 44 :: (ws2 ++ 93 :: (t ++ u)) := by rw [← hd]; simp
      unfold norm at hn
      rw [hr, hdrop ws 44 _ hw (by decide)] at hn
      simp only [if_true] at hn
      rw [hdrop ws2 93 _ hw2 (by decide)] at hn
      have hlen := congrArg List.length hn
      simp only [List.length_cons, List.length_append] at hlen
      have e1 : ws = [] := List.length_eq_zero_iff.1 (by omega)
      have e2 : ws2 = [] := List.length_eq_zero_iff.1 (by omega)
      subst e1 e2
      have hn1 : n = 1 := by
        simp only [List.nil_append] at hd1
        have : Jiter.arrayStep (44 :: 93 :: t) = jerr 1 .trailingComma 1 := rfl
        rw [this] at hd1
        simp only [jerr, Prod.mk.injEq] at hd1
        exact hd1.1.symm
      subst hn1
      simp only [List.nil_append, List.drop_succ_cons, List.drop_zero] at hd2
      have : Jiter.arrayStep (93 :: t) = (1, .ok none) := rfl
      rw [this] at hd2
      simp only [Prod.mk.injEq, Except.ok.injEq] at hd2
      obtain ⟨rfl, rfl⟩ := hd2
      refine ⟨t ++ u, h0, hr, rfl, ?_, _, hm⟩
      exact rest_after (a := [44, 93]) hm hr rfl
    · exfalso
      rw [arrayStep_bad hw hc h44 h93] at hd1
      simp only [jerr, Prod.mk.injEq] at hd1
      rw [← hd1.1, List.drop_left] at hd2
      have := arrayStep_bad Ws.nil hc h44 h93 t
      rw [List.nil_append] at this
      rw [this] at hd2
      simp [jerr] at hd2

end Verif.RJiter
