import Verif.RJiter.Forward

/-!
# The parser after a failed call

After an error the parser and its buffer need not agree, but the position is inside of the buffer, which is enough for
`known_skip_token`.
-/

namespace Verif.RJiter

open Buffer Jiter

namespace RJ

/-- The state `s` of a parser that was in `s0`: the position is inside of the buffer, and nothing was added to the stream. -/
structure Loose (s0 s : RJ) : Prop where
  ok : s.b.nBytes ≤ s.b.buf.length
  idx : s.jidx ≤ s.b.nBytes
  buf : s.b.buf.length = s0.b.buf.length
  size : s.b.reader.size ≤ s0.b.reader.size
  less : s.rest.length ≤ s0.rest.length
  clean : s0.b.reader.Clean → s.b.reader.Clean

theorem Loose.ofMoved {s0 s : RJ} {n : Nat} (h : s0.Moved s n) : Loose s0 s :=
  ⟨h.sync.ok, h.sync.idx, h.buf, h.size, by rw [h.rest]; simp, h.clean⟩

theorem Loose.trans {s0 s1 s2 : RJ} (h1 : Loose s0 s1) (h2 : Loose s1 s2) : Loose s0 s2 :=
  ⟨h2.ok, h2.idx, h2.buf.trans h1.buf, Nat.le_trans h2.size h1.size, Nat.le_trans h2.less h1.less, fun h => h2.clean (h1.clean h)⟩

/-- From a frame of the buffer. -/
theorem Loose.ofFrame {s s' : RJ} (h : Frame s.b s'.b s.jidx s'.jidx) : Loose s s' :=
  ⟨h.ok, h.pos, h.len, h.size, by
    have := congrArg List.length h.rest
    simp only [RJ.rest, Buffer.rest]; omega, h.clean⟩

theorem Loose.shift1 {s : RJ} (ok : s.b.nBytes ≤ s.b.buf.length) (h0 : s.jidx = 0) {seg : Nat} (hs : 1 < seg) :
    Loose s { s with b := s.b.shift 1 seg } := by
  obtain ⟨h1, h2, h3, h4, h5, h6, _⟩ := s.b.shift_spec ok (show 1 ≤ seg by omega)
  refine ⟨h5, by simp only; omega, h4, by rw [h6]; exact Nat.le_refl _, ?_, by rw [h6]; exact id⟩
  simp only [RJ.rest, Buffer.rest, h6, h0, List.drop_zero, List.length_append]
  rw [valid_length h5, valid_length ok]
  omega

theorem Kind.parser_within (k : Kind) {d : Bytes} {n : Nat} {e : JErr} (h : k.parser d = (n, .error e)) : n = 0 := by
  cases k
  · simp only [Kind.parser, Jiter.knownBytes] at h
    split at h
    · simp only [jerr, Prod.mk.injEq] at h; omega
    · simp at h
  · simp only [Kind.parser, Jiter.knownStr] at h
    split at h
    · simp only [jerr, Prod.mk.injEq] at h; omega
    · simp at h

/-- A failed `write_long_*`. -/
theorem handleLong_errs (k : Kind) :
    ∀ (fuel : Nat) (s : RJ) (w : Writer), s.Sync → ∀ s' w' er, handleLong k fuel s w = ((s', w'), .err er) →
      Loose s s' := by
  intro fuel
  induction fuel with
  | zero => intro s w _ s' w' er h; simp [handleLong] at h
  | succ fuel ih =>
    intro s w hsy s' w' er h
    simp only [handleLong, call] at h
    have hself : Loose s s := .ofMoved (.refl hsy)
    rcases hfv : k.parser s.jdata with ⟨n, r⟩
    rw [hfv] at h
    cases r with
    | ok v =>
      have hb : n ≤ s.jdata.length := by
        cases k
        · exact ((PrefixFn.jsound knownBytes_prefix).bound _ _ _ hfv).1
        · exact ((PrefixFn.jsound knownStr_prefix).bound _ _ _ hfv).1
      have hjl : s.jdata.length = s.b.nBytes - s.jidx := by
        have := hsy.ok
        simp [jdata, hsy.len]; omega
      simp only at h
      rcases hwr : w.writeAll v with ⟨w1, _ | kd⟩
      · rw [hwr] at h; simp at h
      · rw [hwr] at h
        simp only [Prod.mk.injEq] at h
        rw [← h.1.1]
        have hi := hsy.idx
        refine ⟨hsy.ok, by simp only; omega, rfl, Nat.le_refl _, ?_, id⟩
        simp only [RJ.rest, Buffer.rest, List.length_append, List.length_drop]; omega
    | error e =>
      have hn := k.parser_within hfv
      subst hn
      simp only [Nat.add_zero] at h
      by_cases hcr : (!canRetry e.type) = true
      · rw [if_pos hcr] at h
        simp only [Prod.mk.injEq] at h
        rw [← h.1.1]
        exact hself
      · rw [if_neg hcr] at h
        -- the state after the first shift
        generalize hs2 : (if s.jidx > 0 then ({ s with b := s.b.shift 0 s.jidx } : RJ).refresh else s) = s2 at h
        have h2 : s2.Sync ∧ s2.jidx = 0 ∧ Loose s s2 := by
          by_cases hj : s.jidx > 0
          · rw [if_pos hj] at hs2
            have hf : Frame s.b (s.b.shift 0 s.jidx) s.jidx 0 := .shift0 hsy.ok hsy.idx
            rw [← hs2]
            exact ⟨⟨hf.ok, rfl, Nat.zero_le _⟩, rfl, .ofFrame (s' := ({ s with b := s.b.shift 0 s.jidx } : RJ).refresh) hf⟩
          · rw [if_neg hj] at hs2
            rw [← hs2]
            exact ⟨hsy, by omega, hself⟩
        obtain ⟨hsy2, hj2, hl2⟩ := h2
        by_cases hsg : s2.b.buf.length ≤ segmentEnd s2.b
        · rw [if_pos hsg] at h; simp at h
        · rw [if_neg hsg] at h
          generalize backToLeading s2.b.buf (segmentEnd s2.b) = seg at h
          rcases hwr : (if seg > 1 then writeSegment k s2.b.buf seg s2.currentIndex w else (w, .ok ())) with ⟨w1, _ | er1 | _ | _⟩
          · rw [hwr] at h
            simp only at h
            have h3 : Loose s2 { s2 with b := if seg > 1 then s2.b.shift 1 seg else s2.b } := by
              by_cases hg : seg > 1
              · rw [if_pos hg]; exact .shift1 hsy2.ok hj2 hg
              · rw [if_neg hg]; exact .ofMoved (.refl hsy2)
            generalize (if seg > 1 then s2.b.shift 1 seg else s2.b) = b3 at h h3
            have hfr : Frame b3 b3.readMore.1 0 0 := .readMore h3.ok (Nat.zero_le _)
            have h4 : Loose s { s2 with b := b3.readMore.1 } := by
              refine (hl2.trans h3).trans (.ofFrame ?_)
              simp only [hj2]; exact hfr
            rcases hrm : b3.readMore with ⟨b4, m | er1 | _ | _⟩
            · rw [hrm] at h h4
              simp only at h
              by_cases hm : m = 0
              · rw [if_pos hm] at h
                simp only [Prod.mk.injEq] at h
                rw [← h.1.1]; exact h4
              · rw [if_neg hm] at h
                have := ih ({ s2 with b := b4 } : RJ).refresh w1 ⟨h4.ok, rfl, Nat.zero_le _⟩ _ _ _ h
                refine h4.trans (Loose.trans ?_ this)
                refine ⟨h4.ok, Nat.zero_le _, rfl, Nat.le_refl _, ?_, id⟩
                simp only [RJ.rest, RJ.refresh, hj2]; exact Nat.le_refl _
            · rw [hrm] at h h4
              simp only [Prod.mk.injEq] at h
              rw [← h.1.1]; exact h4
            · rw [hrm] at h; simp at h
            · rw [hrm] at h; simp at h
          · rw [hwr] at h
            simp only [Prod.mk.injEq] at h
            rw [← h.1.1]; exact hl2
          · rw [hwr] at h; simp at h
          · rw [hwr] at h; simp at h

/-! ### `known_skip_token` does not look at the part of the buffer known to jiter -/

/-- Two states that differ only in how much of the buffer jiter knows. -/
def Alike (s t : RJ) : Prop := s.b = t.b ∧ s.jidx = t.jidx

theorem lookaheadEnd_alike {s t : RJ} (h : Alike s t) (b1 : Buffer) (a e : Nat) :
    (s.lookaheadEnd b1 a e).2 = (t.lookaheadEnd b1 a e).2 ∧ Alike (s.lookaheadEnd b1 a e).1 (t.lookaheadEnd b1 a e).1 := by
  obtain ⟨hb, hj⟩ := h
  obtain ⟨sb, sj, sl⟩ := s
  obtain ⟨tb, tj, tl⟩ := t
  simp only at hb hj
  subst hb hj
  unfold lookaheadEnd
  simp only [RJ.refresh]
  split
  · split
    · split
      · exact ⟨rfl, rfl, rfl⟩
      · split <;> exact ⟨rfl, rfl, rfl⟩
    · split <;> exact ⟨rfl, rfl, rfl⟩
  · split <;> exact ⟨rfl, rfl, rfl⟩

theorem lookaheadN_alike {s t : RJ} (h : Alike s t) (fuel n : Nat) :
    (s.lookaheadN fuel n).2 = (t.lookaheadN fuel n).2 ∧ Alike (s.lookaheadN fuel n).1 (t.lookaheadN fuel n).1 := by
  unfold lookaheadN
  rw [h.1, h.2]
  rcases t.b.collectCount fuel n t.jidx true with ⟨b1, ⟨a, e⟩ | er | _ | _⟩
  · exact lookaheadEnd_alike h b1 a e
  · exact ⟨rfl, rfl, rfl⟩
  · exact ⟨rfl, rfl, rfl⟩
  · exact ⟨rfl, rfl, rfl⟩

theorem skipNBytes_alike {s t : RJ} (h : Alike s t) (fuel n : Nat) :
    (s.skipNBytes fuel n).2 = (t.skipNBytes fuel n).2 ∧ Alike (s.skipNBytes fuel n).1 (t.skipNBytes fuel n).1 := by
  unfold skipNBytes
  rw [h.1, h.2]
  rcases t.b.skipN fuel n t.jidx with ⟨b1, ⟨a, e⟩ | er | _ | _⟩
  · exact ⟨rfl, rfl, rfl⟩
  · exact ⟨rfl, rfl, rfl⟩
  · exact ⟨rfl, rfl, rfl⟩
  · exact ⟨rfl, rfl, rfl⟩

theorem skipNBytes_ok_len {s s' : RJ} {fuel n m : Nat} (h : s.skipNBytes fuel n = (s', .ok m)) : s'.jlen = s'.b.nBytes := by
  unfold skipNBytes at h
  rcases hx : s.b.skipN fuel n s.jidx with ⟨b1, ⟨a, e⟩ | er | _ | _⟩ <;> rw [hx] at h <;> simp at h
  rw [← h.1]; rfl

/-- Everything `known_skip_token` can do after a failed call, if the reader does not fail. -/
theorem knownSkipToken_loose (s : RJ) (t : Bytes) (fuel : Nat) (ok : s.b.nBytes ≤ s.b.buf.length) (idx : s.jidx ≤ s.b.nBytes)
    (hl : 0 < s.b.buf.length) (hf : s.b.reader.size < fuel) (hcl : s.b.reader.Clean) :
    (∃ s' n, s.knownSkipToken fuel t = (s', .ok ()) ∧ s'.Sync ∧ n = t.length ∧ s'.rest.length + n = s.rest.length ∧
      s'.b.buf.length = s.b.buf.length ∧ s'.b.reader.size ≤ s.b.reader.size ∧ s'.b.reader.Clean) ∨
    (∃ s' e, s.knownSkipToken fuel t = (s', .err e) ∧ Loose s s') := by
  have hsy : ({ s with jlen := s.b.nBytes } : RJ).Sync := ⟨ok, rfl, idx⟩
  have hal : Alike s { s with jlen := s.b.nBytes } := ⟨rfl, rfl⟩
  have hla := lookaheadN_alike hal fuel t.length
  simp only [knownSkipToken]
  rcases lookaheadN_spec { s with jlen := s.b.nBytes } t.length fuel hsy hf with
    ⟨s1, e, hm⟩ | ⟨s1, x, e, hbig, _, _, _, hfr⟩ | ⟨s', kd, x, e, hc⟩
  · rw [e] at hla
    rcases hx : s.lookaheadN fuel t.length with ⟨s2, r⟩
    rw [hx] at hla
    obtain ⟨h1, h2⟩ := hla
    simp only at h1 h2
    subst h1
    have hrest : s2.rest = s.rest := by
      have := hm.rest
      simp only [RJ.rest] at this ⊢
      rw [h2.1, h2.2, this]; rfl
    have hlo : Loose s s2 := by
      refine ⟨by rw [h2.1]; exact hm.sync.ok, by rw [h2.1, h2.2]; exact hm.sync.idx, by rw [h2.1]; exact hm.buf,
        by rw [h2.1]; exact hm.size, by rw [hrest]; exact Nat.le_refl _, fun h => by rw [h2.1]; exact hm.clean h⟩
    simp only
    by_cases heq : List.take t.length ({ s with jlen := s.b.nBytes } : RJ).rest = t
    · rw [if_pos heq]
      have hlen : t.length ≤ s.rest.length := by
        have := congrArg List.length heq
        rw [List.length_take] at this
        have e : ({ s with jlen := s.b.nBytes } : RJ).rest = s.rest := rfl
        rw [e] at this; omega
      have hsk := skipNBytes_alike h2 fuel t.length
      rcases skipNBytes_spec s1 t.length fuel hm.sync (by rw [hm.buf]; exact hl)
        (Nat.lt_of_le_of_lt hm.size hf) with ⟨s3, e3, hm3⟩ | ⟨s3, kd, x, e3, hc3⟩
      · rw [e3] at hsk
        rcases hy : s2.skipNBytes fuel t.length with ⟨s4, r4⟩
        rw [hy] at hsk
        obtain ⟨g1, g2⟩ := hsk
        simp only at g1 g2
        subst g1
        have hjl := skipNBytes_ok_len hy
        have hs34 : s4 = s3 := by
          have h1 := hm3.sync.len
          have h2 := g2.1
          have h3 := g2.2
          obtain ⟨b4, j4, l4⟩ := s4
          obtain ⟨b3, j3, l3⟩ := s3
          simp only at hjl h1 h2 h3
          subst h2 h3
          rw [hjl, h1]
        subst hs34
        left
        have hr1 : s1.rest = s.rest := hm.rest
        rw [hr1, Nat.min_eq_left hlen] at hm3
        refine ⟨s4, t.length, rfl, hm3.sync, rfl, ?_, hm3.buf.trans hm.buf, Nat.le_trans hm3.size hm.size,
          hm3.clean (hm.clean hcl)⟩
        have h5 := hm3.rest
        rw [hr1] at h5
        rw [h5, List.length_drop]; omega
      · exact absurd (hm.clean hcl) hc3
    · rw [if_neg heq]
      exact .inr ⟨_, _, rfl, hlo⟩
  · rw [e] at hla
    rcases hx : s.lookaheadN fuel t.length with ⟨s2, r⟩
    rw [hx] at hla
    obtain ⟨h1, h2⟩ := hla
    simp only at h1 h2
    subst h1
    refine .inr ⟨_, _, rfl, ?_⟩
    refine .ofFrame ?_
    rename_i hji _
    have hji : s1.jidx = s.jidx := hji
    rw [h2.1, h2.2, hji]
    exact hfr
  · exact absurd hcl hc

end RJ

end Verif.RJiter
