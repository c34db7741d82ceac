import Verif.RJiter.LongSafe

/-!
# `handle_long` on a well-formed string that is cut off by the end of the input
-/

namespace Verif.RJiter

open Buffer RJ Jiter

theorem handleLong_cut (k : Kind) (s0 : RJ) (x : Bytes) (P : Prop) (J : Buffer → Prop)
    (hstep : ∀ b seg b' n, J b → b.nBytes ≤ b.buf.length → seg ≤ b.nBytes → 8 ≤ b.buf.length →
      (if seg > 1 then b.shift 1 seg else b).readMore = (b', .ok n) → n ≠ 0 → J b')
    (hJ : P → ∀ b, J b → b.reader.pending ≠ [] → b.nBytes = 3 ∨ b.nBytes = 7 → leadAt b.buf b.nBytes = true)
    (hlen : 8 ≤ s0.b.buf.length) :
    ∀ (fuel : Nat) (s : RJ) (w : Writer) (m : Nat) (p v : Bytes),
    ((s = s0 ∧ s0.Sync ∧ m = 0) ∨ LongInv s0 s m) → s.rest = 34 :: p → LongBody k (p ++ x) v → (92 ∈ p ++ x → P) →
    J (startBuf s) → ∀ y, (handleLong k fuel s w) ≠ (y, .ok ()) := by
  intro fuel
  induction fuel with
  | zero => intro s w m p v _ _ _ _ _ y h; simp [handleLong] at h
  | succ fuel ih =>
    intro s w m p v hs hrest hr h92 hJs y
    have hsync : s.Sync := by
      rcases hs with ⟨rfl, h, _⟩ | h
      · exact h
      · exact ⟨h.ok, h.jlen, by rw [h.jidx]; exact Nat.zero_le _⟩
    have hjl := jdata_length hsync
    have hjr := rest_eq hsync
    have hjd : s.jdata = (34 :: (p ++ x ++ [34])).take (s.b.nBytes - s.jidx) := by
      have h3 : 34 :: (p ++ x ++ [34]) = s.jdata ++ (s.b.reader.pending ++ (x ++ [34])) := by
        rw [← List.append_assoc, ← hjr, hrest]; simp
      rw [h3, ← hjl, List.take_left]
    have hlt : s.b.nBytes - s.jidx < (p ++ x).length + 2 := by
      have := congrArg List.length hjr
      rw [hrest, List.length_append, List.length_cons] at this
      rw [List.length_append]; omega
    have hp := hr.parser 34 []
    obtain ⟨_, hle, hp1, hp2⟩ := k.parser_prefix _ _ _ hp
    obtain ⟨e, hpe, hret⟩ := hp2 _ hlt
    rw [handleLong_succ, hjd, hpe]
    simp only [Nat.add_zero, hret, Bool.not_true, Bool.false_eq_true, if_false]
    have hinv : LongInv s0 (if s.jidx > 0 then ({ s with b := s.b.shift 0 s.jidx, jidx := s.jidx } : RJ).refresh
        else { s with jidx := s.jidx }) m := by
      rcases hs with ⟨rfl, h, rfl⟩ | h
      · by_cases h0 : s.jidx > 0
        · rw [if_pos h0]
          exact LongInv.ofFrame (s := ({ s with b := s.b.shift 0 s.jidx, jidx := s.jidx } : RJ).refresh)
            (Frame.shift0 h.ok h.idx) rfl rfl
        · rw [if_neg h0]
          refine LongInv.ofFrame (s := { s with jidx := s.jidx }) ?_ h.len (by show s.jidx = 0; omega)
          have : Frame s.b s.b s.jidx s.jidx := Frame.refl h.ok h.idx
          rwa [show s.jidx = 0 by omega] at this ⊢
      · rw [if_neg (by rw [h.jidx]; omega)]
        exact h
    have hst : (if s.jidx > 0 then ({ s with b := s.b.shift 0 s.jidx, jidx := s.jidx } : RJ).refresh
        else { s with jidx := s.jidx }).b = startBuf s := by
      unfold startBuf; split <;> rfl
    have hrest2 : (startBuf s).rest 0 = 34 :: p := by
      rw [← hrest]
      have hfr : Frame s.b (startBuf s) s.jidx 0 := by
        unfold startBuf
        by_cases h0 : s.jidx > 0
        · rw [if_pos h0]; exact Frame.shift0 hsync.ok hsync.idx
        · rw [if_neg h0]
          have : Frame s.b s.b s.jidx s.jidx := Frame.refl hsync.ok hsync.idx
          rwa [show s.jidx = 0 by omega] at this ⊢
      exact hfr.rest
    rw [← hst] at hJs hrest2
    clear hst
    revert hinv hJs hrest2
    generalize (if s.jidx > 0 then ({ s with b := s.b.shift 0 s.jidx, jidx := s.jidx } : RJ).refresh
        else { s with jidx := s.jidx }) = s2
    intro hJs hinv hrest2
    unfold longRound
    have hl8 : 8 ≤ s2.b.buf.length := by rw [hinv.len]; exact hlen
    have hvl := valid_length hinv.ok
    have hplen : s2.b.nBytes ≤ p.length + 1 := by
      have := congrArg List.length hrest2
      rw [rest_length _ hinv.ok, List.length_cons] at this
      omega
    have hgen : ∀ (b3 : Buffer) (w1 : Writer), (b3.reader.pending ≠ [] → ∃ m' p' v',
        LongInv s0 ⟨b3, b3.nBytes, s2.jidx⟩ m' ∧ b3.rest 0 = 34 :: p' ∧ LongBody k (p' ++ x) v' ∧
        (92 ∈ p' ++ x → 92 ∈ p ++ x) ∧ (∀ b' n, b3.readMore = (b', .ok n) → n ≠ 0 → J b')) →
        b3.nBytes ≤ b3.buf.length →
        (match b3.readMore with
          | (b4, .ok n) =>
            if n = 0 then
              (({ s2 with b := b4 }, w1),
                .err (.fromJiter ({ s2 with b := b4 } : RJ).currentIndex e.type (s.jidx + e.index)))
            else handleLong k fuel ({ s2 with b := b4 } : RJ).refresh w1
          | (b4, .err er) => (({ s2 with b := b4 }, w1), .err er)
          | (b4, .panic) => (({ s2 with b := b4 }, w1), .panic)
          | (b4, .diverge) => (({ s2 with b := b4 }, w1), .diverge)) ≠ (y, Res.ok ()) := by
      intro b3 w1 hex hok3
      rcases b3.readMore_cases hok3 with ⟨h1, e⟩ | ⟨h1, e⟩ | ⟨q, r', hlt, h1, e⟩ |
        ⟨b', bs, e, hb, hv', hn', ho, hl', hp', hs', hcl', _⟩
      · rw [e]; simp
      · rw [e]; simp
      · rw [e]; simp
      · obtain ⟨m', p', v', hinv3, hrest3, hr3, hsub, hJ3⟩ := hex (by
          rw [hp']; intro h0
          have := congrArg List.length h0
          simp at this; simp [this.1] at hb)
        have hread := hinv3.read
        simp only [e] at hread ⊢
        rw [if_neg (by omega)]
        refine ih _ _ m' p' v' (.inr hread) ?_ hr3 (fun h => h92 (hsub h)) ?_ y
        · show b'.rest 0 = _
          rw [← hrest3, Buffer.rest, Buffer.rest, List.drop_zero, List.drop_zero, hv', hp', List.append_assoc]
        · rw [startBuf_zero rfl]
          exact hJ3 b' bs.length e (by omega)
    have hseg := segmentEnd_le hinv.ok
    have hble := backToLeading_le s2.b.buf (segmentEnd s2.b)
    by_cases hpend : s2.b.reader.pending = []
    · -- nothing more to read
      rw [if_neg (by have := hinv.ok; omega)]
      have hws := fun seg => writeSegment_res k s2.b.buf seg s2.currentIndex w
      revert hble
      generalize backToLeading s2.b.buf (segmentEnd s2.b) = seg
      intro hble
      by_cases h1 : seg > 1
      · simp only [h1, if_true]
        rcases hws seg with ⟨w1, e1⟩ | ⟨w1, er, e1⟩
        · rw [e1]
          simp only
          exact hgen _ _ (fun h => absurd (by rw [shift_reader]; exact hpend) h) (s2.b.shift_spec hinv.ok (by omega)).2.2.2.2.1
        · rw [e1]; simp
      · simp only [h1, if_false]
        exact hgen _ _ (fun h => absurd hpend h) hinv.ok
    · have hv : s2.b.valid = (34 :: (p ++ x ++ 34 :: [])).take s2.b.nBytes := by
        have h3 : 34 :: (p ++ x ++ [34]) = s2.b.valid ++ (s2.b.reader.pending ++ (x ++ [34])) := by
          have : s2.b.valid ++ s2.b.reader.pending = 34 :: p := by rw [← hrest2, Buffer.rest, List.drop_zero]
          rw [← List.append_assoc, this]; simp
        rw [h3, ← hvl, List.take_left]
      obtain ⟨hsb, hcase⟩ := segment_body hinv.ok hl8 hr hv (by rw [List.length_append]; omega)
        (fun h => hJ (h92 h) _ hJs hpend)
      rw [if_neg (by omega)]
      have hws := fun seg => writeSegment_res k s2.b.buf seg s2.currentIndex w
      revert hcase hsb hble
      generalize backToLeading s2.b.buf (segmentEnd s2.b) = seg
      intro hble hsb hcase
      rcases hcase with ⟨h1, hroom⟩ | ⟨h1, hle1, v1, v2, rfl, hb1, hb2⟩
      · simp only [show ¬ seg > 1 by omega, if_false]
        refine hgen s2.b w (fun _ => ⟨m, p, v, by rw [← hinv.jlen]; exact hinv, hrest2, hr, id, ?_⟩) hinv.ok
        intro b' n hrm hn0
        refine hstep s2.b 0 b' n hJs hinv.ok (by omega) hl8 ?_ hn0
        rw [if_neg (by omega)]; exact hrm
      · simp only [show seg > 1 from h1, if_true]
        rcases hws seg with ⟨w1, e1⟩ | ⟨w1, er, e1⟩
        · rw [e1]
          simp only
          obtain ⟨f1, f2, f3, f4, f5, f6, _⟩ := s2.b.shift_spec hinv.ok (t := 1) (f := seg) (by omega)
          refine hgen _ _ (fun _ => ⟨m + (seg - 1), p.drop (seg - 1), v2, hinv.shift h1 hle1, ?_, ?_, ?_, ?_⟩) f5
          · rw [Buffer.rest, List.drop_zero, f1, f6, List.append_assoc]
            have t1 : s2.b.valid.take 1 = [34] := by
              rw [hv, List.take_take, Nat.min_eq_left (by omega)]; rfl
            have t2 : s2.b.valid.drop seg ++ s2.b.reader.pending = (s2.b.rest 0).drop seg := by
              rw [Buffer.rest, List.drop_zero, List.drop_append_of_le_length (by omega)]
            rw [t1, t2, hrest2]
            obtain ⟨g, rfl⟩ : ∃ g, seg = g + 1 := ⟨seg - 1, by omega⟩
            rw [List.drop_succ_cons, Nat.add_sub_cancel]
            rfl
          · rw [List.drop_append_of_le_length (by omega)] at hb2
            exact hb2
          · intro h
            rw [← List.drop_append_of_le_length (by omega)] at h
            exact List.mem_of_mem_drop h
          · intro b' n hrm hn0
            refine hstep s2.b seg b' n hJs hinv.ok (by omega) hl8 ?_ hn0
            rw [if_pos h1]; exact hrm
        · rw [e1]; simp

theorem handleLong_cut_safe (k : Kind) (s : RJ) (fuel : Nat) (w : Writer) (p x v : Bytes) (h : s.Sync)
    (hlen : 8 ≤ s.b.buf.length) (hr : s.rest = 34 :: p) (hb : LongBody k (p ++ x) v) (hsafe : StaleSafe s (p ++ x)) :
    ∀ y, handleLong k fuel s w ≠ (y, .ok ()) := by
  obtain ⟨P, J, h1, h2, h3, h4⟩ := hsafe.inv h hlen
  exact handleLong_cut k s x P J h1 h2 hlen fuel s w 0 p v (.inl ⟨rfl, h, rfl⟩) hr hb h3 h4

end Verif.RJiter
