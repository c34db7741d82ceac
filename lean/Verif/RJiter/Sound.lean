import Verif.RJiter.Calls

/-!
# A success is a move forward: every jiter function, `finish`, and the long-string copy
-/

namespace Verif.RJiter

open Buffer RJ Jiter

/-! ### The jiter functions -/

theorem PrefixFn.jsound {α : Type} {f : JFn α} (h : PrefixFn f) : JSound f none := by
  constructor
  · intro d n v hd
    obtain ⟨h1, h2, _⟩ := h d n v hd
    refine ⟨h2, ?_⟩
    intro h0; subst h0; simp at h2; omega
  · intro t ht; simp at ht

theorem peek_jsound : JSound Jiter.peek none := by
  constructor
  · intro d n v hd
    obtain ⟨ws, t, rfl, _, _, rfl⟩ := peek_ok hd
    exact ⟨by simp, by simp⟩
  · intro t ht; simp at ht

theorem knownArray_jsound : JSound Jiter.knownArray (some 91) := by
  constructor
  · intro d n v hd
    obtain ⟨x, ws, c, t, rfl, hw, hc⟩ := knownArray_ok hd
    rw [knownArray_tok x hw hc] at hd
    refine ⟨?_, by simp⟩
    by_cases h : c = 93
    · rw [if_pos h] at hd; simp only [Prod.mk.injEq] at hd; simp; omega
    · rw [if_neg h] at hd; simp only [Prod.mk.injEq] at hd; simp; omega
  · intro t _ d n v hd
    obtain ⟨x, ws, c, t', e, hw, hc⟩ := knownArray_ok hd
    rw [e, knownArray_tok x hw hc] at hd
    by_cases h : c = 93
    · rw [if_pos h] at hd; simp only [Prod.mk.injEq] at hd; omega
    · rw [if_neg h] at hd; simp only [Prod.mk.injEq] at hd; omega

theorem arrayStep_jsound : JSound Jiter.arrayStep (some 44) := by
  constructor
  · intro d n v hd
    rcases arrayStep_ok hd with ⟨ws, t, rfl, _, _, rfl⟩ | ⟨ws, ws2, c, t, rfl, _, _, _, _, _, rfl⟩
    · exact ⟨by simp, by simp⟩
    · exact ⟨by simp; omega, by simp⟩
  · intro t _ d n v hd
    rcases arrayStep_ok hd with ⟨ws, t, _, _, _, rfl⟩ | ⟨ws, ws2, c, t, _, _, _, _, _, _, rfl⟩
    · omega
    · omega

theorem objectKey_le {known : JFn Bytes} (hk : PrefixFn known) {d : Bytes} {n : Nat} {v : Bytes}
    (h : objectKey known d = (n, .ok v)) : n ≤ d.length := (objectKey_prefix hk h).2.1

theorem knownObject_jsound {known : JFn Bytes} (hk : PrefixFn known) :
    JSound (Jiter.knownObject known) (some 123) := by
  constructor
  · intro d n v hd
    rcases knownObject_ok hd with ⟨x, ws, t, rfl, _, _, rfl⟩ | ⟨x, ws, t, m, k, rfl, _, _, ho, rfl⟩
    · exact ⟨by simp; omega, by simp⟩
    · have := objectKey_le hk ho
      exact ⟨by simp at this ⊢; omega, by simp⟩
  · intro t _ d n v hd
    rcases knownObject_ok hd with ⟨x, ws, t, _, _, _, rfl⟩ | ⟨x, ws, t, m, k, _, _, _, ho, rfl⟩
    · omega
    · omega

theorem nextKey_jsound {known : JFn Bytes} (hk : PrefixFn known) : JSound (Jiter.nextKey known) (some 44) := by
  constructor
  · intro d n v hd
    rcases nextKey_ok hd with ⟨ws, t, rfl, _, _, rfl⟩ | ⟨ws, ws2, t, m, k, rfl, _, _, _, ho, rfl⟩
    · exact ⟨by simp, by simp⟩
    · have := objectKey_le hk ho
      exact ⟨by simp at this ⊢; omega, by simp⟩
  · intro t _ d n v hd
    rcases nextKey_ok hd with ⟨ws, t, _, _, _, rfl⟩ | ⟨ws, ws2, t, m, k, _, _, _, _, ho, rfl⟩
    · omega
    · omega

/-- A `next_*` function is sound if the function behind it is. -/
theorem Next.jsound {α : Type} {f : JFn α} {sel : Byte → Option (JFn α)} (hn : Next f sel) {tok : Option Byte}
    (hs : ∀ c g, sel c = some g → JSound g tok) : JSound f tok := by
  constructor
  · intro d n v hd
    obtain ⟨ws, c, t, g, m, rfl, _, _, hsel, hg, rfl⟩ := hn.ok hd
    have := ((hs c g hsel).bound _ _ _ hg).1
    exact ⟨by simp at this ⊢; omega, by simp⟩
  · intro x hx d n v hd
    obtain ⟨ws, c, t, g, m, e, hw, hc, hsel, hg, rfl⟩ := hn.ok hd
    cases ws with
    | nil =>
      simp only [List.nil_append, List.cons.injEq] at e
      rw [← e.1] at hg
      have := (hs c g hsel).token x hx _ _ _ hg
      omega
    | cons a ws => simp; omega

theorem nextArray_jsound : JSound Jiter.nextArray (some 91) := by
  apply Next.jsound nextArray_next
  intro c g h
  by_cases hc : c = 91
  · simp only [hc, if_true, Option.some.injEq] at h; subst h; exact knownArray_jsound
  · simp [hc] at h

theorem nextObject_jsound {known : JFn Bytes} (hk : PrefixFn known) :
    JSound (Jiter.nextObject known) (some 123) := by
  apply Next.jsound (nextObject_next known)
  intro c g h
  by_cases hc : c = 123
  · simp only [hc, if_true, Option.some.injEq] at h; subst h; exact knownObject_jsound hk
  · simp [hc] at h

theorem nextNull_jsound : JSound Jiter.nextNull none := by
  apply Next.jsound nextNull_next
  intro c g h
  by_cases hc : c = 110
  · simp only [hc, if_true, Option.some.injEq] at h; subst h; exact PrefixFn.jsound knownNull_prefix
  · simp [hc] at h

theorem nextBool_jsound : JSound Jiter.nextBool none := by
  apply Next.jsound nextBool_next
  intro c g h
  by_cases hc : c = 116 ∨ c = 102
  · simp only [hc, if_true, Option.some.injEq] at h; subst h; exact PrefixFn.jsound (knownBool_prefix c)
  · simp [hc] at h

theorem nextString_jsound {known : JFn Bytes} (hk : PrefixFn known) : JSound (Jiter.nextString known) none := by
  apply Next.jsound (nextString_next known)
  intro c g h
  by_cases hc : c = 34
  · simp only [hc, if_true, Option.some.injEq] at h; subst h; exact PrefixFn.jsound hk
  · simp [hc] at h

theorem numberTok_jsound : JSound numberTok none := by
  constructor
  · intro d n v hd
    simp only [numberTok] at hd
    cases hn : numberEnd d with
    | error e => rw [hn] at hd; simp [jerr] at hd
    | ok m =>
      rw [hn] at hd
      simp only [Prod.mk.injEq] at hd
      obtain ⟨rfl, _⟩ := hd
      rw [numberEnd_eq] at hn
      have h1 := numBody_num _ _ _ hn
      have h2 := numBody_pos hn
      rw [List.length_drop] at h1
      refine ⟨by omega, ?_⟩
      intro h0; subst h0; simp [minusLen] at h1 h2; omega
  · intro t ht; simp at ht

theorem nextNumber_jsound : JSound Jiter.nextNumberBytes none := by
  apply Next.jsound nextNumber_next
  intro c g h
  by_cases hc : c = 45 ∨ isDigit c = true
  · simp only [hc, if_true, Option.some.injEq] at h; subst h; exact numberTok_jsound
  · simp [hc] at h

/-! ### `finish` -/

theorem finish_ws {ws : Bytes} (h : Ws ws) : Jiter.finish ws = (ws.length, .ok ()) := by
  simp only [Jiter.finish, wsLen_all h, List.drop_length]

theorem finish_tok {ws : Bytes} (h : Ws ws) {c : Byte} (hc : isWs c = false) (t : Bytes) :
    Jiter.finish (ws ++ c :: t) = jerr ws.length .trailingCharacters ws.length := by
  simp only [Jiter.finish, wsLen_cons h hc, List.drop_left]

/-- Moving the jiter inside the buffer. -/
theorem Moved.inside {s : RJ} (h : s.Sync) {n : Nat} (hn : s.jidx + n ≤ s.b.nBytes) :
    s.Moved { s with jidx := s.jidx + n } n := by
  refine ⟨⟨h.ok, h.len, hn⟩, ?_, ?_, ?_, rfl, Nat.le_refl _, id⟩
  · rw [rest_eq h, List.length_append, jdata_eq h, List.length_drop, valid_length h.ok]; omega
  · show s.b.rest (s.jidx + n) = (s.b.rest s.jidx).drop n
    rw [Buffer.rest, Buffer.rest, List.drop_append_of_le_length (by simp [valid_length h.ok]; omega), List.drop_drop]
  · simp only [currentIndex]; omega

theorem jdata_length {s : RJ} (h : s.Sync) : s.jdata.length = s.b.nBytes - s.jidx := by
  rw [jdata_eq h, List.length_drop, valid_length h.ok]

theorem finishLoop_spec : ∀ (fuel : Nat) (s : RJ), s.Sync → 0 < s.b.buf.length →
    2 * s.b.reader.size + (if s.b.nBytes = s.b.buf.length then 1 else 0) < fuel →
    (∃ s', s.finishLoop fuel = (s', .ok ()) ∧ Ws s.rest ∧ s.Moved s' s.rest.length) ∨
    (∃ s' x ws c t, s.finishLoop fuel = (s', .err ⟨.json .trailingCharacters, x⟩) ∧ s.rest = ws ++ c :: t ∧
      Ws ws ∧ isWs c = false ∧ s.Moved s' ws.length) ∨
    (∃ s' kd x, s.finishLoop fuel = (s', .err ⟨.io kd, x⟩) ∧ ¬ s.b.reader.Clean) := by
  intro fuel
  induction fuel with
  | zero => intro s _ _ h; omega
  | succ fuel ih =>
    intro s h hl hfuel
    have hjl := jdata_length h
    have hidx := h.idx
    have hok := h.ok
    have hre := rest_eq h
    simp only [finishLoop, call]
    rcases ws_split s.jdata with hw | ⟨ws, c, t, hd, hw, hc⟩
    · rw [finish_ws hw]
      simp only
      have hend : s.jidx + s.jdata.length = s.b.nBytes := by omega
      rw [hend]
      have hm1 : s.Moved { s with jidx := s.b.nBytes } s.jdata.length := by
        have := Moved.inside h (n := s.jdata.length) (by omega)
        rwa [hend] at this
      -- the common end of the two continuing branches
      have hcont : ∀ b2 : Buffer, Frame s.b b2 s.b.nBytes s.b.nBytes →
          2 * b2.reader.size + (if (b2.shift 0 s.b.nBytes).nBytes = b2.buf.length then 1 else 0) < fuel →
          (∃ s', finishLoop fuel ({ s with b := b2.shift 0 s.b.nBytes, jidx := s.b.nBytes } : RJ).refresh = (s', .ok ()) ∧ Ws s.rest ∧
            s.Moved s' s.rest.length) ∨
          (∃ s' x ws c t, finishLoop fuel ({ s with b := b2.shift 0 s.b.nBytes, jidx := s.b.nBytes } : RJ).refresh =
            (s', .err ⟨.json .trailingCharacters, x⟩) ∧ s.rest = ws ++ c :: t ∧ Ws ws ∧ isWs c = false ∧
            s.Moved s' ws.length) ∨
          (∃ s' kd x, finishLoop fuel ({ s with b := b2.shift 0 s.b.nBytes, jidx := s.b.nBytes } : RJ).refresh =
            (s', .err ⟨.io kd, x⟩) ∧ ¬ s.b.reader.Clean) := by
        intro b2 hf2 hfu
        have hf3 : Frame b2 (b2.shift 0 s.b.nBytes) s.b.nBytes 0 := .shift0 hf2.ok hf2.pos
        have hm2 : ({ s with jidx := s.b.nBytes } : RJ).Moved
            ({ s with b := b2.shift 0 s.b.nBytes, jidx := s.b.nBytes } : RJ).refresh 0 :=
          Moved.ofFrame (s := { s with jidx := s.b.nBytes })
            (s' := ({ s with b := b2.shift 0 s.b.nBytes, jidx := s.b.nBytes } : RJ).refresh) (hf2.trans hf3) rfl
        have hm := hm1.trans hm2
        rw [Nat.add_zero] at hm
        have hrd := (b2.shift_spec hf2.ok (Nat.zero_le s.b.nBytes)).2.2.2.2.2.1
        have hbl := (b2.shift_spec hf2.ok (Nat.zero_le s.b.nBytes)).2.2.2.1
        have hih := ih ({ s with b := b2.shift 0 s.b.nBytes, jidx := s.b.nBytes } : RJ).refresh hm.sync
          (by rw [hm.buf]; exact hl) (by
            show 2 * (b2.shift 0 s.b.nBytes).reader.size +
              (if (b2.shift 0 s.b.nBytes).nBytes = (b2.shift 0 s.b.nBytes).buf.length then 1 else 0) < fuel
            rw [hrd, hbl]; exact hfu)
        generalize ({ s with b := b2.shift 0 s.b.nBytes, jidx := s.b.nBytes } : RJ).refresh = s2 at hm hih ⊢
        have hr2 : s.rest = s.jdata ++ s2.rest := by
          rw [hm.rest, hre, List.drop_left]
        rcases hih with ⟨s', e, hw2, hm3⟩ | ⟨s', x, ws, c, t, e, hr, hw2, hc, hm3⟩ | ⟨s', kd, x, e, hcl⟩
        · left
          refine ⟨s', e, ?_, ?_⟩
          · rw [hr2]
            intro c hc
            rcases List.mem_append.mp hc with hc | hc
            · exact hw c hc
            · exact hw2 c hc
          · have := hm.trans hm3
            rwa [show s.jdata.length + s2.rest.length = s.rest.length by rw [hr2, List.length_append]] at this
        · right; left
          refine ⟨s', x, s.jdata ++ ws, c, t, e, by rw [hr2, hr, List.append_assoc], ?_, hc, ?_⟩
          · intro c hc
            rcases List.mem_append.mp hc with hc | hc
            · exact hw c hc
            · exact hw2 c hc
          · have := hm.trans hm3
            rwa [← List.length_append] at this
        · right; right
          exact ⟨s', kd, x, e, fun hcc => hcl (hm.clean hcc)⟩
      by_cases hfull : s.b.nBytes < s.b.buf.length
      · rw [if_pos hfull]
        have hfr := Frame.readMore h.ok (Nat.le_refl s.b.nBytes)
        rcases s.b.readMore_cases h.ok with ⟨_, e⟩ | ⟨hno, e⟩ | ⟨q, r', hlt, hr, e⟩ |
          ⟨b', bs, e, hb, hv, hn, ho, hl', hp, hs', hcl, _⟩
        · omega
        · rw [e]
          simp only [if_true]
          left
          have hrest : s.rest = s.jdata := by rw [hre, hno]; simp [Reader.pending]
          exact ⟨_, rfl, by rw [hrest]; exact hw, by rw [hrest]; exact hm1⟩
        · rw [e]
          right; right
          exact ⟨_, _, _, rfl, by rw [hr]; exact id⟩
        · rw [e] at hfr ⊢
          simp only
          rw [if_neg (by omega)]
          apply hcont b' hfr
          split at hfuel <;> split <;> omega
      · rw [if_neg hfull]
        simp only
        rw [if_neg (by omega)]
        apply hcont s.b (Frame.refl h.ok (Nat.le_refl _))
        have := (s.b.shift_spec h.ok (Nat.zero_le s.b.nBytes)).2.1
        rw [if_pos (by omega)] at hfuel
        rw [if_neg (by omega)]
        omega
    · rw [hd, finish_tok hw hc]
      right; left
      refine ⟨_, _, ws, c, t ++ s.b.reader.pending, rfl, by rw [hre, hd]; simp, hw, hc, ?_⟩
      have hdl := congrArg List.length hd
      rw [List.length_append, List.length_cons] at hdl
      exact Moved.inside h (n := ws.length) (by omega)

end Verif.RJiter
