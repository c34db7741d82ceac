import Verif.RJiter.PropsErr

/-!
# Calls on input that they cannot accept
-/

namespace Verif.RJiter

open Buffer RJ Jiter

/-- If nothing the function is ever called with is accepted, the call fails. -/
theorem RJ.never {α : Type} {f : JFn α} {tok : Option Byte} {eager : Bool} (hs : JSound f tok)
    (s : RJ) (fuel : Nat) (h : s.Sync) (hl : 0 < s.b.buf.length) (hl2 : tok ≠ none → 1 < s.b.buf.length)
    (hcl : s.b.reader.Clean) (hf : s.b.reader.size + 2 ≤ fuel)
    (h1 : ∀ k m w, f (s.rest.take k) ≠ (m, .ok w)) (h2 : ∀ k m w, f ((norm tok s.rest).take k) ≠ (m, .ok w))
    (h3 : ∀ k n e, f (s.rest.take k) = (n, .error e) → n = 0 ∨ ∀ m w, f ((s.rest.take k).drop n) ≠ (m, .ok w)) :
    ∃ s' e, s.loopUntilSuccess fuel f tok eager = (s', .err e) ∧ ∀ kd, e.type ≠ .io kd := by
  obtain ⟨s', r, e, hr⟩ := loopUntilSuccess_sound (eager := eager) hs s fuel h hl hl2 hf
  rcases hr with ⟨v, n, rfl, _⟩ | ⟨er, rfl, hio⟩
  · exfalso
    have hjd : s.jdata = s.rest.take s.jdata.length := by rw [rest_eq h, List.take_left]
    rcases loopUntilSuccess_value hs s fuel h hl hl2 hf
      (fun _ _ n e he => by rw [hjd] at he ⊢; exact h3 _ n e he) e with ⟨k, n, ha, _⟩ | ⟨k, n, ha, _⟩
    · exact h1 k n v ha.ok
    · exact h2 k n v ha.ok
  · exact ⟨s', er, e, fun kd hk => hio kd hk hcl⟩

/-- A prefix of space and a byte is space, or all of it. -/
theorem take_head {ws t : Bytes} {c : Byte} (hw : Ws ws) (k : Nat) :
    Ws ((ws ++ c :: t).take k) ∨ ∃ j, (ws ++ c :: t).take k = ws ++ c :: t.take j := by
  by_cases hk : k ≤ ws.length
  · left
    rw [List.take_append_of_le_length hk]
    exact fun x hx => hw x (List.mem_of_mem_take hx)
  · right
    obtain ⟨j, rfl⟩ : ∃ j, k = ws.length + (j + 1) := ⟨k - ws.length - 1, by omega⟩
    exact ⟨j, by rw [List.take_length_add_append, List.take_succ_cons]⟩

theorem arrayStep_ws {d : Bytes} (h : Ws d) : Jiter.arrayStep d = jerr d.length .eofWhileParsingList d.length := by
  simp only [Jiter.arrayStep, wsLen_all h, List.drop_length]

theorem arrayStep_bad {ws : Bytes} (h : Ws ws) {c : Byte} (hc : isWs c = false) (h44 : c ≠ 44) (h93 : c ≠ 93) (t : Bytes) :
    Jiter.arrayStep (ws ++ c :: t) = jerr ws.length .expectedListCommaOrEnd ws.length := by
  simp only [Jiter.arrayStep, wsLen_cons h hc, List.drop_left, if_neg h44, if_neg h93]

theorem nextKey_ws {known : JFn Bytes} {d : Bytes} (h : Ws d) :
    Jiter.nextKey known d = jerr d.length .eofWhileParsingObject d.length := by
  simp only [Jiter.nextKey, wsLen_all h, List.drop_length]

theorem nextKey_bad {known : JFn Bytes} {ws : Bytes} (h : Ws ws) {c : Byte} (hc : isWs c = false) (h44 : c ≠ 44) (h125 : c ≠ 125)
    (t : Bytes) : Jiter.nextKey known (ws ++ c :: t) = jerr ws.length .expectedObjectCommaOrEnd ws.length := by
  simp only [Jiter.nextKey, wsLen_cons h hc, List.drop_left, if_neg h44, if_neg h125]

theorem nextKey_comma_ws {known : JFn Bytes} {ws ws2 : Bytes} (h : Ws ws) (h2 : Ws ws2) :
    Jiter.nextKey known (ws ++ 44 :: ws2) =
      jerr (ws.length + 1 + ws2.length) .eofWhileParsingValue (ws.length + 1 + ws2.length) := by
  simp only [Jiter.nextKey, wsLen_cons h (show isWs 44 = false by decide), List.drop_left, if_true, wsLen_all h2]
  rw [List.drop_eq_nil_of_le (by simp; omega)]

theorem drop_two (a b : Bytes) (x : Byte) (r : Bytes) : (a ++ x :: (b ++ r)).drop (a.length + 1 + b.length) = r := by
  rw [show a ++ x :: (b ++ r) = (a ++ x :: b) ++ r by simp]
  exact List.drop_left' (by simp; omega)

theorem nextKey_comma_bad {known : JFn Bytes} {ws ws2 : Bytes} (h : Ws ws) (h2 : Ws ws2) {c : Byte} (hc : isWs c = false)
    (h34 : c ≠ 34) (h125 : c ≠ 125) (t : Bytes) :
    Jiter.nextKey known (ws ++ 44 :: (ws2 ++ c :: t)) =
      jerr (ws.length + 1 + ws2.length) .keyMustBeAString (ws.length + 1 + ws2.length) := by
  simp only [Jiter.nextKey, wsLen_cons h (show isWs 44 = false by decide), List.drop_left, if_true, wsLen_cons h2 hc]
  rw [drop_two]
  simp only [if_neg h34, if_neg h125]

theorem nextObject_brace_ws {known : JFn Bytes} {ws : Bytes} (h : Ws ws) :
    Jiter.nextObject known (123 :: ws) = jerr (1 + ws.length) .eofWhileParsingObject (1 + ws.length) := by
  have hp : Jiter.peek (123 :: ws) = (0, .ok 123) := by simpa using peek_tok Ws.nil (show isWs 123 = false by decide) ws
  simp only [Jiter.nextObject, hp, if_true, List.drop_zero, Jiter.knownObject, List.drop_succ_cons, wsLen_all h]
  rw [List.drop_eq_nil_of_le (by simp; omega)]
  simp [jerr]

theorem nextObject_brace_bad {known : JFn Bytes} {ws : Bytes} (h : Ws ws) {c : Byte} (hc : isWs c = false)
    (h34 : c ≠ 34) (h125 : c ≠ 125) (t : Bytes) :
    Jiter.nextObject known (123 :: (ws ++ c :: t)) = jerr (1 + ws.length) .keyMustBeAString (1 + ws.length) := by
  have hp : Jiter.peek (123 :: (ws ++ c :: t)) = (0, .ok 123) := by
    simpa using peek_tok Ws.nil (show isWs 123 = false by decide) (ws ++ c :: t)
  simp only [Jiter.nextObject, hp, if_true, List.drop_zero, Jiter.knownObject, List.drop_succ_cons, wsLen_cons h hc]
  rw [show (123 :: (ws ++ c :: t)).drop (1 + ws.length) = c :: t by simpa using drop_two [] ws 123 (c :: t)]
  simp only [if_neg h34, if_neg h125]
  simp [jerr]

theorem nextObject_other {known : JFn Bytes} {c : Byte} (hc : isWs c = false) (h123 : c ≠ 123) (t : Bytes) :
    Jiter.nextObject known (c :: t) = (0, .error ⟨.wrongType, 0⟩) := by
  have hp : Jiter.peek (c :: t) = (0, .ok c) := by simpa using peek_tok Ws.nil hc t
  simp only [Jiter.nextObject, hp, if_neg h123]

theorem not_ws {c : Byte} (hc : isAsciiWs c = false) : isWs c = false := isWs_of_not_ascii hc

section
variable (s : RJ) (fuel : Nat) (h : s.Sync) (hl : 1 < s.b.buf.length) (hcl : s.b.reader.Clean) (hf : enoughFuel s fuel)
include h hl hcl hf

/-- `array_step` in front of something else than a comma or the end. -/
theorem RJ.arrayStep_fails {ws t : Bytes} {c : Byte} (hr : s.rest = ws ++ c :: t) (hw : Ws ws) (hc : isAsciiWs c = false)
    (h44 : c ≠ 44) (h93 : c ≠ 93) : ∃ s' e, s.arrayStep fuel = (s', .err e) ∧ ∀ kd, e.type ≠ .io kd := by
  unfold enoughFuel at hf
  have hno : ∀ k ws', Ws ws' → ∃ n e, Jiter.arrayStep ((ws' ++ c :: t).take k) = (n, .error e) := by
    intro k ws' hw'
    rcases take_head (t := t) (c := c) hw' k with h1 | ⟨j, h1⟩
    · exact ⟨_, _, arrayStep_ws h1⟩
    · rw [h1]; exact ⟨_, _, arrayStep_bad hw' (not_ws hc) h44 h93 _⟩
  refine never arrayStep_jsound s fuel h (by omega) (fun _ => hl) hcl (by omega) ?_ ?_ ?_
  · intro k m w he
    obtain ⟨n, e, h1⟩ := hno k ws hw
    rw [hr, h1] at he; simp at he
  · intro k m w he
    obtain ⟨n, e, h1⟩ := hno k [] Ws.nil
    rw [hr, norm_other hw hc h44] at he
    rw [List.nil_append] at h1
    rw [h1] at he; simp at he
  · intro k n e he
    right
    intro m w
    rw [hr] at he ⊢
    rcases take_head (t := t) (c := c) hw k with h1 | ⟨j, h1⟩
    · rw [arrayStep_ws h1] at he
      simp only [jerr, Prod.mk.injEq] at he
      rw [← he.1, List.drop_length, arrayStep_ws Ws.nil]
      simp [jerr]
    · rw [h1, arrayStep_bad hw (not_ws hc) h44 h93] at he
      simp only [jerr, Prod.mk.injEq] at he
      rw [h1, ← he.1, List.drop_left]
      rw [← List.nil_append (c :: List.take j t), arrayStep_bad Ws.nil (not_ws hc) h44 h93]
      simp [jerr]

/-- `next_key` in front of something else than a comma or the end. -/
theorem RJ.nextKey_fails {ws t : Bytes} {c : Byte} (hr : s.rest = ws ++ c :: t) (hw : Ws ws) (hc : isAsciiWs c = false)
    (h44 : c ≠ 44) (h125 : c ≠ 125) : ∃ s' e, s.nextKeyBytes fuel = (s', .err e) ∧ ∀ kd, e.type ≠ .io kd := by
  unfold enoughFuel at hf
  have hno : ∀ k ws', Ws ws' → ∃ n e, Jiter.nextKey Jiter.knownBytes ((ws' ++ c :: t).take k) = (n, .error e) := by
    intro k ws' hw'
    rcases take_head (t := t) (c := c) hw' k with h1 | ⟨j, h1⟩
    · exact ⟨_, _, nextKey_ws h1⟩
    · rw [h1]; exact ⟨_, _, nextKey_bad hw' (not_ws hc) h44 h125 _⟩
  refine never (nextKey_jsound knownBytes_prefix) s fuel h (by omega) (fun _ => hl) hcl (by omega) ?_ ?_ ?_
  · intro k m w he
    obtain ⟨n, e, h1⟩ := hno k ws hw
    rw [hr, h1] at he; simp at he
  · intro k m w he
    obtain ⟨n, e, h1⟩ := hno k [] Ws.nil
    rw [hr, norm_other hw hc h44] at he
    rw [List.nil_append] at h1
    rw [h1] at he; simp at he
  · intro k n e he
    right
    intro m w
    rw [hr] at he ⊢
    rcases take_head (t := t) (c := c) hw k with h1 | ⟨j, h1⟩
    · rw [nextKey_ws h1] at he
      simp only [jerr, Prod.mk.injEq] at he
      rw [← he.1, List.drop_length, nextKey_ws Ws.nil]
      simp [jerr]
    · rw [h1, nextKey_bad hw (not_ws hc) h44 h125] at he
      simp only [jerr, Prod.mk.injEq] at he
      rw [h1, ← he.1, List.drop_left]
      rw [← List.nil_append (c :: List.take j t), nextKey_bad Ws.nil (not_ws hc) h44 h125]
      simp [jerr]

/-- `next_key` in front of a comma that is not followed by a string. -/
theorem RJ.nextKey_comma_fails {ws ws2 t : Bytes} {c : Byte} (hr : s.rest = ws ++ 44 :: (ws2 ++ c :: t)) (hw : Ws ws) (hw2 : Ws ws2)
    (hc : isAsciiWs c = false) (h34 : c ≠ 34) (h44 : c ≠ 44) (h125 : c ≠ 125) :
    ∃ s' e, s.nextKeyBytes fuel = (s', .err e) ∧ ∀ kd, e.type ≠ .io kd := by
  unfold enoughFuel at hf
  -- the three kinds of prefixes
  have hcase : ∀ k ws' ws2', Ws ws' → Ws ws2' → Ws ((ws' ++ 44 :: (ws2' ++ c :: t)).take k) ∨
      (∃ w2, Ws w2 ∧ (ws' ++ 44 :: (ws2' ++ c :: t)).take k = ws' ++ 44 :: w2) ∨
      ∃ j, (ws' ++ 44 :: (ws2' ++ c :: t)).take k = ws' ++ 44 :: (ws2' ++ c :: t.take j) := by
    intro k ws' ws2' h1 h2
    rcases take_head (t := ws2' ++ c :: t) (c := 44) h1 k with h3 | ⟨j, h3⟩
    · exact .inl h3
    · rw [h3]
      rcases take_head (t := t) (c := c) h2 j with h4 | ⟨i, h4⟩
      · exact .inr (.inl ⟨_, h4, rfl⟩)
      · rw [h4]; exact .inr (.inr ⟨i, rfl⟩)
  have hno : ∀ k ws' ws2', Ws ws' → Ws ws2' →
      ∃ n e, Jiter.nextKey Jiter.knownBytes ((ws' ++ 44 :: (ws2' ++ c :: t)).take k) = (n, .error e) := by
    intro k ws' ws2' hw' hw2'
    rcases hcase k ws' ws2' hw' hw2' with h1 | ⟨w2, h2, h1⟩ | ⟨j, h1⟩
    · exact ⟨_, _, nextKey_ws h1⟩
    · rw [h1]; exact ⟨_, _, nextKey_comma_ws hw' h2⟩
    · rw [h1]; exact ⟨_, _, nextKey_comma_bad hw' hw2' (not_ws hc) h34 h125 _⟩
  refine never (nextKey_jsound knownBytes_prefix) s fuel h (by omega) (fun _ => hl) hcl (by omega) ?_ ?_ ?_
  · intro k m w he
    obtain ⟨n, e, h1⟩ := hno k ws ws2 hw hw2
    rw [hr, h1] at he; simp at he
  · intro k m w he
    obtain ⟨n, e, h1⟩ := hno k [] [] Ws.nil Ws.nil
    rw [hr, norm_tok hw hw2 (by decide) hc] at he
    simp only [List.nil_append] at h1
    rw [h1] at he; simp at he
  · intro k n e he
    right
    intro m w
    rw [hr] at he ⊢
    rcases hcase k ws ws2 hw hw2 with h1 | ⟨w2, h2, h1⟩ | ⟨j, h1⟩
    · rw [nextKey_ws h1] at he
      simp only [jerr, Prod.mk.injEq] at he
      rw [← he.1, List.drop_length, nextKey_ws Ws.nil]
      simp [jerr]
    · rw [h1, nextKey_comma_ws hw h2] at he
      simp only [jerr, Prod.mk.injEq] at he
      rw [h1, ← he.1, List.drop_eq_nil_of_le (by simp; omega), nextKey_ws Ws.nil]
      simp [jerr]
    · rw [h1, nextKey_comma_bad hw hw2 (not_ws hc) h34 h125] at he
      simp only [jerr, Prod.mk.injEq] at he
      rw [h1, ← he.1, drop_two]
      rw [← List.nil_append (c :: List.take j t), nextKey_bad Ws.nil (not_ws hc) h44 h125]
      simp [jerr]

/-- `next_object` in front of a brace that is not followed by a string or the closing brace. -/
theorem RJ.nextObject_fails {ws t : Bytes} {c : Byte} (hr : s.rest = 123 :: (ws ++ c :: t)) (hw : Ws ws) (hc : isAsciiWs c = false)
    (h34 : c ≠ 34) (h123 : c ≠ 123) (h125 : c ≠ 125) :
    ∃ s' e, s.nextObjectBytes fuel = (s', .err e) ∧ ∀ kd, e.type ≠ .io kd := by
  unfold enoughFuel at hf
  have hnil : Jiter.nextObject Jiter.knownBytes [] = (0, .error ⟨.json .eofWhileParsingValue, 0⟩) := rfl
  have hcase : ∀ k ws', Ws ws' → (123 :: (ws' ++ c :: t)).take k = [] ∨ (∃ w2, Ws w2 ∧ (123 :: (ws' ++ c :: t)).take k = 123 :: w2) ∨
      ∃ j, (123 :: (ws' ++ c :: t)).take k = 123 :: (ws' ++ c :: t.take j) := by
    intro k ws' h1
    cases k with
    | zero => exact .inl rfl
    | succ k =>
      rw [List.take_succ_cons]
      rcases take_head (t := t) (c := c) h1 k with h4 | ⟨i, h4⟩
      · exact .inr (.inl ⟨_, h4, rfl⟩)
      · rw [h4]; exact .inr (.inr ⟨i, rfl⟩)
  have hno : ∀ k ws', Ws ws' → ∃ n e, Jiter.nextObject Jiter.knownBytes ((123 :: (ws' ++ c :: t)).take k) = (n, .error e) := by
    intro k ws' hw'
    rcases hcase k ws' hw' with h1 | ⟨w2, h2, h1⟩ | ⟨j, h1⟩
    · rw [h1]; exact ⟨_, _, hnil⟩
    · rw [h1]; exact ⟨_, _, nextObject_brace_ws h2⟩
    · rw [h1]; exact ⟨_, _, nextObject_brace_bad hw' (not_ws hc) h34 h125 _⟩
  refine never (nextObject_jsound knownBytes_prefix) s fuel h (by omega) (fun _ => hl) hcl (by omega) ?_ ?_ ?_
  · intro k m w he
    obtain ⟨n, e, h1⟩ := hno k ws hw
    rw [hr, h1] at he; simp at he
  · intro k m w he
    obtain ⟨n, e, h1⟩ := hno k [] Ws.nil
    have hn := norm_tok (x := 123) Ws.nil hw (by decide) hc t
    rw [List.nil_append] at hn
    rw [hr, hn] at he
    simp only [List.nil_append] at h1
    rw [h1] at he; simp at he
  · intro k n e he
    right
    intro m w
    rw [hr] at he ⊢
    rcases hcase k ws hw with h1 | ⟨w2, h2, h1⟩ | ⟨j, h1⟩
    · rw [h1]
      rw [List.drop_nil, hnil]
      simp
    · rw [h1, nextObject_brace_ws h2] at he
      simp only [jerr, Prod.mk.injEq] at he
      rw [h1, ← he.1, List.drop_eq_nil_of_le (by simp; omega), hnil]
      simp
    · rw [h1, nextObject_brace_bad hw (not_ws hc) h34 h125] at he
      simp only [jerr, Prod.mk.injEq] at he
      have := drop_two [] ws 123 (c :: t.take j)
      simp only [List.nil_append, List.length_nil, Nat.zero_add] at this
      rw [h1, ← he.1, this, nextObject_other (not_ws hc) h123]
      simp

/-- `next_number_bytes` in front of a byte that does not start a number: an error, and the position is kept. -/
theorem RJ.nextNumber_fails {t : Bytes} {c : Byte} (hr : s.rest = c :: t) (hc : isAsciiWs c = false)
    (h45 : c ≠ 45) (hd : isDigit c = false) : ∃ s' e, s.nextNumberBytes fuel = (s', .err e) ∧ s.Moved s' 0 := by
  unfold enoughFuel at hf
  have hnil : Jiter.nextNumberBytes [] = (0, .error ⟨.json .eofWhileParsingValue, 0⟩) := rfl
  have hbad : ∀ d, Jiter.nextNumberBytes (c :: d) = (0, .error ⟨.wrongType, 0⟩) := by
    intro d
    have hp : Jiter.peek (c :: d) = (0, .ok c) := by simpa using peek_tok Ws.nil (not_ws hc) d
    simp only [Jiter.nextNumberBytes, hp]
    rw [if_neg (by simp [h45, hd])]
  have hfirst : ∃ e, Jiter.nextNumberBytes s.jdata = (0, .error e) := by
    have hjd : s.jdata = s.rest.take s.jdata.length := by rw [rest_eq h, List.take_left]
    rw [hjd, hr]
    cases s.jdata.length with
    | zero => exact ⟨_, hnil⟩
    | succ k => rw [List.take_succ_cons]; exact ⟨_, hbad _⟩
  obtain ⟨e, hfirst⟩ := hfirst
  simp only [RJ.nextNumberBytes, loopUntilSuccess, call, hfirst, Nat.add_zero]
  have hnorm : norm none s.rest = s.rest := by
    rw [hr]; simpa using norm_none Ws.nil hc t
  rcases skipSpacesFeeding_spec s s none fuel h rfl rfl (by omega) (by simp) (by omega) with
    ⟨s2, e2, hfed, hjl, hpos⟩ | ⟨s2, kd, x, e2, hcl'⟩
  · rw [e2]
    simp only
    have hj0 : s2.jidx = 0 := by
      rcases hpos with h0 | ⟨h0, h1, _⟩
      · exact h0
      · rw [h0, h1]
    obtain ⟨f, rfl⟩ : ∃ f, fuel = f + 1 := ⟨fuel - 1, by omega⟩
    have hmv : s.Moved s2 0 := by
      have := Moved.ofFed hfed hjl (by omega) (.inl hnorm)
      simpa [hnorm, hj0] using this
    have hd2 : ∃ d, s2.jdata = c :: d := by
      have hr2 : s2.rest = c :: t := by rw [hmv.rest, hr]; rfl
      have hrest := rest_eq hmv.sync
      rw [hr2] at hrest
      cases hx : s2.jdata with
      | nil =>
        exfalso
        have hlen := jdata_length hmv.sync
        rw [hx, hj0] at hlen
        have := hfed.eof (by simpa using hlen.symm)
        rw [hx, this] at hrest
        simp [Reader.pending] at hrest
      | cons y d =>
        rw [hx, List.cons_append] at hrest
        simp only [List.cons.injEq] at hrest
        exact ⟨d, by rw [← hrest.1]⟩
    obtain ⟨d, hd2⟩ := hd2
    simp only [retryLoop, call, hd2, hbad]
    rw [if_pos (by decide)]
    exact ⟨_, _, rfl, hmv⟩
  · exact absurd hcl hcl'

end

end Verif.RJiter
