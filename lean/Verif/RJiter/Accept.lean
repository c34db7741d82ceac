import Verif.RJiter.Forward
import Verif.RJiter.Skim

/-!
# What the calls that `scan` makes accept

The statements of `Verif.RJiter.StepSound` without the assumption that no attempt is continued where another one stopped.
-/

namespace Verif.RJiter

open Buffer RJ Jiter

theorem Blank.of_aws {l : Bytes} (h : AWs l) : Blank l := blank_of_ascii h

theorem spaces_of_ws {l : Bytes} (h : Ws l) : Spaces l := (ws_iff l).mp h

/-- A key with its colon. -/
theorem objectKey_skim {t : Bytes} {m : Nat} {k : Bytes} (h : objectKey Jiter.knownBytes (34 :: t) = (m, .ok k)) :
    ∃ w u, t = k ++ 34 :: (w ++ 58 :: u) ∧ Skim false k ∧ Spaces w ∧ (34 :: t).drop m = u := by
  simp only [objectKey] at h
  rcases hkd : Jiter.knownBytes (34 :: t) with ⟨n, r⟩
  rw [hkd] at h
  cases r with
  | error e => simp at h
  | ok k' =>
    simp only at h
    obtain ⟨hsk, t', ht, hn⟩ := knownBytes_skim hkd
    rw [List.drop_succ_cons, List.drop_zero] at ht
    have hdrop : (34 :: t).drop n = t' := by
      rw [ht, hn, show k'.length + 2 = (34 :: (k' ++ [34])).length by simp,
        show 34 :: (k' ++ 34 :: t') = 34 :: (k' ++ [34]) ++ t' by simp, List.drop_left]
    rcases ws_split t' with hw | ⟨w, c, u, e, hw, hc⟩
    · rw [← List.drop_drop, hdrop, wsLen_all hw, List.drop_length] at h
      simp [jerr] at h
    · rw [← List.drop_drop, hdrop, e, wsLen_cons hw hc, List.drop_left] at h
      simp only at h
      by_cases h58 : c = 58
      · subst h58
        simp only [if_true, Prod.mk.injEq, Except.ok.injEq] at h
        obtain ⟨rfl, rfl⟩ := h
        refine ⟨w, u, by rw [ht, e], hsk, spaces_of_ws hw, ?_⟩
        rw [Nat.add_assoc, ← List.drop_drop, hdrop, e, ← List.drop_drop, List.drop_left]
        rfl
      · rw [if_neg h58] at h
        simp [jerr] at h

/-- Where a failure to read a key leaves jiter. -/
theorem objectKey_fail {t : Bytes} {n : Nat} {e : JErr} (h : objectKey Jiter.knownBytes (34 :: t) = (n, .error e)) :
    n = 0 ∨ (34 :: t).drop n = [] ∨ ∃ j c u, Junk j ∧ isWs c = false ∧ (34 :: t).drop n = c :: u ∧
      34 :: t = j ++ c :: u ∧ n = j.length := by
  simp only [objectKey] at h
  rcases hkd : Jiter.knownBytes (34 :: t) with ⟨n', r⟩
  rw [hkd] at h
  cases r with
  | error e' =>
    simp only [Prod.mk.injEq] at h
    left
    rw [← h.1]
    exact Kind.raw.parser_error hkd
  | ok k' =>
    simp only at h
    right
    obtain ⟨hsk, t', ht, hn⟩ := knownBytes_skim hkd
    rw [List.drop_succ_cons, List.drop_zero] at ht
    have hdrop : (34 :: t).drop n' = t' := by
      rw [ht, hn, show k'.length + 2 = (34 :: (k' ++ [34])).length by simp,
        show 34 :: (k' ++ 34 :: t') = 34 :: (k' ++ [34]) ++ t' by simp, List.drop_left]
    rcases ws_split t' with hw | ⟨w, c, u, e', hw, hc⟩
    · left
      rw [← List.drop_drop, hdrop, wsLen_all hw, List.drop_length] at h
      simp only [jerr, Prod.mk.injEq] at h
      rw [← h.1, ← List.drop_drop, hdrop, List.drop_length]
    · right
      rw [← List.drop_drop, hdrop, e', wsLen_cons hw hc, List.drop_left] at h
      simp only at h
      by_cases h58 : c = 58
      · rw [if_pos h58] at h; simp at h
      · rw [if_neg h58] at h
        simp only [jerr, Prod.mk.injEq] at h
        have hd2 : (34 :: t).drop n = c :: u := by
          rw [← h.1, ← List.drop_drop, hdrop, e', List.drop_left]
        refine ⟨34 :: (k' ++ 34 :: w), c, u, .inr ⟨k', w, rfl, hsk, spaces_of_ws hw⟩, hc, hd2, ?_, ?_⟩
        · rw [ht, e']; simp
        · rw [← h.1, hn]; simp; omega

theorem arrayStep_nil : ∀ m w, Jiter.arrayStep [] ≠ (m, .ok w) := by
  intro m w h
  rw [arrayStep_ws Ws.nil] at h
  simp at h

/-- No attempt is continued if the parser is behind some token. -/
theorem loop_warm {α : Type} {f : JFn α} {tok : Option Byte} (hs : JSound f tok)
    {s : RJ} {fuel : Nat} (h : s.Sync) (hl : 1 < s.b.buf.length) (hf : enoughFuel s fuel) (hwarm : 0 < s.jidx)
    {s' : RJ} {v : α} (hok : s.loopUntilSuccess fuel f tok false = (s', .ok v)) : Seen f tok s s' v := by
  rcases loop_any hs h hl hf hok with h1 | ⟨h0, _⟩
  · exact h1
  · omega

/-- An `Ok` of a call that consumes something leaves the parser behind some token. -/
theorem retryLoop_warm {α : Type} {f : JFn α} (he : Eats f) (eager : Bool) : ∀ (fuel : Nat) (s s' : RJ) (v : α),
    retryLoop f eager fuel s = (s', .ok v) → 0 < s'.jidx := by
  intro fuel
  induction fuel with
  | zero => intro s s' v h; simp [retryLoop] at h
  | succ fuel ih =>
    intro s s' v h
    simp only [retryLoop, call] at h
    rcases hd : f s.jdata with ⟨n, r⟩
    rw [hd] at h
    cases r with
    | error e =>
      simp only at h
      split at h
      · simp at h
      · split at h
        · split at h
          · simp at h
          · exact ih _ _ _ h
        · simp at h
        · simp at h
        · simp at h
    | ok w =>
      have := he _ _ _ hd
      simp only at h
      split at h
      · simp only [Prod.mk.injEq] at h
        rw [← h.1]
        simp only
        omega
      · split at h
        · split at h
          · simp only [Prod.mk.injEq] at h
            rw [← h.1]
            simp only
            omega
          · exact ih _ _ _ h
        · simp at h
        · simp at h
        · simp at h

theorem loopUntilSuccess_warm {α : Type} {f : JFn α} (he : Eats f) {tok : Option Byte} {eager : Bool} {fuel : Nat} {s s' : RJ} {v : α}
    (h : s.loopUntilSuccess fuel f tok eager = (s', .ok v)) : 0 < s'.jidx := by
  have hretry : ∀ s1, (match skipSpacesFeeding fuel s1 s.jidx tok with
      | (s2, .ok ()) => retryLoop f eager fuel s2
      | (s2, .err e) => (s2, .err e)
      | (s2, .panic) => (s2, .panic)
      | (s2, .diverge) => (s2, .diverge)) = (s', .ok v) → 0 < s'.jidx := by
    intro s1 h
    split at h
    · exact retryLoop_warm he eager _ _ _ _ h
    · simp at h
    · simp at h
    · simp at h
  simp only [loopUntilSuccess, call] at h
  rcases hd : f s.jdata with ⟨n, r⟩
  rw [hd] at h
  cases r with
  | error e => exact hretry _ h
  | ok w =>
    have := he _ _ _ hd
    simp only at h
    split at h
    · simp only [Prod.mk.injEq] at h
      rw [← h.1]
      simp only
      omega
    · exact hretry _ h

theorem handleLong_warm {k : Kind} : ∀ (fuel : Nat) (s s' : RJ) (w w' : Writer), handleLong k fuel s w = ((s', w'), .ok ()) → 0 < s'.jidx := by
  intro fuel
  induction fuel with
  | zero => intro s s' w w' h; simp [handleLong] at h
  | succ fuel ih =>
    intro s s' w w' h
    rw [handleLong_succ] at h
    rcases hp : k.parser s.jdata with ⟨n, r⟩
    rw [hp] at h
    cases r with
    | ok v =>
      have := (k.parser_prefix _ _ _ hp).1
      simp only at h
      split at h
      · simp only [Prod.mk.injEq] at h
        rw [← h.1.1]
        simp only
        omega
      · simp at h
    | error e =>
      simp only at h
      split at h
      · simp at h
      · generalize (if s.jidx + n > 0 then ({ s with b := s.b.shift 0 (s.jidx + n), jidx := s.jidx + n } : RJ).refresh
          else { s with jidx := s.jidx + n }) = s2 at h
        unfold longRound at h
        split at h
        · simp at h
        · generalize (if backToLeading s2.b.buf (segmentEnd s2.b) > 1 then
            writeSegment k s2.b.buf (backToLeading s2.b.buf (segmentEnd s2.b)) s2.currentIndex w else (w, .ok ())) = x at h
          generalize (if backToLeading s2.b.buf (segmentEnd s2.b) > 1 then
            s2.b.shift 1 (backToLeading s2.b.buf (segmentEnd s2.b)) else s2.b).readMore = y at h
          rcases x with ⟨w1, _ | _ | _ | _⟩
          · rcases y with ⟨b4, n | _ | _ | _⟩
            · simp only at h
              split at h
              · simp at h
              · exact ih _ _ _ _ h
            · simp at h
            · simp at h
            · simp at h
          · simp at h
          · simp at h
          · simp at h

/-- An `Ok` of `array_step` behind an item. -/
theorem RJ.arrayStep_any {s s' : RJ} {fuel : Nat} {v : Option Byte} (h : s.Sync) (hl : 1 < s.b.buf.length) (hf : enoughFuel s fuel)
    (hwarm : 0 < s.jidx) (hok : s.arrayStep fuel = (s', .ok v)) :
    (∃ ws t, s.rest = ws ++ 93 :: t ∧ Blank ws ∧ v = none ∧ s'.rest = t ∧ ∃ n, s.Moved s' n) ∨
    ∃ ws ws2 c t, s.rest = ws ++ 44 :: (ws2 ++ c :: t) ∧ Blank ws ∧ Blank ws2 ∧ isWs c = false ∧ c ≠ 93 ∧ v = some c ∧
      s'.rest = c :: t ∧ ∃ n, s.Moved s' n := by
  rcases RJ.arrayStep_seen (loop_warm arrayStep_jsound h hl hf hwarm hok) with ⟨ws, t, e, hw, hv, hs, hm⟩ | ⟨ws, ws2, c, t, e, hw, hw2, hc⟩
  · exact .inl ⟨ws, t, e, .of_aws hw, hv, hs, hm⟩
  · exact .inr ⟨ws, ws2, c, t, e, .of_aws hw, .of_aws hw2, hc⟩

/-- An object whose first attempt stopped at `j`. -/
theorem nextObject_second {d : Bytes} {n : Nat} {e : JErr} {m : Nat} {v : Option Bytes}
    (hd : Jiter.nextObject Jiter.knownBytes d = (n, .error e)) (hd2 : Jiter.nextObject Jiter.knownBytes (d.drop n) = (m, .ok v)) :
    ∃ ws ws2 j, d = ws ++ 123 :: (ws2 ++ (j ++ d.drop n)) ∧ n = (ws ++ 123 :: (ws2 ++ j)).length ∧ Ws ws ∧ Ws ws2 ∧ Junk j ∧
      ∃ t, d.drop n = 123 :: t := by
  have head : ∀ c t, isWs c = false → d.drop n = c :: t → c = 123 := by
    intro c t hc e
    rw [e] at hd2
    exact Classical.byContradiction fun h => nextObject_notBrace _ hc h t m v hd2
  rcases ws_split d with hw | ⟨ws, c, t, rfl, hw, hc⟩
  · rw [(nextObject_next _).ws _ _ _ (peek_ws hw)] at hd
    simp only [Prod.mk.injEq] at hd
    rw [← hd.1, List.drop_length] at hd2
    exact absurd hd2 (nextObject_nil _ m v)
  · by_cases h1 : c = 123
    · subst h1
      rw [nextObject_brace _ hw] at hd
      rcases ws_split t with hw2 | ⟨w2, c2, t2, rfl, hw2, hc2⟩
      · rw [knownObject_ws _ 123 hw2] at hd
        simp only [Prod.mk.injEq] at hd
        rw [← hd.1, List.drop_eq_nil_of_le (by simp <;> omega)] at hd2
        exact absurd hd2 (nextObject_nil _ m v)
      · rw [knownObject_tok _ 123 hw2 hc2] at hd
        have hsplit : ws ++ 123 :: (w2 ++ c2 :: t2) = (ws ++ 123 :: w2) ++ c2 :: t2 := by simp
        by_cases h34 : c2 = 34
        · subst h34
          rw [if_pos rfl] at hd
          rcases ho : objectKey Jiter.knownBytes (34 :: t2) with ⟨n', r⟩
          rw [ho] at hd
          cases r with
          | ok k => simp at hd
          | error e' =>
            simp only [Prod.mk.injEq] at hd
            have hn : n = (ws ++ 123 :: w2).length + n' := by rw [← hd.1]; simp; omega
            have hdr : (ws ++ 123 :: (w2 ++ 34 :: t2)).drop n = (34 :: t2).drop n' := by
              rw [hn, hsplit, ← List.drop_drop, List.drop_left]
            rcases objectKey_fail ho with h0 | h0 | ⟨j, c4, u4, hj, hcw, hc4, ej, nj⟩
            · rw [h0, List.drop_zero] at hdr
              exact absurd (head 34 t2 (by decide) hdr) (by decide)
            · rw [hdr, h0] at hd2
              exact absurd hd2 (nextObject_nil _ m v)
            · rw [hc4] at hdr
              have := head c4 u4 hcw hdr
              subst this
              exact ⟨ws, w2, j, by rw [hdr, ← ej], by rw [hn, nj]; simp; omega, hw, hw2, hj, u4, hdr⟩
        · rw [if_neg h34] at hd
          by_cases h125 : c2 = 125
          · rw [if_pos h125] at hd; simp at hd
          · rw [if_neg h125] at hd
            simp only [jerr, Prod.mk.injEq] at hd
            have hn : n = (ws ++ 123 :: w2).length := by rw [← hd.1]; simp; omega
            have hdr : (ws ++ 123 :: (w2 ++ c2 :: t2)).drop n = c2 :: t2 := by
              rw [hn, hsplit, List.drop_left]
            have := head c2 t2 hc2 hdr
            subst this
            exact ⟨ws, w2, [], by rw [hdr]; rfl, by rw [hn]; simp, hw, hw2, .inl rfl, t2, hdr⟩
    · exfalso
      simp only [Jiter.nextObject, peek_tok hw hc, if_neg h1, Prod.mk.injEq] at hd
      rw [← hd.1, List.drop_left] at hd2
      exact nextObject_notBrace _ hc h1 t m v hd2

/-- A key, its colon and what is behind: the text of a member up to its value. -/
def KeyText (k m u : Bytes) : Bytes := 34 :: (k ++ 34 :: (m ++ 58 :: u))

theorem norm_brace {ws ws2 z : Bytes} (hw2 : Ws ws2) (h : norm (some 123) (ws ++ 123 :: (ws2 ++ z)) = ws ++ 123 :: (ws2 ++ z))
    (hw : Ws ws) : ws2 = [] := by
  have h1 : (ws ++ 123 :: (ws2 ++ z)).dropWhile isAsciiWs = 123 :: (ws2 ++ z) := by
    rw [List.dropWhile_append_of_pos (AWs.of_ws hw), List.dropWhile_cons_of_neg (by decide)]
  simp only [norm, h1, if_true] at h
  rw [List.dropWhile_append_of_pos (AWs.of_ws hw2)] at h
  have h2 := congrArg List.length h
  have h3 := dropWhile_len_le isAsciiWs z
  simp only [List.length_append, List.length_cons] at h2
  exact List.length_eq_zero_iff.mp (by omega)

/-- An `Ok` of `next_object_bytes`. -/
theorem RJ.nextObject_any {s s' : RJ} {fuel : Nat} {v : Option Bytes} (h : s.Sync) (hl : 1 < s.b.buf.length) (hf : enoughFuel s fuel)
    (hok : s.loopUntilSuccess fuel (Jiter.nextObject Jiter.knownBytes) (some 123) false = (s', .ok v)) :
    ∃ ws L, Blank ws ∧ (Blank L ∨ Doubled L) ∧ (0 < s.jidx → Blank L) ∧ (∃ n, s.Moved s' n) ∧
      (v = none ∧ s.rest = ws ++ 123 :: (L ++ 125 :: s'.rest) ∨
        ∃ k m, v = some k ∧ Skim false k ∧ Spaces m ∧ s.rest = ws ++ 123 :: (L ++ KeyText k m s'.rest)) := by
  have hk : PrefixFn Jiter.knownBytes := Kind.raw.parser_prefix
  have hx : Ext Jiter.knownBytes := knownBytes_ext
  rcases loop_any (nextObject_jsound hk) h hl hf hok with hsn | ⟨h0, hno, d, n, e, m, ⟨u, hu⟩, hd, hd2, hm⟩
  · obtain ⟨ws, ws2, T, e, hw, hw2, hm, ht⟩ := RJ.nextObject_seen hx hsn
    refine ⟨ws, ws2, .of_aws hw, .inl (.of_aws hw2), fun _ => .of_aws hw2, hm, ?_⟩
    rcases ht with ⟨hv, rfl⟩ | ⟨k, m, t, rfl, hv, ho, hs⟩
    · exact .inl ⟨hv, e⟩
    · obtain ⟨w, u, ht, hsk, hsp, hdr⟩ := objectKey_skim ho
      rw [hdr] at hs
      exact .inr ⟨k, w, hv, hsk, hsp, by rw [e, ht, KeyText, hs]⟩
  · obtain ⟨ws, ws2, j, ed, hn, hw, hw2, hj, t, et⟩ := nextObject_second hd hd2
    rw [et] at ed hd2
    have hbr := nextObject_brace Jiter.knownBytes Ws.nil t
    rw [List.nil_append, List.length_nil] at hbr
    rw [hbr] at hd2
    have hpre : s.rest = (ws ++ 123 :: (ws2 ++ j)) ++ 123 :: (t ++ u) := by
      rw [← hu, ed]; simp
    obtain rfl : ws2 = [] := norm_brace hw2 (z := j ++ 123 :: (t ++ u)) (by rw [hpre] at hno; simpa using hno) hw
    rw [List.nil_append] at hn hpre
    rcases hko : Jiter.knownObject Jiter.knownBytes (123 :: t) with ⟨n', r⟩
    rw [hko] at hd2
    cases r with
    | error e => simp at hd2
    | ok v' =>
      simp only [Prod.mk.injEq, Except.ok.injEq] at hd2
      obtain ⟨hm1, rfl⟩ := hd2
      rcases knownObject_ok hko with ⟨x, w2, t2, e2, hwb, rfl, rfl⟩ | ⟨x, w2, t2, m3, k, e2, hwb, rfl, ho, rfl⟩
      · simp only [List.cons.injEq] at e2
        refine ⟨ws, j ++ 123 :: w2, .of_aws (.of_ws hw), .inr ⟨j, w2, rfl, hj, spaces_of_ws hwb⟩, fun h => by omega, ⟨_, hm⟩,
          .inl ⟨rfl, ?_⟩⟩
        rw [rest_after (a := (ws ++ 123 :: j) ++ 123 :: (w2 ++ [125])) (t := t2 ++ u) hm (by rw [hpre, e2.2]; simp)
          (by rw [hn, ← hm1]; simp; omega), hpre, e2.2]
        simp
      · simp only [List.cons.injEq] at e2
        obtain ⟨w, u2, ht, hsk, hsp, hdr⟩ := objectKey_skim (t := t2 ++ u) (objectKey_more hx (t := u) ho)
        refine ⟨ws, j ++ 123 :: w2, .of_aws (.of_ws hw), .inr ⟨j, w2, rfl, hj, spaces_of_ws hwb⟩, fun h => by omega, ⟨_, hm⟩,
          .inr ⟨k, w, rfl, hsk, hsp, ?_⟩⟩
        have hs : s'.rest = u2 := by
          rw [hm.rest, hpre, e2.2, hn, ← hm1, ← List.drop_drop, List.drop_left, ← hdr,
            show 123 :: ((w2 ++ 34 :: t2) ++ u) = (123 :: w2) ++ 34 :: (t2 ++ u) by simp,
            show 0 + (1 + w2.length + m3) = (123 :: w2).length + m3 by simp; omega, ← List.drop_drop, List.drop_left]
        rw [hpre, e2.2, hs, KeyText]
        have : (34 : Byte) :: (t2 ++ u) = 34 :: (k ++ 34 :: (w ++ 58 :: u2)) := by rw [ht]
        rw [← this]
        simp

/-- An `Ok` of `next_key_bytes` behind a member. -/
theorem RJ.nextKey_any {s s' : RJ} {fuel : Nat} {v : Option Bytes} (h : s.Sync) (hl : 1 < s.b.buf.length) (hf : enoughFuel s fuel)
    (hwarm : 0 < s.jidx) (hok : s.loopUntilSuccess fuel (Jiter.nextKey Jiter.knownBytes) (some 44) false = (s', .ok v)) :
    (∃ n, s.Moved s' n) ∧
      ((∃ ws, v = none ∧ Blank ws ∧ s.rest = ws ++ 125 :: s'.rest) ∨
        ∃ ws L k m, v = some k ∧ Blank ws ∧ Blank L ∧ Skim false k ∧ Spaces m ∧ s.rest = ws ++ 44 :: (L ++ KeyText k m s'.rest)) := by
  have hk : PrefixFn Jiter.knownBytes := Kind.raw.parser_prefix
  have hx : Ext Jiter.knownBytes := knownBytes_ext
  rcases RJ.nextKey_seen hx (loop_warm (nextKey_jsound hk) h hl hf hwarm hok) with
    ⟨ws, t, e, hw, hv, hs, hm⟩ | ⟨ws, ws2, t, k, m, e, hw, hw2, hv, ho, hs, hm⟩
  · exact ⟨hm, .inl ⟨ws, hv, .of_aws hw, by rw [hs]; exact e⟩⟩
  · obtain ⟨w, u, ht, hsk, hsp, hdr⟩ := objectKey_skim ho
    rw [hdr] at hs
    exact ⟨hm, .inr ⟨ws, ws2, k, w, hv, .of_aws hw, .of_aws hw2, hsk, hsp, by rw [e, ht, KeyText, hs]⟩⟩

/-! ## `peek` at the end -/

theorem retryLoop_peek_err (s0 : RJ) :
    ∀ (fuel : Nat) (s : RJ), Fed none s0 s.b → s.jlen = s.b.nBytes → s.jidx ≤ s.b.nBytes → AWs (s.b.valid.take s.jidx) →
      ∀ s' er, retryLoop Jiter.peek false fuel s = (s', .err er) → ∃ n, s0.Moved s' n ∧ AWs (s0.rest.take n) := by
  intro fuel
  induction fuel with
  | zero => intro s _ _ _ _ s' er h; simp [retryLoop] at h
  | succ fuel ih =>
    intro s hfed hl hj hws s' er h
    have hvl := valid_length hfed.ok
    have hjd : s.jdata = s.b.valid.drop s.jidx := by simp [jdata, hl, Buffer.valid]
    have hjl : s.jdata.length = s.b.nBytes - s.jidx := by rw [hjd, List.length_drop, hvl]
    have hrm := hfed.readMore
    simp only [retryLoop, call] at h
    rcases ws_split s.jdata with hw | ⟨ws, c, t, e, hw, hc⟩
    · have hmv : ∀ b : Buffer, Fed none s0 b → s.b.nBytes = b.nBytes →
          ∃ n, s0.Moved { s with b := b, jidx := s.jidx + s.jdata.length } n ∧ AWs (s0.rest.take n) := by
        intro b hb hn
        refine ⟨_, Moved.ofFed (tok := none) (s' := { s with b := b, jidx := s.jidx + s.jdata.length }) hb (by simp only; omega)
          (by simp only; omega) (.inr (by simp)), ?_⟩
        rcases norm_cases none s0.rest with ⟨w, hw1, hw2⟩ | ⟨t, _, _, _, ht, _⟩
        · have hall : AWs s.b.valid := by
            rw [← List.take_append_drop s.jidx s.b.valid, ← hjd]
            exact hws.append (.of_ws hw)
          have hno : norm none s0.rest = s.b.valid ++ s.b.reader.pending := by
            rw [← hfed.rest]; simp [Buffer.rest]
          have hlen : (s0.rest.length - (norm none s0.rest).length + (s.jidx + s.jdata.length)) = (w ++ s.b.valid).length := by
            have := congrArg List.length hw2
            rw [List.length_append] at this
            rw [List.length_append, hvl]; omega
          simp only
          rw [hlen, hw2, hno, ← List.append_assoc, List.take_left]
          exact hw1.append hall
        · cases ht
      rw [peek_ws hw] at h
      have hcr : (!canRetry (JErrType.json JsonErr.eofWhileParsingValue)) = false := rfl
      simp only [hcr, Bool.false_eq_true, if_false] at h
      rcases s.b.readMore_cases hfed.ok with ⟨_, e⟩ | ⟨_, e⟩ | ⟨q, r', hlt, hr, e⟩ | ⟨b', bs, e, h1⟩
      · rw [e] at h hrm
        simp only [if_true, Prod.mk.injEq] at h
        rw [← h.1]; exact hmv _ hrm rfl
      · rw [e] at h hrm
        simp only [if_true, Prod.mk.injEq] at h
        rw [← h.1]; exact hmv _ hrm rfl
      · rw [e] at h hrm
        simp only [Prod.mk.injEq] at h
        rw [← h.1]; exact hmv _ hrm rfl
      · rw [e] at h hrm
        obtain ⟨h2, _⟩ := h1
        simp only at h
        rw [if_neg (by omega)] at h
        exact ih _ (by exact hrm) rfl (by simp [RJ.refresh]) (by exact List.forall_mem_nil _) _ _ h
    · rw [e, peek_tok hw hc] at h
      simp only [reallyOk, Bool.not_false, Bool.true_or, if_true, Prod.mk.injEq] at h
      exact absurd h.2 (by intro h; cases h)

/-- A failure of `peek` that is not one of the reader. -/
theorem RJ.peek_end {s s' : RJ} {fuel : Nat} {er : Err} (h : s.Sync) (hl : 1 < s.b.buf.length) (hf : enoughFuel s fuel)
    (hr : s.peek fuel = (s', .err er)) (hio : ∀ kd, er.type ≠ .io kd) :
    ∃ ws, s.rest = ws ++ s'.rest ∧ Blank ws ∧ ∃ n, s.Moved s' n := by
  unfold enoughFuel at hf
  suffices ∃ n, s.Moved s' n ∧ AWs (s.rest.take n) by
    obtain ⟨n, hm, hw⟩ := this
    exact ⟨_, by rw [hm.rest, List.take_append_drop], .of_aws hw, n, hm⟩
  have hjd := jdata_eq h
  have hjl := jdata_length h
  have hidx := h.idx
  rw [RJ.peek] at hr
  simp only [loopUntilSuccess, call] at hr
  rcases ws_split s.jdata with hw | ⟨ws, c, t, e, hw, hc⟩
  · rw [peek_ws hw] at hr
    simp only at hr
    rcases skipSpacesFeeding_spec s { s with jidx := s.jidx + s.jdata.length } none fuel h rfl rfl (by omega) (by intro _; omega) (by omega) with
      ⟨s2, e, hfed, hjl2, hpos⟩ | ⟨s2, kd, x, e, hcl⟩
    · rw [e] at hr
      simp only at hr
      rcases hpos with h0 | ⟨g1, g2, g3, g4⟩
      · exact retryLoop_peek_err s fuel s2 hfed hjl2 (by omega) (by rw [h0]; exact List.forall_mem_nil _) _ _ hr
      · have h1 := congrArg List.length g4
        rw [valid_length hfed.ok, valid_length h.ok] at h1
        simp only at g1
        refine retryLoop_peek_err s fuel s2 hfed hjl2 (by omega) ?_ _ _ hr
        rw [g4]
        intro c hc
        refine isAscii_of_isWs (hw c ?_)
        rw [hjd, g2, List.drop_zero]
        exact List.mem_of_mem_take hc
    · rw [e] at hr
      simp only [Prod.mk.injEq, Res.err.injEq] at hr
      exact absurd (by rw [← hr.2]) (hio kd)
  · rw [e, peek_tok hw hc] at hr
    simp only [reallyOk, Bool.not_false, Bool.true_or, if_true, Prod.mk.injEq] at hr
    exact absurd hr.2 (by intro h; cases h)
end Verif.RJiter
