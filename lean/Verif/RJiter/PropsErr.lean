import Verif.RJiter.PropsValue
import Verif.RJiter.Failed

/-!
# Properties C24, C25, C26, C42 of `rjiter`: errors

Each of them is false of the code; the witnesses are here, and the cases in which they hold.
-/

namespace Verif.RJiter

open Buffer RJ Jiter

/-- The error of a jiter call, if it is one. -/
def errOf {α : Type} : Except JErr α → Option JErr
  | .error e => some e
  | .ok _ => none

/-- The error jiter has for the call `op` on the bytes `d`, with its offset in `d`. Only for the calls that neither take a
structural character nor a number. -/
def Op.verdict : Op → Option (Bytes → Option JErr)
  | .peek => some fun d => errOf (Jiter.peek d).2
  | .knownBool pk => some fun d => errOf (Jiter.knownBool pk d).2
  | .knownBytes => some fun d => errOf (Jiter.knownBytes d).2
  | .knownNull => some fun d => errOf (Jiter.knownNull d).2
  | .knownStr => some fun d => errOf (Jiter.knownStr d).2
  | .nextBool => some fun d => errOf (Jiter.nextBool d).2
  | .nextBytes => some fun d => errOf (Jiter.nextString Jiter.knownBytes d).2
  | .nextNull => some fun d => errOf (Jiter.nextNull d).2
  | .nextStr => some fun d => errOf (Jiter.nextString Jiter.knownStr d).2
  | _ => none

theorem nextString_still {known : JFn Bytes} (h : Still known) :
    StillWs (Jiter.nextString known) ∧ StillNil (Jiter.nextString known) := by
  refine ⟨Next.stillWs (nextString_next known) ?_, Next.stillNil (nextString_next known)⟩
  intro c g hg
  by_cases hc : c = (34 : Byte)
  · rw [if_pos hc] at hg; injection hg with hg; subst hg; exact h
  · rw [if_neg hc] at hg; cases hg

theorem nextNull_still : StillWs Jiter.nextNull ∧ StillNil Jiter.nextNull := by
  refine ⟨Next.stillWs nextNull_next ?_, Next.stillNil nextNull_next⟩
  intro c g hg
  by_cases hc : c = (110 : Byte)
  · rw [if_pos hc] at hg; injection hg with hg; subst hg; exact consumeIdent_still _ _
  · rw [if_neg hc] at hg; cases hg

theorem nextBool_still : StillWs Jiter.nextBool ∧ StillNil Jiter.nextBool := by
  refine ⟨Next.stillWs nextBool_next ?_, Next.stillNil nextBool_next⟩
  intro c g hg
  by_cases hc : c = (116 : Byte) ∨ c = 102
  · rw [if_pos hc] at hg; injection hg with hg; subst hg; exact knownBool_still c
  · rw [if_neg hc] at hg; cases hg

theorem void_err {α : Type} {r : Res α} {er : Err} (h : r.void = .err er) : r = .err er := by
  cases r <;> simp [Res.void] at h ⊢
  exact h

/-- The common part of C24, C26 and C98. -/
theorem op_error_at (op : Op) (v : Bytes → Option JErr) (hv : op.verdict = some v) (s : RJ) (fuel : Nat) (h : s.Sync)
    (hl : 0 < s.b.buf.length) (hf : enoughFuel s fuel) (s' : RJ) (er : Err) (he : op.run fuel s = (s', .err er)) :
    (∃ kd x, er = ⟨.io kd, x⟩ ∧ ((∃ c ∈ s.jdata, isAsciiWs c = false) → ∃ ws r, s.rest = ws ++ r ∧ Blank ws ∧
      s.Moved s' ws.length)) ∨
    ∃ ws r k e, s.rest = ws ++ r ∧ Blank ws ∧ k ≤ r.length ∧ v (r.take k) = some e ∧
      (canRetry e.type = true → k = r.length ∨ k = s.b.buf.length) ∧
      er = ⟨.ofJ e.type, s.currentIndex + ws.length + e.index⟩ ∧ s.Moved s' ws.length ∧ s'.jidx = 0 ∧ s'.b.nBytes = k := by
  have key : ∀ {α : Type} (f : JFn α), (StillWs f ∧ StillNil f) → v = (fun d => errOf (f d).2) →
      op.run fuel s = ((s.loopUntilSuccess fuel f none false).1, (s.loopUntilSuccess fuel f none false).2.void) →
      (∃ kd x, er = ⟨.io kd, x⟩ ∧ ((∃ c ∈ s.jdata, isAsciiWs c = false) → ∃ ws r, s.rest = ws ++ r ∧ Blank ws ∧
        s.Moved s' ws.length)) ∨
      ∃ ws r k e, s.rest = ws ++ r ∧ Blank ws ∧ k ≤ r.length ∧ v (r.take k) = some e ∧
        (canRetry e.type = true → k = r.length ∨ k = s.b.buf.length) ∧
        er = ⟨.ofJ e.type, s.currentIndex + ws.length + e.index⟩ ∧ s.Moved s' ws.length ∧ s'.jidx = 0 ∧ s'.b.nBytes = k := by
    intro α f hst hvf hrun
    rw [hrun] at he
    rcases hloop : s.loopUntilSuccess fuel f none false with ⟨s1, r1⟩
    rw [hloop] at he
    simp only [Prod.mk.injEq] at he
    obtain ⟨rfl, he⟩ := he
    rw [void_err he] at hloop
    unfold enoughFuel at hf
    rcases plain_error_at hst.1 hst.2 s fuel h hl (by omega) hloop with ⟨kd, x, h1, h2⟩ | ⟨ws, r, k, e, h1, h2, _, h4, h5, h6⟩
    · refine .inl ⟨kd, x, h1, fun hb => ?_⟩
      obtain ⟨ws, r, g1, g2, g3⟩ := h2 hb
      exact ⟨ws, r, g1, blank_of_ascii g2, g3⟩
    · refine .inr ⟨ws, r, k, e, h1, blank_of_ascii h2, h4.le, ?_, h4.final, h5, h6⟩
      rw [hvf]; simp only [h4.err, errOf]
  have still2 : ∀ {α : Type} {f : JFn α}, Still f → StillWs f ∧ StillNil f := fun hs => ⟨hs.ws, hs.onNil⟩
  cases op <;> simp only [Op.verdict, reduceCtorEq, Option.some.injEq] at hv
  · exact key Jiter.peek ⟨peek_stillWs, peek_stillNil⟩ hv.symm rfl
  · exact key (Jiter.knownBool _) (still2 (knownBool_still _)) hv.symm rfl
  · exact key Jiter.knownBytes (still2 knownBytes_still) hv.symm rfl
  · exact key Jiter.knownNull (still2 (consumeIdent_still _ _)) hv.symm rfl
  · exact key Jiter.knownStr (still2 knownStr_still) hv.symm rfl
  · exact key Jiter.nextBool nextBool_still hv.symm rfl
  · exact key (Jiter.nextString Jiter.knownBytes) (nextString_still knownBytes_still) hv.symm rfl
  · exact key Jiter.nextNull nextNull_still hv.symm rfl
  · exact key (Jiter.nextString Jiter.knownStr) (nextString_still knownStr_still) hv.symm rfl

@[inherit_doc op_error_at]
theorem op_error (op : Op) (v : Bytes → Option JErr) (hv : op.verdict = some v) (s : RJ) (fuel : Nat) (h : s.Sync)
    (hl : 0 < s.b.buf.length) (hf : enoughFuel s fuel) (s' : RJ) (er : Err) (he : op.run fuel s = (s', .err er)) :
    (∃ kd x, er = ⟨.io kd, x⟩ ∧ ((∃ c ∈ s.jdata, isAsciiWs c = false) → ∃ ws r, s.rest = ws ++ r ∧ Blank ws ∧
      s.Moved s' ws.length)) ∨
    ∃ ws r k e, s.rest = ws ++ r ∧ Blank ws ∧ k ≤ r.length ∧ v (r.take k) = some e ∧
      (canRetry e.type = true → k = r.length ∨ k = s.b.buf.length) ∧
      er = ⟨.ofJ e.type, s.currentIndex + ws.length + e.index⟩ ∧ s.Moved s' ws.length := by
  rcases op_error_at op v hv s fuel h hl hf s' er he with h1 | ⟨ws, r, k, e, h1, h2, h3, h4, h5, h6, h7, _⟩
  · exact .inl h1
  · exact .inr ⟨ws, r, k, e, h1, h2, h3, h4, h5, h6, h7⟩

/-! ## C24 -/

/-- **C24, partial** (full statement: for every call. It is false for the calls on arrays and objects and for `finish`, see
`C24_finish` and `C24_next_key`). For `peek`, `known_{bool,bytes,null,str}` and `next_{bool,bytes,null,str}`: the index of a
JSON error is the stream offset where jiter sees the error, for any chunking. What jiter sees is a prefix of the stream from
the token on; for an error that more input could repair it is all of it, or the buffer is full. The position is at the token. -/
theorem C24_error_index_partial (op : Op) (v : Bytes → Option JErr) (hv : op.verdict = some v) (s : RJ) (fuel : Nat)
    (h : s.Sync) (hl : 0 < s.b.buf.length) (hf : enoughFuel s fuel) (s' : RJ) (t : ErrType) (x : Nat)
    (he : op.run fuel s = (s', .err ⟨t, x⟩)) (ht : ∀ kd, t ≠ .io kd) :
    ∃ ws r k e, s.rest = ws ++ r ∧ Blank ws ∧ k ≤ r.length ∧ v (r.take k) = some e ∧
      (canRetry e.type = true → k = r.length ∨ k = s.b.buf.length) ∧
      t = .ofJ e.type ∧ x = s.currentIndex + ws.length + e.index ∧ s.Moved s' ws.length := by
  rcases op_error op v hv s fuel h hl hf s' _ he with ⟨kd, _, h1, _⟩ | ⟨ws, r, k, e, h1, h2, h3, h4, h5, h6, h7⟩
  · simp only [Err.mk.injEq] at h1; exact absurd h1.1 (ht kd)
  · simp only [Err.mk.injEq] at h6
    exact ⟨ws, r, k, e, h1, h2, h3, h4, h5, h6.1, h6.2, h7⟩

/-- Behind ` null,`, the string ` "ab\x"` in single bytes: the letter of the bad escape is at offset 11. -/
example : ∃ s s' : RJ, s.Sync ∧ s.currentIndex = 6 ∧ s.rest = [32, 34, 97, 98, 92, 120, 34] ∧ enoughFuel s 100 ∧
    Op.run 100 s .nextStr = (s', .err ⟨.json .invalidEscape, 11⟩) :=
  ⟨(((RJ.new (oneByOne [32, 110, 117, 108, 108, 44, 32, 34, 97, 98, 92, 120, 34]) (List.replicate 6 0)).nextNull 100).1.skipNBytes 100 1).1,
    _, by refine ⟨?_, ?_, ?_⟩ <;> decide +kernel, by decide +kernel, by decide +kernel, by decide +kernel, rfl⟩

/-- **C24 is false** for `finish`: on `1 x` the offending byte has offset 2, the error says 4: the position in the buffer
is counted twice. -/
theorem C24_finish : ∃ s s' : RJ, History (.new [.data 49 [32, 120]] [0, 0, 0, 0, 0]) [.nextNumberBytes] s ∧
    s.currentIndex = 1 ∧ s.rest = [32, 120] ∧
    ∀ fuel, 10 ≤ fuel → s.finish fuel = (s', .err ⟨.json .trailingCharacters, 4⟩) := by
  refine ⟨⟨⟨[], [49, 32, 120, 0, 0], 3, 0, 0, 0⟩, 3, 1⟩, ⟨⟨[], [49, 32, 120, 0, 0], 3, 0, 0, 0⟩, 3, 2⟩, ?_, by decide, by decide, ?_⟩
  · exact .cons (fuel := 40) (r := .ok ()) (by unfold enoughFuel; decide) rfl (.ok _) (.nil _)
  · intro fuel hf
    obtain ⟨fuel, rfl⟩ : ∃ m, fuel = m + 10 := ⟨fuel - 10, by omega⟩
    rfl

/-- How much it is off, always: by the position in the buffer after the call. -/
theorem C24_finish_twice (s s' : RJ) (fuel : Nat) (t : ErrType) (x : Nat) (he : s.finish fuel = (s', .err ⟨t, x⟩))
    (ht : ∀ kd, t ≠ .io kd) : x = s'.currentIndex + s'.jidx := by
  unfold RJ.finish at he
  induction fuel generalizing s with
  | zero => simp [finishLoop] at he
  | succ fuel ih =>
    simp only [finishLoop, call] at he
    rcases hfv : Jiter.finish s.jdata with ⟨n, r⟩
    rw [hfv] at he
    cases r with
    | error e =>
      simp only [Prod.mk.injEq, Res.err.injEq] at he
      obtain ⟨rfl, he⟩ := he
      have hn : e.index = n := by
        simp only [Jiter.finish, jerr] at hfv
        split at hfv
        · simp at hfv
        · simp only [Prod.mk.injEq, Except.error.injEq] at hfv
          rw [← hfv.1, ← hfv.2]
      simp only [mkErr, Err.fromJiter, currentIndex, Err.mk.injEq] at he ⊢
      omega
    | ok v =>
      simp only at he
      rcases hm : (if s.jidx + n < s.b.buf.length then s.b.readMore else (s.b, .ok 1)) with ⟨b2, r2⟩
      rw [hm] at he
      cases r2 with
      | ok n2 =>
        simp only at he
        by_cases h0 : n2 = 0
        · rw [if_pos h0] at he; simp at he
        · rw [if_neg h0] at he; exact ih _ he
      | err er =>
        simp only [Prod.mk.injEq, Res.err.injEq] at he
        exfalso
        by_cases hlt : s.jidx + n < s.b.buf.length
        · rw [if_pos hlt] at hm
          simp only [Buffer.readMore] at hm
          split at hm
          · simp at hm
          · split at hm
            · simp only [Prod.mk.injEq, Res.err.injEq] at hm
              rw [← hm.2, Err.mk.injEq] at he
              exact ht _ he.2.1.symm
            · simp at hm
        · rw [if_neg hlt] at hm; simp at hm
      | panic => simp at he
      | diverge => simp at he

/-- **C24 is false** for `next_key`: on `,1` behind `{"k":2` the offending byte has offset 7, the error says 8. -/
theorem C24_next_key : ∃ s s' : RJ, s.Sync ∧ s.currentIndex = 6 ∧ s.rest = [44, 49] ∧
    s.nextKey 40 = (s', .err ⟨.json .keyMustBeAString, 8⟩) := by
  refine ⟨(((RJ.new [.data 123 [34, 107, 34, 58, 50, 44, 49]] (List.replicate 9 0)).nextObject 40).1.nextNumberBytes 40).1, _,
    by refine ⟨?_, ?_, ?_⟩ <;> decide +kernel, by decide +kernel, by decide +kernel, rfl⟩

/-- `null`, then a line break and an object, in single bytes; positioned behind `null`. -/
def exMid2 : RJ := ((RJ.new (oneByOne [110, 117, 108, 108, 32, 10, 123, 125]) (List.replicate 4 0)).nextNull 40).1

/-- The first byte of the values other than numbers: `"`, `[`, `f`, `n`, `t`, `{`. -/
def Opens (c : Byte) : Prop := c = 34 ∨ c = 91 ∨ c = 102 ∨ c = 110 ∨ c = 116 ∨ c = 123

theorem wrong_type {α : Type} {f : JFn α} {sel : Byte → Option (JFn α)} (hn : Next f sel)
    (hs : ∀ c g, sel c = some g → JSound g none) (hst : ∀ c g, sel c = some g → Still g)
    (hsel2 : ∀ c g, sel c = some g → isAsciiWs c = false)
    (s : RJ) (fuel : Nat) (h : s.Sync) (hl : 0 < s.b.buf.length) (hcl : s.b.reader.Clean) (hf : enoughFuel s fuel)
    (ws : Bytes) (c : Byte) (t : Bytes) (hr : s.rest = ws ++ c :: t) (hw : Spaces ws) (hc : Opens c) (hsel : sel c = none) :
    ∃ s', s.loopUntilSuccess fuel f none false = (s', .err ⟨.wrongType, s.currentIndex + ws.length⟩) ∧ s.Moved s' ws.length := by
  have hf2 := hf
  unfold enoughFuel at hf2
  have hws : ∀ {ws' : Bytes} {c' : Byte} {t' : Bytes}, ws ++ c :: t = ws' ++ c' :: t' → Blank ws' →
      (isAsciiWs c' = false) → ws' = ws ∧ c' = c ∧ t' = t := by
    intro ws'
    have hopen : isAsciiWs c = false := by rcases hc with rfl | rfl | rfl | rfl | rfl | rfl <;> decide
    have hb : Blank ws := fun c hc => .inl (hw c hc)
    clear hr hw
    have asc : ∀ {x : Byte}, (Space x ∨ x = 12) → isAsciiWs x = true := by
      intro x hx
      rcases hx with (rfl | rfl | rfl | rfl) | rfl <;> decide
    induction ws generalizing ws' with
    | nil =>
      intro c' t' he hb' hc'
      cases ws' with
      | nil => simp only [List.nil_append, List.cons.injEq] at he; exact ⟨rfl, he.1.symm, he.2.symm⟩
      | cons x l =>
        simp only [List.nil_append, List.cons_append, List.cons.injEq] at he
        have := asc (hb' x (by simp))
        rw [← he.1, hopen] at this; exact absurd this (by decide)
    | cons y l ih =>
      intro c' t' he hb' hc'
      cases ws' with
      | nil =>
        simp only [List.nil_append, List.cons_append, List.cons.injEq] at he
        have := asc (hb y (by simp))
        rw [he.1, hc'] at this; exact absurd this (by decide)
      | cons x l' =>
        simp only [List.cons_append, List.cons.injEq] at he
        obtain ⟨g1, g2, g3⟩ := ih (ws' := l') (fun c hc => hb c (by simp [hc])) he.2 (fun c hc => hb' c (by simp [hc])) hc'
        exact ⟨by rw [g1, he.1], g2, g3⟩
  obtain ⟨s', r, e, hr'⟩ := loopUntilSuccess_sound (eager := false) (Next.jsound hn hs) s fuel h hl (by simp) (by omega)
  rcases hr' with ⟨v, n, rfl, _⟩ | ⟨er, rfl, hio⟩
  · exfalso
    obtain ⟨ws', c', t', g, d, m, h1, h2, h3, _⟩ := next_value hn hs hst h hl hf e
    obtain ⟨_, rfl, _⟩ := hws (by rw [← hr, h1]) h2 (hsel2 c' g h3)
    rw [hsel] at h3; cases h3
  · rcases plain_error (Next.stillWs hn hst) (Next.stillNil hn) s fuel h hl (by omega) e with ⟨kd, x, h1, _⟩ | ⟨ws', r, k, je, h1, h2, h3, h4, h5, h6⟩
    · exact absurd hcl (hio kd (by rw [h1]))
    · have hb := blank_of_ascii h2
      have hp0 : Jiter.peek [] = (0, .error ⟨.json .eofWhileParsingValue, 0⟩) := rfl
      cases r with
      | nil =>
        exfalso
        rw [List.append_nil] at h1
        have := h2 c (by rw [← h1, hr]; simp)
        rcases hc with rfl | rfl | rfl | rfl | rfl | rfl <;> exact absurd this (by decide)
      | cons c' t' =>
        obtain ⟨rfl, rfl, rfl⟩ := hws (by rw [← hr, h1]) hb (h3 c' rfl)
        cases k with
        | zero =>
          exfalso
          have := h4.err
          rw [List.take_zero, hn.ws _ _ _ hp0] at this
          simp only [Prod.mk.injEq, Except.error.injEq, true_and] at this
          rcases h4.final (by rw [← this]; rfl) with h0 | h0
          · simp at h0
          · omega
        | succ k =>
          have hpk : Jiter.peek (c' :: t'.take k) = (0, .ok c') := by
            simpa using peek_tok Ws.nil (isWs_of_not_ascii (h3 c' rfl)) (t'.take k)
          have := h4.err
          rw [List.take_succ_cons, hn.bad _ _ _ hpk hsel] at this
          simp only [Prod.mk.injEq, Except.error.injEq, true_and] at this
          refine ⟨s', ?_, h6⟩
          rw [e, h5, ← this]; rfl

/-- **C24** for a value of another type: the `next_*` calls for `null`, booleans and strings fail with `WrongType` at the
offset of the first byte of the value, and stay there. -/
theorem C24_wrong_type (s : RJ) (fuel : Nat) (h : s.Sync) (hl : 0 < s.b.buf.length) (hcl : s.b.reader.Clean)
    (hf : enoughFuel s fuel) (ws : Bytes) (c : Byte) (t : Bytes) (hr : s.rest = ws ++ c :: t) (hw : Spaces ws) (hc : Opens c) :
    (c ≠ 110 → ∃ s', s.nextNull fuel = (s', .err ⟨.wrongType, s.currentIndex + ws.length⟩) ∧ s.Moved s' ws.length) ∧
    (c ≠ 116 → c ≠ 102 → ∃ s', s.nextBool fuel = (s', .err ⟨.wrongType, s.currentIndex + ws.length⟩) ∧ s.Moved s' ws.length) ∧
    (c ≠ 34 → (∃ s', s.nextStr fuel = (s', .err ⟨.wrongType, s.currentIndex + ws.length⟩) ∧ s.Moved s' ws.length) ∧
      ∃ s', s.nextBytes fuel = (s', .err ⟨.wrongType, s.currentIndex + ws.length⟩) ∧ s.Moved s' ws.length) := by
  have str : ∀ (known : JFn Bytes), PrefixFn known → Still known → c ≠ 34 →
      ∃ s', s.loopUntilSuccess fuel (Jiter.nextString known) none false = (s', .err ⟨.wrongType, s.currentIndex + ws.length⟩) ∧
        s.Moved s' ws.length := by
    intro known k1 k2 hne
    have hsel : ∀ (c : Byte) g, (if c = 34 then some known else none) = some g → c = 34 ∧ g = known := by
      intro c g hg
      by_cases hc : c = (34 : Byte)
      · rw [if_pos hc] at hg; injection hg with hg; exact ⟨hc, hg.symm⟩
      · rw [if_neg hc] at hg; cases hg
    refine wrong_type (nextString_next known) ?_ ?_ ?_ s fuel h hl hcl hf ws c t hr hw hc (by rw [if_neg hne])
    · intro c g hg; obtain ⟨_, rfl⟩ := hsel c g hg; exact PrefixFn.jsound k1
    · intro c g hg; obtain ⟨_, rfl⟩ := hsel c g hg; exact k2
    · intro c g hg; obtain ⟨rfl, _⟩ := hsel c g hg; decide
  refine ⟨?_, ?_, fun hne => ⟨str _ knownStr_prefix knownStr_still hne, str _ knownBytes_prefix knownBytes_still hne⟩⟩
  · intro hne
    have hsel : ∀ (c : Byte) g, (if c = 110 then some Jiter.knownNull else none) = some g → c = 110 ∧ g = Jiter.knownNull := by
      intro c g hg
      by_cases hc : c = (110 : Byte)
      · rw [if_pos hc] at hg; injection hg with hg; exact ⟨hc, hg.symm⟩
      · rw [if_neg hc] at hg; cases hg
    refine wrong_type nextNull_next ?_ ?_ ?_ s fuel h hl hcl hf ws c t hr hw hc (by rw [if_neg hne])
    · intro c g hg; obtain ⟨_, rfl⟩ := hsel c g hg; exact PrefixFn.jsound knownNull_prefix
    · intro c g hg; obtain ⟨_, rfl⟩ := hsel c g hg; exact consumeIdent_still _ _
    · intro c g hg; obtain ⟨rfl, _⟩ := hsel c g hg; decide
  · intro hne1 hne2
    have hsel : ∀ (c : Byte) g, (if c = 116 ∨ c = 102 then some (Jiter.knownBool c) else none) = some g →
        (c = 116 ∨ c = 102) ∧ g = Jiter.knownBool c := by
      intro c g hg
      by_cases hc : c = (116 : Byte) ∨ c = 102
      · rw [if_pos hc] at hg; injection hg with hg; exact ⟨hc, hg.symm⟩
      · rw [if_neg hc] at hg; cases hg
    refine wrong_type nextBool_next ?_ ?_ ?_ s fuel h hl hcl hf ws c t hr hw hc (by rw [if_neg (by simp [hne1, hne2])])
    · intro c g hg; obtain ⟨_, rfl⟩ := hsel c g hg; exact PrefixFn.jsound (knownBool_prefix c)
    · intro c g hg; obtain ⟨_, rfl⟩ := hsel c g hg; exact knownBool_still c
    · intro c g hg; obtain ⟨hc, _⟩ := hsel c g hg; rcases hc with rfl | rfl <;> decide

example : exMid2.Sync ∧ exMid2.b.reader.Clean ∧ enoughFuel exMid2 30 ∧ exMid2.rest = [32, 10] ++ 123 :: [125] ∧
    exMid2.currentIndex = 4 ∧ (exMid2.nextStr 30).2 = .err ⟨.wrongType, 6⟩ ∧ (exMid2.nextStr 30).1.currentIndex = 6 := by
  refine ⟨⟨?_, ?_, ?_⟩, ?_⟩ <;> decide +kernel

/-! ## C25 -/

/-- Line (from 1) and column (from 1) of the byte at offset `i` of a text. A newline is counted as column 0 of the new line,
as jiter does. -/
def lineColAt (l : Bytes) (i : Nat) : Nat × Nat := (1 + (lineCol (l.take (i + 1))).1, (lineCol (l.take (i + 1))).2)

theorem lineCol_snoc (l : Bytes) (c : Byte) :
    lineCol (l ++ [c]) = if c = 10 then ((lineCol l).1 + 1, 0) else ((lineCol l).1, (lineCol l).2 + 1) := by
  simp only [lineCol, List.count_append, List.reverse_append, List.reverse_cons, List.reverse_nil, List.nil_append,
    List.singleton_append]
  by_cases hc : c = 10
  · subst hc; simp
  · rw [if_neg hc, List.takeWhile_cons, if_pos (by simpa using hc)]
    simp [hc]

theorem lineCol_le (l : Bytes) : (lineCol l).2 ≤ l.length := by
  simp only [lineCol]
  have := (List.takeWhile_prefix (· != (10 : Byte)) (l := l.reverse)).length_le
  simpa using this

/-- `p` has been read, `d` is still to be read. -/
theorem findLoop_spec : ∀ (d p : Bytes) (k : Nat), k < d.length →
    findLoop d p.length (p.length + k) (1 + (lineCol p).1) (p.length - (lineCol p).2) = lineColAt (p ++ d) (p.length + k) := by
  intro d
  induction d with
  | nil => intro p k h; simp at h
  | cons c d ih =>
    intro p k h
    have hle := lineCol_le p
    have hs := lineCol_snoc p c
    have e1 : (if c = 10 then 1 + (lineCol p).1 + 1 else 1 + (lineCol p).1) = 1 + (lineCol (p ++ [c])).1 := by
      rw [hs]; split <;> simp <;> omega
    have e2 : (if c = 10 then p.length + 1 else p.length - (lineCol p).2) = (p ++ [c]).length - (lineCol (p ++ [c])).2 := by
      rw [hs, List.length_append, List.length_singleton]; split <;> simp
    simp only [findLoop]
    rw [e1, e2]
    cases k with
    | zero =>
      rw [Nat.add_zero, if_pos rfl]
      have : (p ++ c :: d).take (p.length + 1) = p ++ [c] := by
        rw [List.take_append]; simp [List.take_of_length_le]
      simp only [lineColAt, this]
      have := lineCol_le (p ++ [c])
      simp only [List.length_append, List.length_singleton] at this ⊢
      congr 1; omega
    | succ k =>
      rw [if_neg (by omega)]
      have := ih (p ++ [c]) k (by simpa using h)
      rw [List.append_assoc, List.singleton_append] at this
      simp only [List.length_append, List.length_singleton] at this ⊢
      rw [show p.length + (k + 1) = p.length + 1 + k by omega]
      exact this

theorem linePosition_spec (d : Bytes) (k : Nat) (h : k < d.length) : linePosition d k = lineColAt d k := by
  have := findLoop_spec d [] k h
  simpa [lineCol, linePosition] using this

theorem Via.nothing_out {b b' : Buffer} {out : Bytes} (h : Via b b' out) (hok : b.nBytes ≤ b.buf.length) (h0 : out = []) :
    b'.valid ++ b'.reader.pending = b.valid ++ b.reader.pending := by
  induction h with
  | refl b => rfl
  | shift b t f =>
    have hl := congrArg List.length h0
    have hv := valid_length hok
    simp only [List.length_drop, List.length_take, List.length_nil] at hl
    have : b.shift t f = b := by
      simp only [Buffer.shift]
      rw [if_neg (by omega), if_neg (by omega)]
    rw [this]
  | read b =>
    rcases b.readMore_cases hok with ⟨_, e⟩ | ⟨_, e⟩ | ⟨q, r', hlt, hr, e⟩ |
      ⟨b', bs, e, hb, hv, hn, ho, hl', hp, hs', hcl, h1, h2, h3, _⟩
    · rw [e]
    · rw [e]
    · rw [e, hr]; rfl
    · rw [e, hp]; simp only [hv, List.append_assoc]
  | trans h1 h2 ih1 ih2 =>
    obtain ⟨g1, g2⟩ := List.append_eq_nil_iff.mp h0
    rw [ih2 (h1.counts hok).1 g2, ih1 hok g1]

/-- **C25, partial**: nothing has been shifted out. Then `error_position` is right for every offset jiter can see. Full
statement: for every offset in the buffer, at any time; it is false, see `C25_column`. -/
theorem C25_unshifted_partial (input : Reader) (buf : Bytes) (s : RJ) (h : Calls (.new input buf) s) (h0 : s.b.nShifted = 0)
    (hj : s.jlen ≤ s.b.nBytes) (i : Nat) (hi : i < s.jlen) :
    s.errorPosition i = some (lineColAt input.pending i) := by
  obtain ⟨out, hv⟩ := h.reach
  obtain ⟨h1, _, h3, h4, _⟩ := hv.counts (Nat.zero_le _)
  have hol : out = [] := by
    rw [h0] at h3; exact List.length_eq_zero_iff.mp (by omega)
  have hin := hv.nothing_out (Nat.zero_le _) hol
  subst hol
  have hin' : s.b.valid ++ s.b.reader.pending = input.pending := by
    rw [hin]; simp [RJ.new, Buffer.new, Buffer.valid]
  simp only [RJ.new, Buffer.new, List.foldl_nil, Prod.mk.injEq] at h4
  have hlen : i < (s.b.buf.take s.jlen).length := by rw [List.length_take]; omega
  rw [errorPosition, if_neg (by omega), h0, Nat.sub_zero, linePosition_spec _ _ hlen, h4.1, h4.2]
  simp only [Nat.add_zero, lineColAt, Option.some.injEq]
  have : (s.b.buf.take s.jlen).take (i + 1) = input.pending.take (i + 1) := by
    rw [← hin', List.take_take, List.take_append_of_le_length (by rw [valid_length h1]; omega), Buffer.valid, List.take_take]
    congr 1; omega
  rw [this]

/-- `[1,⏎2x` with a large buffer, behind the `2`: the `x` is on line 2, column 2. -/
example : ∃ s, Calls (.new [.data 91 [49, 44, 10, 50, 120]] (List.replicate 9 0)) s ∧ s.b.nShifted = 0 ∧
    s.jlen ≤ s.b.nBytes ∧ 5 < s.jlen ∧ s.currentIndex = 5 ∧ s.errorPosition 5 = some (2, 2) :=
  ⟨_, .cons .nextArray 20 (.cons .nextNumberBytes 20 (.cons .arrayStep 20 (.cons .nextNumberBytes 20 (.nil _)))), by decide +kernel⟩

theorem perm_of_append {a b c d : Bytes} (h : (a ++ c).Perm (b ++ d)) (hcd : c = d) : a.Perm b := by
  subst hcd; exact (List.perm_append_right_iff c).mp h

/-- The bytes shifted out and those in the buffer in front of the position are those of the input in front of the position,
up to the order. -/
theorem consumed_perm {input : Reader} {buf : Bytes} (hl : 2 ≤ buf.length) {s : RJ} {ops : List Op}
    (hh : History (.new input buf) ops s) :
    ∃ out : Bytes, out.length = s.b.nShifted ∧ (s.b.line, s.b.column) = lineCol out ∧
      (out ++ s.b.valid.take s.jidx).Perm (input.pending.take s.currentIndex) ∧
      input.pending.drop s.currentIndex = s.b.valid.drop s.jidx ++ s.b.reader.pending ∧ s.Sync := by
  have hcalls : Calls (.new input buf) s := by
    clear hl
    generalize RJ.new input buf = s0 at hh
    induction hh with
    | nil s => exact .nil s
    | cons hf hrun hk _ ih => exact .cons _ _ (by rw [hrun]; exact ih)
  obtain ⟨h1, _, out, hp, hol, hlc⟩ := C29_fill_level input buf s hcalls
  obtain ⟨n, hm⟩ := hh.moved (sync_new _ _) hl
  have hn : s.currentIndex = n := by rw [hm.index]; simp [RJ.new, Buffer.new, currentIndex]
  have hr := hm.rest
  rw [rest_new, ← hn] at hr
  have hr2 : s.rest = s.b.valid.drop s.jidx ++ s.b.reader.pending := rfl
  refine ⟨out, hol, hlc, ?_, by rw [← hr, hr2], hm.sync⟩
  refine perm_of_append (c := s.b.valid.drop s.jidx ++ s.b.reader.pending) (d := input.pending.drop s.currentIndex) ?_ (by rw [← hr, hr2])
  rw [List.take_append_drop, List.append_assoc, ← List.append_assoc (s.b.valid.take _), List.take_append_drop]
  exact hp

/-- **C25, partial**: the line. After any calls that did not fail, for the offsets from the position on that jiter can see,
`error_position` gives the right line. -/
theorem C25_line_partial (input : Reader) (buf : Bytes) (hl : 2 ≤ buf.length) (s : RJ) (ops : List Op)
    (hh : History (.new input buf) ops s) (i : Nat) (h1 : s.currentIndex ≤ i) (h2 : i < s.b.nShifted + s.jlen) :
    ∃ col, s.errorPosition i = some ((lineColAt input.pending i).1, col) := by
  obtain ⟨out, ho, hlc, hp, hd, hs⟩ := consumed_perm hl hh
  have hok := hs.ok
  have hjl := hs.len
  have hci : s.currentIndex = s.jidx + s.b.nShifted := rfl
  have hlen : i - s.b.nShifted < (s.b.buf.take s.jlen).length := by rw [List.length_take]; omega
  rw [errorPosition, if_neg (by omega), linePosition_spec _ _ hlen]
  refine ⟨_, congrArg some (Prod.ext ?_ rfl)⟩
  simp only [lineColAt, lineCol, Prod.mk.injEq] at hlc ⊢
  rw [hlc.1, hjl]
  have hcnt := hp.count_eq 10
  rw [List.count_append] at hcnt
  have e1 : (s.b.buf.take s.b.nBytes).take (i - s.b.nShifted + 1) =
      s.b.valid.take s.jidx ++ (s.b.valid.drop s.jidx).take (i + 1 - s.currentIndex) := by
    have : i - s.b.nShifted + 1 = s.jidx + (i + 1 - s.currentIndex) := by omega
    rw [this, List.take_add]; rfl
  have e2 : input.pending.take (i + 1) = input.pending.take s.currentIndex ++
      (s.b.valid.drop s.jidx).take (i + 1 - s.currentIndex) := by
    have : i + 1 = s.currentIndex + (i + 1 - s.currentIndex) := by omega
    conv => lhs; rw [this, List.take_add]
    rw [hd, List.take_append_of_le_length]
    rw [List.length_drop, valid_length hok]; omega
  rw [e1, e2, List.count_append, List.count_append]
  omega

/-- `[1,⏎ 2⏎,` with a small buffer, behind the `2`: the newline of offset 6 begins line 3. -/
example : ∃ s ops, History (.new [.data 91 [49, 44], .data 10 [32], .data 50 [10, 44]] (List.replicate 5 0)) ops s ∧
    s.currentIndex = 6 ∧ s.b.nShifted = 4 ∧ s.jlen = 3 ∧ (∃ col, s.errorPosition 6 = some (3, col)) := by
  refine ⟨_, _, .cons (op := .nextArray) (fuel := 40) (r := .ok ()) (by unfold enoughFuel; decide +kernel) rfl (.ok _)
    (.cons (op := .nextNumberBytes) (fuel := 40) (r := .ok ()) (by unfold enoughFuel; decide +kernel) rfl (.ok _)
    (.cons (op := .arrayStep) (fuel := 40) (r := .ok ()) (by unfold enoughFuel; decide +kernel) rfl (.ok _)
    (.cons (op := .nextNumberBytes) (fuel := 40) (r := .ok ()) (by unfold enoughFuel; decide +kernel) rfl (.ok _) (.nil _)))),
    by decide +kernel, by decide +kernel, by decide +kernel, 1, by decide +kernel⟩

theorem lineCol_no_newline {l : Bytes} (h : 10 ∉ l) : lineCol l = (0, l.length) := by
  simp only [lineCol, List.count_eq_zero.mpr h, Prod.mk.injEq, true_and]
  have : ∀ r : Bytes, 10 ∉ r → r.takeWhile (· != 10) = r := by
    intro r
    induction r with
    | nil => intro _; rfl
    | cons c r ih =>
      intro hr
      simp only [List.mem_cons, not_or] at hr
      rw [List.takeWhile_cons, if_pos (by simpa using fun e => hr.1 e.symm), ih hr.2]
  rw [this _ (by simpa using h), List.length_reverse]

/-- **C25, partial**: a document on a single line. After any calls, whatever their outcomes, `error_position` is right for the
offsets that jiter can see. -/
theorem C25_one_line_partial (input : Reader) (buf : Bytes) (s : RJ) (h : Calls (.new input buf) s)
    (hj : s.jlen ≤ s.b.nBytes) (hn : 10 ∉ input.pending) (i : Nat) (h1 : s.b.nShifted ≤ i) (h2 : i < s.b.nShifted + s.jlen) :
    s.errorPosition i = some (lineColAt input.pending i) ∧ lineColAt input.pending i = (1, i + 1) := by
  obtain ⟨g1, _, out, hp, hol, hlc⟩ := C29_fill_level input buf s h
  have hlen : i - s.b.nShifted < (s.b.buf.take s.jlen).length := by rw [List.length_take]; omega
  have hmem : ∀ l : Bytes, (∀ x ∈ l, x ∈ out ∨ x ∈ s.b.valid) → 10 ∉ l := by
    intro l hl h10
    refine hn (hp.mem_iff.mp ?_)
    rcases hl 10 h10 with h | h <;> simp [h]
  have hin : lineColAt input.pending i = (1, i + 1) := by
    have hpl := hp.length_eq
    have hvl := valid_length g1
    rw [lineColAt, lineCol_no_newline (fun h => hn (List.mem_of_mem_take h)), List.length_take]
    simp only [List.length_append] at hpl
    rw [Nat.min_eq_left (by omega), Nat.add_zero]
  refine ⟨?_, hin⟩
  rw [hin, errorPosition, if_neg (by omega), linePosition_spec _ _ hlen, lineColAt, lineCol_no_newline]
  · rw [lineCol_no_newline (hmem out (fun x hx => .inl hx))] at hlc
    simp only [Prod.mk.injEq] at hlc
    simp only [hlc.1, hlc.2, Option.some.injEq, Prod.mk.injEq]
    simp only [List.length_take] at hlen ⊢
    exact ⟨trivial, by omega⟩
  · refine hmem _ (fun x hx => .inr ?_)
    have hx1 := List.mem_of_mem_take hx
    rw [show s.b.buf.take s.jlen = s.b.valid.take s.jlen by rw [Buffer.valid, List.take_take]; congr 1; omega] at hx1
    exact List.mem_of_mem_take hx1

/-- Behind a failed call, with bytes shifted out. -/
example : ∃ s, Calls (.new [.data 32 [49], .fail 3, .data 32 [120]] [0, 0, 0, 0]) s ∧ s.jlen ≤ s.b.nBytes ∧
    s.b.nShifted = 3 ∧ s.jlen = 1 ∧ s.errorPosition 3 = some (1, 4) :=
  ⟨_, .cons .nextNumberBytes 20 (.cons .nextNumberBytes 20 (.nil _)), by decide +kernel⟩

/-- **C25 is false**: on `␣␣1⏎␣x`, after `peek`, the byte `x` at offset 5 is on line 2 in column 2. `error_position` says
column 4: it adds the columns of the bytes that were shifted out, although they are on another line. -/
theorem C25_column : ∃ s : RJ, History (.new [.data 32 [32, 49, 10, 32, 120]] (List.replicate 8 0)) [.peek] s ∧
    s.currentIndex = 2 ∧ s.b.nShifted + s.jlen = 6 ∧ lineColAt [32, 32, 49, 10, 32, 120] 5 = (2, 2) ∧
    s.errorPosition 5 = some (2, 4) :=
  ⟨_, .cons (fuel := 40) (r := .ok ()) (by unfold enoughFuel; decide +kernel) rfl (.ok _) (.nil _), by decide +kernel⟩

/-- For an offset that was shifted out `error_position` panics: the subtraction underflows. -/
theorem C25_underflow (s : RJ) (i : Nat) : s.errorPosition i = none ↔ i < s.b.nShifted := by
  simp only [errorPosition]
  by_cases h : i < s.b.nShifted
  · simp [h]
  · simp [h]

/-- That happens: after `peek` in the example above. -/
example : ∃ s : RJ, History (.new [.data 32 [32, 49]] (List.replicate 8 0)) [.peek] s ∧ s.errorPosition 0 = none :=
  ⟨_, .cons (fuel := 40) (r := .ok ()) (by unfold enoughFuel; decide +kernel) rfl (.ok _) (.nil _), by decide +kernel⟩

/-! ## C26 -/

/-- **C26, partial** (full statement: every call, from any position; it is false, see below). For the calls of
`C24_error_index_partial`: if the buffer holds at least one byte of the value already (for example after `peek`), then a read
error during the call consumes nothing but whitespace, and the position is as usual, so that the call can be repeated. -/
theorem C26_io_error_partial (op : Op) (v : Bytes → Option JErr) (hv : op.verdict = some v) (s : RJ) (fuel : Nat)
    (h : s.Sync) (hl : 0 < s.b.buf.length) (hf : enoughFuel s fuel) (hb : ∃ c ∈ s.jdata, ¬ (Space c ∨ c = 12))
    (s' : RJ) (kd x : Nat) (he : op.run fuel s = (s', .err ⟨.io kd, x⟩)) :
    ∃ ws r, s.rest = ws ++ r ∧ Blank ws ∧ s.Moved s' ws.length := by
  rcases op_error op v hv s fuel h hl hf s' _ he with ⟨_, _, _, h2⟩ | ⟨ws, r, k, e, h1, h2, h3, h4, h5, h6, h7⟩
  · obtain ⟨c, hc, hcs⟩ := hb
    exact h2 ⟨c, hc, isAsciiWs_false (fun h => hcs (.inl h)) (fun h => hcs (.inr h))⟩
  · exact ⟨ws, r, h1, h2, h7⟩

/-- ` "a`, then the reader fails, then `b"`. The second call returns the string. -/
example : ∃ s s' : RJ, s = ((RJ.new [.data 32 [34, 97], .fail 3, .data 98 [34]] (List.replicate 8 0)).peek 20).1 ∧ s.Sync ∧
    enoughFuel s 20 ∧ (∃ c ∈ s.jdata, ¬ (Space c ∨ c = 12)) ∧ Op.run 20 s .nextStr = (s', .err ⟨.io 3, 2⟩) ∧
    (s'.nextStr 20).2 = .ok [97, 98] :=
  ⟨_, _, rfl, by refine ⟨?_, ?_, ?_⟩ <;> decide +kernel, by decide +kernel, ⟨34, by decide +kernel, by simp [Space]⟩, rfl,
    by decide +kernel⟩

/-- **C26 is false** for numbers: `12`, then the reader fails, then `,`. The call fails with the error of the reader, but the
position is behind the number, and the repeated call does not find it. Without the failing read it returns `12`. -/
theorem C26_number_lost : ∃ s s1 s2 : RJ, s = .new [.data 49 [50], .fail 3, .data 44 []] (List.replicate 8 0) ∧
    s.nextNumberBytes 20 = (s1, .err ⟨.io 3, 2⟩) ∧ s.currentIndex = 0 ∧ s1.currentIndex = 2 ∧
    (∃ e, s1.nextNumberBytes 20 = (s2, .err e)) ∧
    ((RJ.new [.data 49 [50], .data 44 []] (List.replicate 8 0)).nextNumberBytes 20).2 = .ok [49, 50] :=
  ⟨_, _, _, rfl, rfl, by decide +kernel, by decide +kernel, ⟨_, rfl⟩, by decide +kernel⟩

/-- **C26 is false** if the buffer is empty: behind `null`, at the end of the buffered bytes, the reader fails. The bytes
in front of the position were shifted out, but the position in the buffer was kept: the index goes from 4 to 8. -/
theorem C26_index_moves : ∃ s s1 : RJ, History (.new [.data 110 [117, 108, 108], .fail 3, .data 116 [114, 117, 101]]
      (List.replicate 8 0)) [.nextNull] s ∧ s.currentIndex = 4 ∧
    s.peek 20 = (s1, .err ⟨.io 3, 0⟩) ∧ s1.currentIndex = 8 :=
  ⟨_, _, .cons (fuel := 40) (r := .ok ()) (by unfold enoughFuel; decide +kernel) rfl (.ok _) (.nil _), by decide +kernel, rfl,
    by decide +kernel⟩

/-- **C26 is false** for `next_key`: `,`, then the reader fails, then `"k":1`. The comma is gone, and the repeated call
reports an error. Without the failing read it returns the key. -/
theorem C26_comma_lost : ∃ s s1 s2 : RJ, ∃ x, s = ((RJ.new [.data 44 [], .fail 3, .data 34 [107, 34, 58, 49]] (List.replicate 8 0)).peek 20).1 ∧
    s.Sync ∧ s.rest = [44, 34, 107, 34, 58, 49] ∧ s.nextKey 20 = (s1, .err ⟨.io 3, 1⟩) ∧
    s1.nextKey 20 = (s2, .err ⟨.json .expectedObjectCommaOrEnd, x⟩) ∧
    (((RJ.new [.data 44 [], .data 34 [107, 34, 58, 49]] (List.replicate 8 0)).peek 20).1.nextKey 20).2 = .ok (some [107]) :=
  ⟨_, _, _, _, rfl, by refine ⟨?_, ?_, ?_⟩ <;> decide +kernel, by decide +kernel, rfl, rfl, by decide +kernel⟩

/-! ## C42 -/

/-- **C42, partial** (full statement: any failed lookahead; it is false, see `C42_truncated_after_lookahead`). If the buffer is
full from the position on, a failed lookahead changes nothing at all. -/
theorem C42_full_buffer_partial (s : RJ) (fuel : Nat) (hj : s.jidx = 0) (hb : s.b.nBytes = s.b.buf.length) (s' : RJ) (e : Err) :
    (∀ n, s.lookaheadN fuel n = (s', .err e) → s' = s) ∧ (∀ p, s.lookaheadWhile fuel p = (s', .err e) → s' = s) := by
  have hend : ∀ b a q, s.lookaheadEnd b a q ≠ (s', .err e) := by
    intro b a q h
    simp only [lookaheadEnd] at h
    split at h
    · split at h
      · split at h
        · simp at h
        · split at h <;> simp at h
      · split at h <;> simp at h
    · split at h <;> simp at h
  refine ⟨?_, ?_⟩
  · intro n h
    cases fuel with
    | zero => simp [lookaheadN, collectCount, collectCountLoop] at h
    | succ fuel =>
      simp only [lookaheadN, collectCount, collectCountLoop, hj] at h
      by_cases hn : s.b.nBytes ≥ 0 + n
      · rw [if_pos hn] at h; exact absurd h (hend _ _ _)
      · rw [if_neg hn, if_pos (by omega)] at h
        simp only [Bool.not_true, Bool.or_false, beq_self_eq_true, Bool.or_true, if_true, Prod.mk.injEq] at h
        rw [← h.1]; cases s; simp_all
  · intro p h
    cases fuel with
    | zero => simp [lookaheadWhile, collectWhile, collectWhileLoop] at h
    | succ fuel =>
      simp only [lookaheadWhile, collectWhile, collectWhileLoop, hj] at h
      by_cases hn : s.b.scan p 0 < s.b.nBytes
      · rw [if_pos hn] at h; exact absurd h (hend _ _ _)
      · rw [if_neg hn, if_pos (by omega)] at h
        simp only [Bool.not_true, Bool.or_false, beq_self_eq_true, Bool.or_true, if_true, Prod.mk.injEq] at h
        rw [← h.1]; cases s; simp_all

/-- A buffer of two bytes, both in use. -/
example : ∃ s : RJ, s = ((RJ.new [.data 49 [50], .data 51 []] [0, 0]).peek 20).1 ∧ s.jidx = 0 ∧ s.b.nBytes = s.b.buf.length ∧
    s.lookaheadN 20 3 = (s, .err ⟨.bufferFull, 0⟩) := ⟨_, rfl, by decide +kernel, by decide +kernel, rfl⟩

end Verif.RJiter
