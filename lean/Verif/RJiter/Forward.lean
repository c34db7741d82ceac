import Verif.RJiter.OpLemmas
import Verif.RJiter.PropsLong

/-!
# A successful call consumes something, on any input
-/

namespace Verif.RJiter

open Buffer RJ Jiter

/-- A success consumes something. -/
def Eats {α : Type} (f : JFn α) : Prop := ∀ d n v, f d = (n, .ok v) → 1 ≤ n

theorem PrefixFn.eats {α : Type} {f : JFn α} (h : PrefixFn f) : Eats f := fun d n v hd => by have := (h d n v hd).1; omega

theorem Next.eats {α : Type} {f : JFn α} {sel : Byte → Option (JFn α)} (hn : Next f sel)
    (hs : ∀ c g, sel c = some g → Eats g) : Eats f := by
  intro d n v hd
  obtain ⟨ws, c, t, g, m, rfl, _, _, hsel, hg, rfl⟩ := hn.ok hd
  have := hs c g hsel _ _ _ hg
  omega

theorem knownArray_eats : Eats Jiter.knownArray := by
  intro d n v hd
  obtain ⟨x, ws, c, t, rfl, hw, hc⟩ := knownArray_ok hd
  rw [knownArray_tok x hw hc] at hd
  by_cases h : c = 93
  · simp only [h, if_true, Prod.mk.injEq] at hd; omega
  · simp only [h, if_false, Prod.mk.injEq] at hd; omega

theorem arrayStep_eats : Eats Jiter.arrayStep := by
  intro d n v hd
  rcases arrayStep_ok hd with ⟨ws, t, rfl, _, _, rfl⟩ | ⟨ws, ws2, c, t, rfl, _, _, _, _, _, rfl⟩ <;> omega

theorem nextKey_eats (known : JFn Bytes) : Eats (Jiter.nextKey known) := by
  intro d n v hd
  rcases nextKey_ok hd with ⟨ws, t, rfl, _, _, rfl⟩ | ⟨ws, ws2, t, m, k, rfl, _, _, _, ho, rfl⟩ <;> omega

theorem knownObject_eats (known : JFn Bytes) : Eats (Jiter.knownObject known) := by
  intro d n v hd
  rcases knownObject_ok hd with ⟨x, ws, t, rfl, _, _, rfl⟩ | ⟨x, ws, t, m, k, rfl, _, _, ho, rfl⟩ <;> omega

theorem nextObject_eats (known : JFn Bytes) : Eats (Jiter.nextObject known) := by
  apply Next.eats (nextObject_next known)
  intro c g h
  by_cases hc : c = 123
  · simp only [hc, if_true, Option.some.injEq] at h; subst h; exact knownObject_eats known
  · simp [hc] at h

theorem numberTok_eats : Eats numberTok := by
  intro d n v hd
  simp only [numberTok] at hd
  cases hn : numberEnd d with
  | error e => rw [hn] at hd; simp [jerr] at hd
  | ok m =>
    rw [hn] at hd
    simp only [Prod.mk.injEq] at hd
    obtain ⟨rfl, _⟩ := hd
    rw [numberEnd_eq] at hn
    have h2 := numBody_pos hn
    omega

theorem nextNumber_eats : Eats Jiter.nextNumberBytes := by
  apply Next.eats nextNumber_next
  intro c g h
  by_cases hc : c = 45 ∨ isDigit c = true
  · simp only [hc, if_true, Option.some.injEq] at h; subst h; exact numberTok_eats
  · simp [hc] at h

namespace RJ

theorem readMore_nShifted (b : Buffer) (h : b.nBytes ≤ b.buf.length) : b.readMore.1.nShifted = b.nShifted ∧
    b.readMore.1.nBytes ≤ b.readMore.1.buf.length := by
  rcases b.readMore_cases h with ⟨_, e⟩ | ⟨_, e⟩ | ⟨k, r', _, _, e⟩ | ⟨b', bs, e, h1⟩
  · rw [e]; exact ⟨rfl, h⟩
  · rw [e]; exact ⟨rfl, h⟩
  · rw [e]; exact ⟨rfl, h⟩
  · rw [e]; exact ⟨h1.2.2.2.2.2.2.2.2.1, h1.2.2.2.1⟩

theorem retryLoop_eats {α : Type} {f : JFn α} (he : Eats f) (eager : Bool) :
    ∀ (fuel : Nat) (s s' : RJ) (v : α), s.b.nBytes ≤ s.b.buf.length → retryLoop f eager fuel s = (s', .ok v) →
      s.b.nShifted + 1 ≤ s'.currentIndex := by
  intro fuel
  induction fuel with
  | zero => intro s s' v _ h; simp [retryLoop] at h
  | succ fuel ih =>
    intro s s' v hok h
    simp only [retryLoop, call] at h
    have hrm := readMore_nShifted s.b hok
    rcases hfv : f s.jdata with ⟨n, r⟩
    rw [hfv] at h
    cases r with
    | error e =>
      simp only at h
      by_cases hcr : (!canRetry e.type) = true
      · rw [if_pos hcr] at h; simp at h
      · rw [if_neg hcr] at h
        rcases hm : s.b.readMore with ⟨b2, m | er | _ | _⟩
        · rw [hm] at h hrm
          simp only at h
          by_cases h0 : m = 0
          · rw [if_pos h0] at h; simp at h
          · rw [if_neg h0] at h
            have := ih _ _ _ hrm.2 h
            rw [← hrm.1]; exact this
        all_goals rw [hm] at h; simp at h
    | ok w =>
      have h1 := he _ _ _ hfv
      simp only at h
      by_cases hro : (({ s with jidx := s.jidx + n } : RJ).reallyOk eager) = true
      · rw [if_pos hro] at h
        simp only [Prod.mk.injEq] at h
        rw [← h.1]
        simp only [currentIndex]; omega
      · rw [if_neg hro] at h
        rcases hm : s.b.readMore with ⟨b2, m | er | _ | _⟩
        · rw [hm] at h hrm
          simp only at h
          by_cases h0 : m = 0
          · rw [if_pos h0] at h
            simp only [Prod.mk.injEq] at h
            rw [← h.1, ← hrm.1]
            simp only [currentIndex]; omega
          · rw [if_neg h0] at h
            have := ih _ _ _ hrm.2 h
            rw [← hrm.1]; exact this
        all_goals rw [hm] at h; simp at h

/-- A successful call consumes something. -/
theorem loopUntilSuccess_eats {α : Type} {f : JFn α} {tok : Option Byte} {eager : Bool} (hs : JSound f tok) (he : Eats f)
    {s s' : RJ} {fuel : Nat} {v : α} (h : s.Sync) (hl : 2 ≤ s.b.buf.length) (hf : enoughFuel s fuel)
    (hr : s.loopUntilSuccess fuel f tok eager = (s', .ok v)) : ∃ n, 1 ≤ n ∧ s.Moved s' n := by
  unfold enoughFuel at hf
  obtain ⟨s1, r1, e1, h1⟩ := loopUntilSuccess_sound (eager := eager) hs s fuel h (by omega) (by intro _; omega) (by omega)
  rw [hr] at e1
  simp only [Prod.mk.injEq] at e1
  obtain ⟨rfl, rfl⟩ := e1
  rcases h1 with ⟨w, n, hw, hm⟩ | ⟨er, hw, _⟩
  · refine ⟨n, ?_, hm⟩
    have hidx := hm.index
    suffices s.currentIndex + 1 ≤ s'.currentIndex by omega
    have hretry : ∀ j, (match ({ s with jidx := j } : RJ).skipSpacesFeeding fuel s.jidx tok with
        | (s2, .ok ()) => retryLoop f eager fuel s2
        | (s2, .err e) => (s2, .err e)
        | (s2, .panic) => (s2, .panic)
        | (s2, .diverge) => (s2, .diverge)) = (s', .ok v) → s.currentIndex + 1 ≤ s'.currentIndex := by
      intro j hj
      rcases skipSpacesFeeding_spec s { s with jidx := j } tok fuel h rfl rfl (by omega) (by intro _; omega) (by omega) with
        ⟨s2, e, hfed, hjl, hpos⟩ | ⟨s2, kd, x, e, hcl⟩
      · rw [e] at hj
        have := retryLoop_eats he eager fuel s2 s' v hfed.ok hj
        have h2 := hfed.idx
        have h3 := norm_length_le tok s.rest
        omega
      · rw [e] at hj; simp at hj
    simp only [loopUntilSuccess, call] at hr
    rcases hfv : f s.jdata with ⟨n, r⟩
    rw [hfv] at hr
    cases r with
    | error e => exact hretry _ hr
    | ok w =>
      simp only at hr
      by_cases hro : (({ s with jidx := s.jidx + n } : RJ).reallyOk eager) = true
      · rw [if_pos hro] at hr
        have := he _ _ _ hfv
        simp only [Prod.mk.injEq] at hr
        rw [← hr.1]
        simp only [currentIndex]; omega
      · rw [if_neg hro] at hr
        exact hretry _ hr
  · simp at hw

/-- A failed call leaves the index inside of what it was given. -/
def _root_.Verif.RJiter.Within {α : Type} (f : JFn α) : Prop := ∀ d n e, f d = (n, .error e) → n ≤ d.length

theorem retryLoop_errs {α : Type} {f : JFn α} {eager : Bool} (hs : JSound f none) (hw : Within f) (s0 : RJ) :
    ∀ (fuel : Nat) (s : RJ), Fed none s0 s.b → s.jlen = s.b.nBytes → s.jidx ≤ s.b.nBytes →
      ∀ s' er, retryLoop f eager fuel s = (s', .err er) → ∃ n, s0.Moved s' n := by
  intro fuel
  induction fuel with
  | zero => intro s _ _ _ s' er h; simp [retryLoop] at h
  | succ fuel ih =>
    intro s hfed hl hj s' er h
    have hjl : s.jdata.length = s.b.nBytes - s.jidx := by
      have := hfed.ok
      simp [jdata, hl]; omega
    have hmv : ∀ (b : Buffer) (k : Nat), Fed none s0 b → s.b.nBytes = b.nBytes → k ≤ s.jdata.length →
        ∃ n, s0.Moved { s with b := b, jidx := s.jidx + k } n := by
      intro b k hb hn hk
      exact ⟨_, Moved.ofFed (tok := none) (s' := { s with b := b, jidx := s.jidx + k }) hb (by simp only; omega)
        (by simp only; omega) (.inr (by simp))⟩
    have hrm := hfed.readMore
    have hrd : (∃ b n, s.b.readMore = (b, .ok n) ∧ (n = 0 → b = s.b)) ∨ ∃ b e, s.b.readMore = (b, .err e) ∧ b.nBytes = s.b.nBytes := by
      rcases s.b.readMore_cases hfed.ok with ⟨_, e⟩ | ⟨_, e⟩ | ⟨q, r', hlt, hr, e⟩ | ⟨b', bs, e, h1⟩
      · exact .inl ⟨_, _, e, fun _ => rfl⟩
      · exact .inl ⟨_, _, e, fun _ => rfl⟩
      · exact .inr ⟨_, _, e, rfl⟩
      · refine .inl ⟨_, _, e, fun h0 => ?_⟩
        obtain ⟨h2, _⟩ := h1
        omega
    simp only [retryLoop, call] at h
    rcases hfv : f s.jdata with ⟨n, r⟩
    rw [hfv] at h
    cases r with
    | error e =>
      have hn := hw _ _ _ hfv
      simp only at h
      by_cases hcr : (!canRetry e.type) = true
      · rw [if_pos hcr] at h
        simp only [Prod.mk.injEq] at h
        rw [← h.1]
        exact hmv s.b n hfed rfl hn
      · rw [if_neg hcr] at h
        rcases hrd with ⟨b, m, e1, h0⟩ | ⟨b, er', e1, h0⟩
        · rw [e1] at h hrm
          simp only at h hrm
          by_cases hm : m = 0
          · rw [if_pos hm] at h
            simp only [Prod.mk.injEq] at h
            rw [← h.1]
            exact hmv b n hrm (by rw [h0 hm]) hn
          · rw [if_neg hm] at h
            exact ih _ (by exact hrm) rfl (by simp [RJ.refresh]) _ _ h
        · rw [e1] at h hrm
          simp only [Prod.mk.injEq] at h hrm
          rw [← h.1]
          exact hmv b n hrm h0.symm hn
    | ok w =>
      have hn := (hs.bound _ _ _ hfv).1
      simp only at h
      by_cases hro : (({ s with jidx := s.jidx + n } : RJ).reallyOk eager) = true
      · rw [if_pos hro] at h; simp at h
      · rw [if_neg hro] at h
        rcases hrd with ⟨b, m, e1, h0⟩ | ⟨b, er', e1, h0⟩
        · rw [e1] at h hrm
          simp only at h hrm
          by_cases hm : m = 0
          · rw [if_pos hm] at h; simp at h
          · rw [if_neg hm] at h
            exact ih _ (by exact hrm) rfl (by simp [RJ.refresh]) _ _ h
        · rw [e1] at h hrm
          simp only [Prod.mk.injEq] at h hrm
          rw [← h.1]
          exact hmv b n hrm h0.symm hn

/-- Where the parser is after an error: unless the reader failed, it is usable. -/
theorem loopUntilSuccess_errs {α : Type} {f : JFn α} {eager : Bool} (hs : JSound f none) (hw : Within f) {s s' : RJ} {fuel : Nat} {er : Err}
    (h : s.Sync) (hl : 2 ≤ s.b.buf.length) (hf : enoughFuel s fuel) (hr : s.loopUntilSuccess fuel f none eager = (s', .err er)) :
    (∃ n, s.Moved s' n) ∨ (¬ s.b.reader.Clean ∧ ∃ kd x, er = ⟨.io kd, x⟩) := by
  unfold enoughFuel at hf
  have hjl : s.jdata.length = s.b.nBytes - s.jidx := by
    have := h.ok
    simp [jdata, h.len]; omega
  have hidx := h.idx
  have hretry : ∀ j, j ≤ s.b.nBytes → (match ({ s with jidx := j } : RJ).skipSpacesFeeding fuel s.jidx none with
      | (s2, .ok ()) => retryLoop f eager fuel s2
      | (s2, .err e) => (s2, .err e)
      | (s2, .panic) => (s2, .panic)
      | (s2, .diverge) => (s2, .diverge)) = (s', .err er) →
      (∃ n, s.Moved s' n) ∨ (¬ s.b.reader.Clean ∧ ∃ kd x, er = ⟨.io kd, x⟩) := by
    intro j hj0 hj
    rcases skipSpacesFeeding_spec s { s with jidx := j } none fuel h rfl rfl (by omega) (by intro _; omega) (by omega) with
      ⟨s2, e, hfed, hjl2, hpos⟩ | ⟨s2, kd, x, e, hcl⟩
    · rw [e] at hj
      refine .inl (retryLoop_errs hs hw s fuel s2 hfed hjl2 ?_ s' er hj)
      rcases hpos with h0 | ⟨g1, g2, g3, g4⟩
      · omega
      · have h1 := congrArg List.length g4
        rw [valid_length hfed.ok, valid_length h.ok] at h1
        simp only at g1
        omega
    · rw [e] at hj
      simp only [Prod.mk.injEq, Res.err.injEq] at hj
      exact .inr ⟨hcl, kd, x, hj.2.symm⟩
  simp only [loopUntilSuccess, call] at hr
  rcases hfv : f s.jdata with ⟨n, r⟩
  rw [hfv] at hr
  cases r with
  | error e =>
    have := hw _ _ _ hfv
    exact hretry _ (by omega) hr
  | ok w =>
    have := (hs.bound _ _ _ hfv).1
    simp only at hr
    by_cases hro : (({ s with jidx := s.jidx + n } : RJ).reallyOk eager) = true
    · rw [if_pos hro] at hr; simp at hr
    · rw [if_neg hro] at hr
      exact hretry _ (by omega) hr

/-- What a call may do from a state between two calls: return; a success consumes at least `k` bytes. -/
def Runs {α : Type} (k : Nat) (s : RJ) (x : RJ × Res α) : Prop :=
  match x with
  | (s', .ok _) => ∃ n, k ≤ n ∧ s.Moved s' n
  | (_, .err _) => True
  | (_, .panic) => False
  | (_, .diverge) => False

theorem loopUntilSuccess_runs {α : Type} {f : JFn α} {tok : Option Byte} {eager : Bool} (hs : JSound f tok) (he : Eats f)
    {s : RJ} {fuel : Nat} (h : s.Sync) (hl : 2 ≤ s.b.buf.length) (hf : enoughFuel s fuel) :
    s.Runs 1 (s.loopUntilSuccess fuel f tok eager) := by
  have hf' := hf
  unfold enoughFuel at hf'
  obtain ⟨s1, r1, e1, h1⟩ := loopUntilSuccess_sound (eager := eager) hs s fuel h (by omega) (by intro _; omega) (by omega)
  rw [e1]
  rcases h1 with ⟨w, n, rfl, hm⟩ | ⟨er, rfl, _⟩
  · exact loopUntilSuccess_eats hs he h hl hf e1
  · trivial

variable {s : RJ} {fuel : Nat}

theorem peek_runs (h : s.Sync) (hl : 2 ≤ s.b.buf.length) (hf : enoughFuel s fuel) : s.Runs 0 (s.peek fuel) := by
  unfold enoughFuel at hf
  obtain ⟨s1, r1, e1, h1⟩ := loopUntilSuccess_sound (eager := false) peek_jsound s fuel h (by omega) (by intro _; omega) (by omega)
  rw [RJ.peek, e1]
  rcases h1 with ⟨w, n, rfl, hm⟩ | ⟨er, rfl, _⟩
  · exact ⟨n, Nat.zero_le _, hm⟩
  · trivial

theorem peek_within : Within Jiter.peek := by
  intro d n e he
  have := wsLen_le d
  simp only [Jiter.peek] at he
  split at he
  · simp only [jerr, Prod.mk.injEq] at he; omega
  · simp at he

theorem peek_errs {s' : RJ} {er : Err} (h : s.Sync) (hl : 2 ≤ s.b.buf.length) (hf : enoughFuel s fuel)
    (hr : s.peek fuel = (s', .err er)) : (∃ n, s.Moved s' n) ∨ (¬ s.b.reader.Clean ∧ ∃ kd x, er = ⟨.io kd, x⟩) :=
  loopUntilSuccess_errs peek_jsound peek_within h hl hf hr

theorem knownArray_runs (h : s.Sync) (hl : 2 ≤ s.b.buf.length) (hf : enoughFuel s fuel) : s.Runs 1 (s.knownArray fuel) :=
  loopUntilSuccess_runs knownArray_jsound knownArray_eats h hl hf
theorem arrayStep_runs (h : s.Sync) (hl : 2 ≤ s.b.buf.length) (hf : enoughFuel s fuel) : s.Runs 1 (s.arrayStep fuel) :=
  loopUntilSuccess_runs arrayStep_jsound arrayStep_eats h hl hf
theorem nextObjectBytes_runs (h : s.Sync) (hl : 2 ≤ s.b.buf.length) (hf : enoughFuel s fuel) : s.Runs 1 (s.nextObjectBytes fuel) :=
  loopUntilSuccess_runs (nextObject_jsound knownBytes_prefix) (nextObject_eats _) h hl hf
theorem nextKeyBytes_runs (h : s.Sync) (hl : 2 ≤ s.b.buf.length) (hf : enoughFuel s fuel) : s.Runs 1 (s.nextKeyBytes fuel) :=
  loopUntilSuccess_runs (nextKey_jsound knownBytes_prefix) (nextKey_eats _) h hl hf
theorem knownNull_runs (h : s.Sync) (hl : 2 ≤ s.b.buf.length) (hf : enoughFuel s fuel) : s.Runs 1 (s.knownNull fuel) :=
  loopUntilSuccess_runs (PrefixFn.jsound knownNull_prefix) (PrefixFn.eats knownNull_prefix) h hl hf
theorem knownBool_runs (pk : Byte) (h : s.Sync) (hl : 2 ≤ s.b.buf.length) (hf : enoughFuel s fuel) : s.Runs 1 (s.knownBool fuel pk) :=
  loopUntilSuccess_runs (PrefixFn.jsound (knownBool_prefix pk)) (PrefixFn.eats (knownBool_prefix pk)) h hl hf
theorem nextNumberBytes_runs (h : s.Sync) (hl : 2 ≤ s.b.buf.length) (hf : enoughFuel s fuel) : s.Runs 1 (s.nextNumberBytes fuel) :=
  loopUntilSuccess_runs nextNumber_jsound nextNumber_eats h hl hf

/-- The functions for long strings need a buffer of eight bytes. -/
theorem handleLong_runs (k : Kind) (w : Writer) (h : s.Sync) (hl : 8 ≤ s.b.buf.length) (hf : enoughFuel s fuel) :
    s.Runs 1 ((s.handleLong k fuel w).1.1, (s.handleLong k fuel w).2) := by
  unfold enoughFuel at hf
  rcases handleLong_sound k s fuel s w (.inl ⟨rfl, h⟩) (by omega) with ⟨s', w', n, e, hm⟩ | ⟨s', w', er, e⟩ | ⟨s', w', e, hb⟩
  · rw [e]
    obtain ⟨q, body, t, v, h1, h2, h3, h4⟩ := handleLong_ok0 (k := k) h e
    exact ⟨_, by omega, h2⟩
  · rw [e]; trivial
  · omega

theorem finish_returns (h : s.Sync) (hl : 2 ≤ s.b.buf.length) (hf : enoughFuel s fuel) :
    (s.finish fuel).2 ≠ .panic ∧ (s.finish fuel).2 ≠ .diverge := by
  unfold enoughFuel at hf
  have : 2 * s.b.reader.size + (if s.b.nBytes = s.b.buf.length then 1 else 0) < fuel := by split <;> omega
  simp only [RJ.finish]
  rcases finishLoop_spec fuel s h (by omega) this with ⟨s', e, _, hm⟩ | ⟨s', x, ws, c, t, e, _, _, _, hm⟩ |
    ⟨s', kd, x, e, _⟩ <;> rw [e] <;> simp

/-- After a successful `finish` the reader is at its end. -/
theorem finishLoop_end : ∀ (fuel : Nat) (s s' : RJ), s.Sync → s.finishLoop fuel = (s', .ok ()) → s'.b.reader = [] := by
  intro fuel
  induction fuel with
  | zero => intro s s' _ h; simp [finishLoop] at h
  | succ fuel ih =>
    intro s s' h hr
    have hjl := jdata_length h
    have hidx := h.idx
    simp only [finishLoop, call] at hr
    rcases ws_split s.jdata with hw | ⟨ws, c, t, hd, hw, hc⟩
    · rw [finish_ws hw] at hr
      have hend : s.jidx + s.jdata.length = s.b.nBytes := by omega
      simp only [hend] at hr
      have hcont : ∀ b2 : Buffer, b2.nBytes ≤ b2.buf.length → (({ s with b := b2.shift 0 s.b.nBytes, jidx := s.b.nBytes } : RJ).refresh).Sync := by
        intro b2 h2
        exact ⟨(b2.shift_spec h2 (Nat.zero_le _)).2.2.2.2.1, rfl, Nat.zero_le _⟩
      by_cases hfull : s.b.nBytes < s.b.buf.length
      · rw [if_pos hfull] at hr
        rcases s.b.readMore_cases h.ok with ⟨_, e⟩ | ⟨hno, e⟩ | ⟨q, r', hlt, hr', e⟩ |
          ⟨b', bs, e, hb, hv, hn, ho, hl', hp, hs', hcl, _⟩
        · omega
        · rw [e] at hr
          simp only [if_true, Prod.mk.injEq] at hr
          rw [← hr.1]; exact hno
        · rw [e] at hr; simp at hr
        · rw [e] at hr
          simp only [if_neg (show ¬ bs.length = 0 by omega)] at hr
          exact ih _ _ (hcont _ ho) hr
      · rw [if_neg hfull] at hr
        simp only [if_neg (show ¬ (1 = 0) by omega)] at hr
        exact ih _ _ (hcont _ h.ok) hr
    · rw [hd, finish_tok hw hc] at hr
      exact absurd (congrArg Prod.snd hr) (by intro h; cases h)

end RJ

end Verif.RJiter
