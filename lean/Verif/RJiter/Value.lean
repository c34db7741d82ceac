import Verif.RJiter.Sound
import Verif.RJiter.StrSound
import Verif.RJiter.NumSpec

/-!
# What an `Ok` of a wrapper tells about the stream
-/

namespace Verif.RJiter

open Buffer RJ Jiter

/-- `f` accepted the first `k` bytes of `r`. A function that may stop too early either left a byte, or had everything that
was there or that fits in the buffer. -/
structure Accepted {α : Type} (f : JFn α) (eager : Bool) (room : Nat) (r : Bytes) (k n : Nat) (v : α) : Prop where
  le : k ≤ r.length
  ok : f (r.take k) = (n, .ok v)
  margin : eager = true → n < k ∨ k = r.length ∨ k = room

theorem RJ.retryLoop_value {α : Type} {f : JFn α} {tok : Option Byte} {eager : Bool} (hs : JSound f tok) (s0 : RJ) :
    ∀ (fuel : Nat) (s : RJ), Fed tok s0 s.b → s.jlen = s.b.nBytes →
      (s.jidx = 0 ∨ ∀ n v, f s.jdata ≠ (n, .ok v)) → ∀ s' v, retryLoop f eager fuel s = (s', .ok v) →
      ∃ k n, Accepted f eager s0.b.buf.length (norm tok s0.rest) k n v ∧
        s0.Moved s' (s0.rest.length - (norm tok s0.rest).length + n) := by
  intro fuel
  induction fuel with
  | zero => intro s _ _ _ s' v h; simp [retryLoop] at h
  | succ fuel ih =>
    intro s hfed hl hpos s' v h
    have hread : ∀ (j : Nat) b2 n2, s.b.readMore = (b2, .ok n2) →
        (n2 = 0 ∧ b2 = s.b ∧ (s.b.nBytes = (norm tok s0.rest).length ∨ s.b.nBytes = s0.b.buf.length)) ∨
        (n2 ≠ 0 ∧ Fed tok s0 (({ s with b := b2, jidx := j } : RJ).refresh).b) := by
      intro j b2 n2 e0
      have hfr := hfed.readMore
      have hrl := congrArg List.length hfed.rest
      rw [rest_length _ hfed.ok] at hrl
      have hok := hfed.ok
      have hlen := hfed.len
      rcases s.b.readMore_cases hfed.ok with ⟨hno, e⟩ | ⟨hno, e⟩ | ⟨q, r', hlt, hr, e⟩ |
          ⟨b', bs, e, hb, hv, hn, ho, hl', hp, hs', hcl, _⟩
      · rw [e] at e0
        simp only [Prod.mk.injEq, Res.ok.injEq] at e0
        obtain ⟨rfl, rfl⟩ := e0
        exact .inl ⟨rfl, rfl, .inr (by omega)⟩
      · rw [e] at e0
        simp only [Prod.mk.injEq, Res.ok.injEq] at e0
        obtain ⟨rfl, rfl⟩ := e0
        rw [hno] at hrl
        exact .inl ⟨rfl, rfl, .inl (by simp [Reader.pending] at hrl; omega)⟩
      · rw [e] at e0; simp at e0
      · rw [e] at e0 hfr
        simp only [Prod.mk.injEq, Res.ok.injEq] at e0
        obtain ⟨rfl, rfl⟩ := e0
        exact .inr ⟨by omega, hfr⟩
    have hacc : ∀ n w, f s.jdata = (n, .ok w) → (eager = true → s.jidx + n < s.b.nBytes ∨
          s.b.nBytes = (norm tok s0.rest).length ∨ s.b.nBytes = s0.b.buf.length) →
        ∃ k n', Accepted f eager s0.b.buf.length (norm tok s0.rest) k n' w ∧
          s0.Moved { s with jidx := s.jidx + n } (s0.rest.length - (norm tok s0.rest).length + n') := by
      intro n w hfv hmar
      have h0 : s.jidx = 0 := by
        rcases hpos with h0 | h0
        · exact h0
        · exact absurd hfv (h0 n w)
      have hb := hs.bound _ _ _ hfv
      have hjd : s.jdata = s.b.valid := by rw [jdata, hl, h0]; simp [Buffer.valid]
      have hjl : s.jdata.length = s.b.nBytes := by rw [hjd, valid_length hfed.ok]
      have htk : s.b.valid = (norm tok s0.rest).take s.b.nBytes := by rw [← hfed.rest, valid_take_rest hfed.ok]
      have hrl := congrArg List.length hfed.rest
      rw [rest_length _ hfed.ok] at hrl
      refine ⟨s.b.nBytes, n, ⟨by omega, by rw [← htk, ← hjd]; exact hfv, ?_⟩, ?_⟩
      · intro he; have := hmar he; omega
      · have hm := Moved.ofFed (tok := tok) (s' := { s with jidx := s.jidx + n }) hfed hl (by simp only; omega) (.inr ?_)
        · simpa only [h0, Nat.zero_add] using hm
        · intro t htok hhead
          have hhd : s.b.valid.head? = some t := by
            rw [← hfed.rest, Buffer.rest, List.drop_zero] at hhead
            cases hv : s.b.valid with
            | nil => rw [hjd] at hb; exact absurd hv hb.2
            | cons c v => rw [hv] at hhead; simpa using hhead
          obtain ⟨d, hd⟩ : ∃ d, s.jdata = t :: d := by
            rw [hjd]
            cases hv : s.b.valid with
            | nil => rw [hv] at hhd; simp at hhd
            | cons c v => rw [hv] at hhd; simp at hhd; exact ⟨v, by rw [hhd]⟩
          rw [hd] at hfv
          have := hs.token t htok d n w hfv
          simp only; omega
    simp only [retryLoop, call] at h
    rcases hfv : f s.jdata with ⟨n, r⟩
    rw [hfv] at h
    cases r with
    | error e =>
      simp only at h
      by_cases hcr : (!canRetry e.type) = true
      · rw [if_pos hcr] at h; simp at h
      · rw [if_neg hcr] at h
        rcases hrm : s.b.readMore with ⟨b2, r2⟩
        rw [hrm] at h
        cases r2 with
        | ok n2 =>
          simp only at h
          rcases hread (s.jidx + n) b2 n2 hrm with ⟨h0, _⟩ | ⟨h0, hf2⟩
          · rw [if_pos h0] at h; simp at h
          · rw [if_neg h0] at h
            exact ih _ hf2 rfl (.inl rfl) s' v h
        | err _ => simp at h
        | panic => simp at h
        | diverge => simp at h
    | ok w =>
      simp only at h
      by_cases hro : (({ s with jidx := s.jidx + n } : RJ).reallyOk eager) = true
      · rw [if_pos hro] at h
        simp only [Prod.mk.injEq, Res.ok.injEq] at h
        obtain ⟨rfl, rfl⟩ := h
        refine hacc n w hfv ?_
        intro he
        simp only [reallyOk, he, Bool.not_true, Bool.false_or, decide_eq_true_eq] at hro
        exact .inl hro
      · rw [if_neg hro] at h
        rcases hrm : s.b.readMore with ⟨b2, r2⟩
        rw [hrm] at h
        cases r2 with
        | ok n2 =>
          simp only at h
          rcases hread (s.jidx + n) b2 n2 hrm with ⟨h0, rfl, hend⟩ | ⟨h0, hf2⟩
          · rw [if_pos h0] at h
            simp only [Prod.mk.injEq, Res.ok.injEq] at h
            obtain ⟨rfl, rfl⟩ := h
            exact hacc n w hfv (fun _ => .inr hend)
          · rw [if_neg h0] at h
            exact ih _ hf2 rfl (.inl rfl) s' v h
        | err _ => simp at h
        | panic => simp at h
        | diverge => simp at h

/-- An `Ok` means that `f` accepted a prefix of the stream, perhaps without leading spaces. `hre`: what a failed first
attempt left cannot be accepted on its own. -/
theorem RJ.loopUntilSuccess_value {α : Type} {f : JFn α} {tok : Option Byte} {eager : Bool} (hs : JSound f tok)
    (s : RJ) (fuel : Nat) (h : s.Sync) (hl : 0 < s.b.buf.length) (hl2 : tok ≠ none → 1 < s.b.buf.length)
    (hf : s.b.reader.size + 2 ≤ fuel)
    (hre : s.jidx = 0 → norm tok s.rest = s.rest → ∀ n e, f s.jdata = (n, .error e) → n = 0 ∨ ∀ m w, f (s.jdata.drop n) ≠ (m, .ok w))
    {s' : RJ} {v : α} (hok : s.loopUntilSuccess fuel f tok eager = (s', .ok v)) :
    (∃ k n, Accepted f eager s.b.buf.length s.rest k n v ∧ (eager = true → n < k) ∧ s.Moved s' n) ∨
    (∃ k n, Accepted f eager s.b.buf.length (norm tok s.rest) k n v ∧
        s.Moved s' (s.rest.length - (norm tok s.rest).length + n)) := by
  have hretry : ∀ j, (s.jidx = 0 → norm tok s.rest = s.rest → j = 0 ∨ ∀ m w, f (s.jdata.drop j) ≠ (m, .ok w)) →
      (match ({ s with jidx := s.jidx + j } : RJ).skipSpacesFeeding fuel s.jidx tok with
      | (s2, .ok ()) => retryLoop f eager fuel s2
      | (s2, .err e) => (s2, .err e)
      | (s2, .panic) => (s2, .panic)
      | (s2, .diverge) => (s2, .diverge)) = (s', .ok v) →
      ∃ k n, Accepted f eager s.b.buf.length (norm tok s.rest) k n v ∧
        s.Moved s' (s.rest.length - (norm tok s.rest).length + n) := by
    intro j hj hx
    rcases skipSpacesFeeding_spec s { s with jidx := s.jidx + j } tok fuel h rfl rfl hl hl2 hf with
      ⟨s2, e, hfed, hjl, hpos⟩ | ⟨s2, kd, x, e, hcl⟩
    · rw [e] at hx
      refine retryLoop_value hs s fuel s2 hfed hjl ?_ s' v hx
      rcases hpos with h0 | ⟨h1, h2, h3, h4⟩
      · exact .inl h0
      · simp only [h2, Nat.zero_add] at h1
        rcases hj h2 h3 with h0 | h0
        · exact .inl (by omega)
        · right
          have : s2.jdata = s.jdata.drop j := by
            rw [jdata_eq h, h2, List.drop_zero, ← h4, jdata, hjl, h1]; rfl
          rw [this]; exact h0
    · rw [e] at hx; simp at hx
  simp only [loopUntilSuccess, call] at hok
  rcases hfv : f s.jdata with ⟨n, r⟩
  rw [hfv] at hok
  cases r with
  | error e => exact .inr (hretry n (fun h1 h2 => hre h1 h2 n e hfv) hok)
  | ok w =>
    simp only at hok
    have hb := hs.bound _ _ _ hfv
    have hjl := jdata_length h
    by_cases hro : (({ s with jidx := s.jidx + n } : RJ).reallyOk eager) = true
    · rw [if_pos hro] at hok
      simp only [Prod.mk.injEq, Res.ok.injEq] at hok
      obtain ⟨rfl, rfl⟩ := hok
      left
      have hi := h.idx
      have hlt : eager = true → n < s.jdata.length := by
        intro he
        simp only [reallyOk, he, Bool.not_true, Bool.false_or, decide_eq_true_eq] at hro
        omega
      exact ⟨s.jdata.length, n, ⟨by rw [rest_eq h]; simp, by rw [rest_eq h, List.take_left]; exact hfv, fun he => .inl (hlt he)⟩,
        hlt, Moved.inside h (by omega)⟩
    · rw [if_neg hro] at hok
      refine .inr (hretry n ?_ hok)
      intro h1 h2
      right
      intro m w' hc
      have he : eager = true := by
        cases he : eager with
        | true => rfl
        | false => rw [he] at hro; simp [reallyOk] at hro
      simp only [reallyOk, he, Bool.not_true, Bool.false_or, decide_eq_true_eq] at hro
      exact (hs.bound _ _ _ hc).2 (List.drop_eq_nil_of_le (by omega))

/-! ### Functions that stay where they are when they fail -/

/-- A failing call does not move the jiter. -/
def Still {α : Type} (f : JFn α) : Prop := ∀ d n e, f d = (n, .error e) → n = 0

theorem knownBytes_still : Still knownBytes := by
  intro d n e h
  simp only [Jiter.knownBytes] at h
  split at h
  · simp only [jerr, Prod.mk.injEq] at h; exact h.1.symm
  · simp at h

theorem knownStr_still : Still knownStr := by
  intro d n e h
  simp only [Jiter.knownStr] at h
  split at h
  · simp only [jerr, Prod.mk.injEq] at h; exact h.1.symm
  · simp at h

theorem consumeIdent_still {α : Type} (rest : Bytes) (v : α) : Still (consumeIdent rest v) := by
  intro d n e h
  simp only [consumeIdent] at h
  split at h
  · simp at h
  · simp only [jerr, Prod.mk.injEq] at h; exact h.1.symm

theorem knownBool_still (pk : Byte) : Still (knownBool pk) := by
  intro d n e h
  unfold Jiter.knownBool at h
  split at h
  · exact consumeIdent_still _ _ _ _ _ h
  · split at h
    · exact consumeIdent_still _ _ _ _ _ h
    · simp only [Prod.mk.injEq] at h; exact h.1.symm

theorem numberTok_still : Still numberTok := by
  intro d n e h
  simp only [numberTok] at h
  split at h
  · simp only [jerr, Prod.mk.injEq] at h; exact h.1.symm
  · simp at h

/-- A call that fails moves over whitespace only. -/
def StillWs {α : Type} (f : JFn α) : Prop := ∀ c t n e, isWs c = false → f (c :: t) = (n, .error e) → n = 0

theorem Next.stillWs {α : Type} {f : JFn α} {sel : Byte → Option (JFn α)} (h : Next f sel)
    (hs : ∀ c g, sel c = some g → Still g) : StillWs f := by
  intro c t n e hc he
  have hp : peek (c :: t) = (0, .ok c) := by simpa using peek_tok Ws.nil hc t
  cases hsel : sel c with
  | none =>
    rw [h.bad _ _ _ hp hsel] at he
    simp only [Prod.mk.injEq] at he; exact he.1.symm
  | some g =>
    rw [h.good _ _ _ _ hp hsel, List.drop_zero] at he
    rcases hg : g (c :: t) with ⟨m, r⟩
    rw [hg] at he
    cases r with
    | ok v => simp at he
    | error e' =>
      simp only [Prod.mk.injEq, Nat.zero_add] at he
      rw [← he.1]; exact hs c g hsel _ _ _ hg

theorem peek_stillWs : StillWs peek := by
  intro c t n e hc he
  have hp : peek (c :: t) = (0, .ok c) := by simpa using peek_tok Ws.nil hc t
  rw [hp] at he; simp at he

/-- Leading whitespace of the stream as the buffer sees it. -/
theorem norm_none_split (r : Bytes) : ∃ ws, r = ws ++ norm none r ∧ (∀ c ∈ ws, isAsciiWs c = true) ∧
    ∀ c, (norm none r).head? = some c → isAsciiWs c = false := by
  refine ⟨r.takeWhile isAsciiWs, (List.takeWhile_append_dropWhile ..).symm, ?_, ?_⟩
  · intro c hc
    exact List.all_eq_true.mp (List.all_takeWhile ..) c hc
  · intro c hc
    have h := List.head?_dropWhile_not isAsciiWs r
    rw [show r.dropWhile isAsciiWs = norm none r from rfl, hc] at h
    simpa using h

theorem isWs_of_not_ascii {c : Byte} (h : isAsciiWs c = false) : isWs c = false := by
  cases hw : isWs c with
  | false => rfl
  | true => rw [isAscii_of_isWs hw] at h; exact absurd h (by decide)

/-- The calls without a transparent token, if a failure at the start of the buffer does not move. -/
theorem RJ.plain_value_of {α : Type} {f : JFn α} {eager : Bool} (hs : JSound f none)
    (s : RJ) (hst : s.jidx = 0 → ∀ c t n e, s.jdata = c :: t → isWs c = false → f (c :: t) = (n, .error e) → n = 0) (fuel : Nat) (h : s.Sync) (hl : 0 < s.b.buf.length) (hf : s.b.reader.size + 2 ≤ fuel)
    {s' : RJ} {v : α} (hok : s.loopUntilSuccess fuel f none eager = (s', .ok v)) :
    ∃ ws r k n, s.rest = ws ++ r ∧ (∀ c ∈ ws, isAsciiWs c = true) ∧ ((eager = true → n < k) ∧ ws = [] ∨ r = norm none s.rest) ∧
      Accepted f eager s.b.buf.length r k n v ∧ s.Moved s' (ws.length + n) := by
  obtain ⟨ws, h1, h2, h3⟩ := norm_none_split s.rest
  have hlen := congrArg List.length h1
  rw [List.length_append] at hlen
  have hre : s.jidx = 0 → norm none s.rest = s.rest → ∀ n e, f s.jdata = (n, .error e) →
      n = 0 ∨ ∀ m w, f (s.jdata.drop n) ≠ (m, .ok w) := by
    intro h0 hn n e he
    have hr := rest_eq h
    cases hd : s.jdata with
    | nil => exact .inr (fun m w hx => (hs.bound _ _ _ hx).2 (by simp))
    | cons c t =>
      left
      rw [hd] at he hr
      rw [hr] at hn
      have hc := h3 c (by rw [hr, hn]; rfl)
      exact hst h0 c t n e hd (isWs_of_not_ascii hc) he
  rcases loopUntilSuccess_value hs s fuel h hl (by simp) hf hre hok with ⟨k, n, ha, hlt, hm⟩ | ⟨k, n, ha, hm⟩
  · exact ⟨[], s.rest, k, n, rfl, by simp, .inl ⟨hlt, rfl⟩, ha, by simpa using hm⟩
  · refine ⟨ws, norm none s.rest, k, n, h1, h2, .inr rfl, ha, ?_⟩
    rwa [show s.rest.length - (norm none s.rest).length = ws.length by omega] at hm

/-- The calls without a transparent token. -/
theorem RJ.plain_value {α : Type} {f : JFn α} {eager : Bool} (hs : JSound f none) (hst : StillWs f)
    (s : RJ) (fuel : Nat) (h : s.Sync) (hl : 0 < s.b.buf.length) (hf : s.b.reader.size + 2 ≤ fuel)
    {s' : RJ} {v : α} (hok : s.loopUntilSuccess fuel f none eager = (s', .ok v)) :
    ∃ ws r k n, s.rest = ws ++ r ∧ (∀ c ∈ ws, isAsciiWs c = true) ∧ ((eager = true → n < k) ∧ ws = [] ∨ r = norm none s.rest) ∧
      Accepted f eager s.b.buf.length r k n v ∧ s.Moved s' (ws.length + n) :=
  plain_value_of hs s (fun _ c t n e _ hc he => hst c t n e hc he) fuel h hl hf hok

/-! ### Longer input -/

/-- More input behind an accepted one changes nothing. -/
def Ext {α : Type} (f : JFn α) : Prop := ∀ d t n v, f d = (n, .ok v) → f (d ++ t) = (n, .ok v)

theorem rawString_ext : ∀ (fuel : Nat) (d t : Bytes) (i n : Nat), d.length ≤ fuel → rawString d i = .ok n →
    rawString (d ++ t) i = .ok n := by
  intro fuel
  induction fuel with
  | zero =>
    intro d t i n hl h
    rw [List.length_eq_zero_iff.mp (Nat.le_zero.mp hl)] at h
    simp [rawString] at h
  | succ fuel ih =>
    intro d t i n hl h
    cases d with
    | nil => simp [rawString] at h
    | cons c cs =>
      rw [List.length_cons] at hl
      rw [rawString.eq_def] at h
      rw [List.cons_append, rawString.eq_def]
      simp only at h ⊢
      by_cases h1 : c = 34
      · rw [if_pos h1] at h ⊢; exact h
      · rw [if_neg h1] at h ⊢
        by_cases h2 : c = 92
        · rw [if_pos h2] at h ⊢
          cases cs with
          | nil => simp at h
          | cons e cs' =>
            simp only [List.cons_append] at h ⊢
            rw [List.length_cons] at hl
            by_cases h3 : e = 34 ∨ e = 92 ∨ e = 47 ∨ e = 98 ∨ e = 102 ∨ e = 110 ∨ e = 114 ∨ e = 116
            · rw [if_pos h3] at h ⊢; exact ih _ _ _ _ (by omega) h
            · rw [if_neg h3] at h ⊢
              by_cases h4 : e = 117
              · rw [if_pos h4] at h ⊢
                cases cs' with
                | nil => simp [rawString] at h
                | cons x cs' =>
                  by_cases h5 : (x :: cs').head? = some 34
                  · rw [if_pos h5] at h; cases h
                  · rw [if_neg h5] at h
                    rw [if_neg (by simpa using h5)]
                    exact ih _ _ _ _ (by omega) h
              · rw [if_neg h4] at h; cases h
        · rw [if_neg h2] at h ⊢
          by_cases h3 : c < 32
          · rw [if_pos h3] at h; cases h
          · rw [if_neg h3] at h ⊢
            exact ih _ _ _ _ (by omega) h

theorem knownBytes_ext : Ext Jiter.knownBytes := by
  intro d t n v h
  obtain ⟨t', e1, e2⟩ := knownBytes_ok h
  have hd : (d ++ t).drop 1 = d.drop 1 ++ t := by
    cases d with
    | nil => simp at e1
    | cons c d => rfl
  simp only [Jiter.knownBytes] at h ⊢
  rw [hd]
  cases hr : rawString (d.drop 1) 0 with
  | error e => rw [hr] at h; simp [jerr] at h
  | ok m =>
    rw [hr] at h
    rw [rawString_ext _ _ _ _ _ (Nat.le_refl _) hr]
    simp only [Prod.mk.injEq, Except.ok.injEq] at h ⊢
    refine ⟨h.1, ?_⟩
    have : m = v.length := by omega
    rw [e1, List.append_assoc, this, List.take_left]

theorem knownStr_ext : Ext Jiter.knownStr := by
  intro d t n v h
  obtain ⟨body, t', e1, e2, hd, hu⟩ := knownStr_ok h
  obtain ⟨chars, rfl⟩ := utf8Valid_chars _ v (Nat.le_refl _) hu
  cases d with
  | nil => simp at e1
  | cons c d =>
    simp only [List.drop_succ_cons, List.drop_zero] at e1
    subst e1 e2
    rw [List.cons_append, List.append_assoc]
    exact knownStr_body (hd.chars _ rfl) c (t' ++ t)

theorem matchIdent_ext : ∀ (rest d t : Bytes) (i : Nat), matchIdent rest d i = none → matchIdent rest (d ++ t) i = none := by
  intro rest
  induction rest with
  | nil => intro d t i _; rfl
  | cons r rs ih =>
    intro d t i h
    cases d with
    | nil => simp [matchIdent] at h
    | cons c cs =>
      simp only [List.cons_append, matchIdent] at h ⊢
      by_cases hc : r = c
      · rw [if_pos hc] at h ⊢; exact ih _ _ _ h
      · rw [if_neg hc] at h; simp at h

theorem matchIdent_ok : ∀ (rest d : Bytes) (i : Nat), matchIdent rest d i = none → ∃ t, d = rest ++ t := by
  intro rest
  induction rest with
  | nil => intro d i _; exact ⟨d, rfl⟩
  | cons r rs ih =>
    intro d i h
    cases d with
    | nil => simp [matchIdent] at h
    | cons c cs =>
      simp only [matchIdent] at h
      by_cases hc : r = c
      · rw [if_pos hc] at h
        obtain ⟨t, rfl⟩ := ih _ _ h
        exact ⟨t, by rw [hc]; rfl⟩
      · rw [if_neg hc] at h; simp at h

theorem consumeIdent_ok {α : Type} {rest d : Bytes} {v w : α} {n : Nat} (h : consumeIdent rest v d = (n, .ok w)) :
    w = v ∧ n = 1 + rest.length ∧ ∃ t, d.drop 1 = rest ++ t := by
  simp only [consumeIdent] at h
  cases hm : matchIdent rest (d.drop 1) 1 with
  | some e => rw [hm] at h; simp [jerr] at h
  | none =>
    rw [hm] at h
    simp only [Prod.mk.injEq, Except.ok.injEq] at h
    exact ⟨h.2.symm, h.1.symm, matchIdent_ok _ _ _ hm⟩

theorem consumeIdent_ext {α : Type} (rest : Bytes) (hr : rest ≠ []) (v : α) : Ext (consumeIdent rest v) := by
  intro d t n w h
  obtain ⟨_, _, t', e1⟩ := consumeIdent_ok h
  have hd : (d ++ t).drop 1 = d.drop 1 ++ t := by
    cases d with
    | nil => simp at e1; exact absurd e1.1 hr
    | cons c d => rfl
  simp only [consumeIdent] at h ⊢
  cases hm : matchIdent rest (d.drop 1) 1 with
  | some e => rw [hm] at h; simp [jerr] at h
  | none =>
    rw [hm] at h
    rw [hd, matchIdent_ext _ _ _ _ hm]
    exact h

theorem knownNull_ext : Ext Jiter.knownNull := consumeIdent_ext _ (by simp) _

theorem knownBool_ext (pk : Byte) : Ext (Jiter.knownBool pk) := by
  intro d t n v h
  unfold Jiter.knownBool at h ⊢
  by_cases h1 : pk = 116
  · rw [if_pos h1] at h ⊢; exact consumeIdent_ext _ (by simp) _ _ _ _ _ h
  · rw [if_neg h1] at h ⊢
    by_cases h2 : pk = 102
    · rw [if_pos h2] at h ⊢; exact consumeIdent_ext _ (by simp) _ _ _ _ _ h
    · rw [if_neg h2] at h; simp at h

theorem Next.ext {α : Type} {f : JFn α} {sel : Byte → Option (JFn α)} (h : Next f sel)
    (hs : ∀ c g, sel c = some g → Ext g) : Ext f := by
  intro d t n v hd
  obtain ⟨ws, c, r, g, m, rfl, hw, hc, hsel, hg, rfl⟩ := h.ok hd
  have := hs c g hsel _ t _ _ hg
  rw [List.append_assoc, List.cons_append, h.good _ _ _ _ (peek_tok hw hc (r ++ t)) hsel, List.drop_left, ← List.cons_append, this]

theorem peek_ext : Ext Jiter.peek := by
  intro d t n v hd
  obtain ⟨ws, r, rfl, hw, hc, rfl⟩ := peek_ok hd
  rw [List.append_assoc, List.cons_append]
  exact peek_tok hw hc (r ++ t)

/-! ### Numbers -/

theorem digits_take_eq (d : Bytes) : d.take (digits d) = d.takeWhile isDigit :=
  (List.prefix_iff_eq_take.mp (List.takeWhile_prefix isDigit)).symm

theorem digits_all (d : Bytes) : ∀ c ∈ d.take (digits d), Digit c := by
  intro c hc
  rw [digits_take_eq] at hc
  exact (isDigit_iff c).mp (List.all_eq_true.mp (List.all_takeWhile ..) c hc)

theorem digits_digits {d : Bytes} {i : Nat} (h : needDigit d i = .ok ()) : Digits (d.take (digits d)) := by
  refine ⟨?_, digits_all d⟩
  intro h0
  have h1 := congrArg List.length h0
  have h2 := needDigit_ok h
  have h3 := digits_le d
  simp at h1
  rcases h1 with h1 | h1
  · omega
  · subst h1; simp [digits] at h2

theorem exponent_ok {d : Bytes} {i n : Nat} (h : exponent d i = .ok n) :
    ∃ sg ds, i ≤ n ∧ d.take (n - i) = sg ++ ds ∧ (sg = [] ∨ sg = [43] ∨ sg = [45]) ∧ Digits ds := by
  rw [exponent_eq] at h
  cases hn : needDigit (d.drop (signLen d)) (i + signLen d) with
  | error e => rw [hn] at h; simp at h
  | ok u =>
    rw [hn] at h
    simp only [Except.ok.injEq] at h
    subst h
    refine ⟨d.take (signLen d), _, by omega, ?_, ?_, digits_digits hn⟩
    · rw [show i + signLen d + digits (d.drop (signLen d)) - i = signLen d + digits (d.drop (signLen d)) by omega, List.take_add]
    · cases d with
      | nil => exact .inl rfl
      | cons c d =>
        simp only [signLen]
        by_cases hc : c = 43 ∨ c = 45
        · rw [if_pos hc]
          rcases hc with rfl | rfl
          · exact .inr (.inl rfl)
          · exact .inr (.inr rfl)
        · rw [if_neg hc]; exact .inl rfl

theorem decimal_ok {d : Bytes} {i n : Nat} (h : decimal d i = .ok n) :
    ∃ ds e, i ≤ n ∧ d.take (n - i) = ds ++ e ∧ Digits ds ∧ ExpPart e := by
  simp only [decimal] at h
  cases hn : needDigit d i with
  | error e => rw [hn] at h; simp at h
  | ok u =>
    rw [hn] at h
    simp only at h
    have hdg := digits_digits hn
    have stop : n = i + digits d → ∃ ds e, i ≤ n ∧ d.take (n - i) = ds ++ e ∧ Digits ds ∧ ExpPart e := by
      rintro rfl
      exact ⟨d.take (digits d), [], by omega, by rw [show i + digits d - i = digits d by omega, List.append_nil], hdg, .inl rfl⟩
    cases hd : d.drop (digits d) with
    | nil => rw [hd] at h; simp only [Except.ok.injEq] at h; exact stop h.symm
    | cons c t =>
      rw [hd] at h
      simp only at h
      by_cases hc : c = 101 ∨ c = 69
      · rw [if_pos hc] at h
        obtain ⟨sg, ds, h1, h2, h3, h4⟩ := exponent_ok h
        refine ⟨d.take (digits d), c :: (sg ++ ds), by omega, ?_, hdg, .inr ⟨c, sg, ds, rfl, hc, h3, h4⟩⟩
        rw [show n - i = digits d + (n - (i + digits d + 1) + 1) by omega, List.take_add, hd, List.take_succ_cons, h2]
      · rw [if_neg hc] at h
        simp only [Except.ok.injEq] at h
        exact stop h.symm

theorem numberTail_ok {d : Bytes} {i n : Nat} (h : numberTail d i = .ok n) :
    ∃ f e, i ≤ n ∧ d.take (n - i) = f ++ e ∧ FracPart f ∧ ExpPart e := by
  have stop : n = i → ∃ f e, i ≤ n ∧ d.take (n - i) = f ++ e ∧ FracPart f ∧ ExpPart e := by
    rintro rfl
    exact ⟨[], [], Nat.le_refl _, by simp, .inl rfl, .inl rfl⟩
  cases d with
  | nil => simp only [numberTail, Except.ok.injEq] at h; exact stop h.symm
  | cons c t =>
    simp only [numberTail] at h
    by_cases h1 : c = 46
    · rw [if_pos h1] at h
      obtain ⟨ds, e, g1, g2, g3, g4⟩ := decimal_ok h
      refine ⟨46 :: ds, e, by omega, ?_, .inr ⟨ds, rfl, g3⟩, g4⟩
      rw [show n - i = (n - (i + 1)) + 1 by omega, List.take_succ_cons, g2, h1]; rfl
    · rw [if_neg h1] at h
      by_cases h2 : c = 101 ∨ c = 69
      · rw [if_pos h2] at h
        obtain ⟨sg, ds, g1, g2, g3, g4⟩ := exponent_ok h
        refine ⟨[], c :: (sg ++ ds), by omega, ?_, .inl rfl, .inr ⟨c, sg, ds, rfl, h2, g3, g4⟩⟩
        rw [show n - i = (n - (i + 1)) + 1 by omega, List.take_succ_cons, g2]; rfl
      · rw [if_neg h2] at h
        simp only [Except.ok.injEq] at h; exact stop h.symm

theorem numBody_ok {d : Bytes} {i n : Nat} (h : numBody d i = .ok n) :
    ∃ p f e, i ≤ n ∧ d.take (n - i) = p ++ (f ++ e) ∧ IntPart p ∧ FracPart f ∧ ExpPart e := by
  unfold numBody at h
  cases hn : needDigit d i with
  | error e => rw [hn] at h; simp at h
  | ok u =>
    rw [hn] at h
    simp only at h
    split at h
    · rename_i t
      have tail : numberTail t (i + 1) = .ok n →
          ∃ p f e, i ≤ n ∧ (48 :: t).take (n - i) = p ++ (f ++ e) ∧ IntPart p ∧ FracPart f ∧ ExpPart e := by
        intro ht
        obtain ⟨f, e, g1, g2, g3, g4⟩ := numberTail_ok ht
        refine ⟨[48], f, e, by omega, ?_, .inl rfl, g3, g4⟩
        rw [show n - i = (n - (i + 1)) + 1 by omega, List.take_succ_cons, g2]; rfl
      cases t with
      | nil => exact tail (by simpa [numberTail] using h)
      | cons c t =>
        simp only at h
        by_cases hc : isDigit c = true
        · rw [if_pos hc] at h; simp at h
        · rw [if_neg hc] at h; exact tail h
    · rename_i t hne
      obtain ⟨f, e, g1, g2, g3, g4⟩ := numberTail_ok h
      have hdg := digits_digits hn
      refine ⟨d.take (digits d), f, e, by omega, ?_, .inr ⟨hdg, ?_⟩, g3, g4⟩
      · rw [show n - i = digits d + (n - (i + digits d)) by omega, List.take_add, g2]
      · cases d with
        | nil => simp
        | cons c d =>
          intro hh
          have hc : c = 48 := by
            have := needDigit_ok hn
            obtain ⟨j, hj⟩ : ∃ j, digits (c :: d) = j + 1 := ⟨digits (c :: d) - 1, by omega⟩
            rw [hj, List.take_succ_cons] at hh
            simpa using hh
          exact hne d (by rw [hc])

/-- What jiter takes for a number is one. -/
theorem numberEnd_ok {d : Bytes} {n : Nat} (h : numberEnd d = .ok n) : Number (d.take n) := by
  rw [numberEnd_eq] at h
  obtain ⟨p, f, e, h1, h2, h3, h4, h5⟩ := numBody_ok h
  refine ⟨d.take (minusLen d), p, f, e, ?_, ?_, h3, h4, h5⟩
  · rw [show n = minusLen d + (n - minusLen d) by omega, List.take_add, h2]
  · cases d with
    | nil => exact .inl rfl
    | cons c d =>
      simp only [minusLen]
      by_cases hc : c = 45
      · rw [if_pos hc, hc]; exact .inr rfl
      · rw [if_neg hc]; exact .inl rfl

end Verif.RJiter
