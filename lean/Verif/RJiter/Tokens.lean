import Verif.RJiter.Props
import Verif.RJiter.Forward

/-!
# C103: the client of `rjiter`'s README that skips tokens between JSON fragments

The function `peek_skipping_tokens` of `/repo/rjiter/README.md` lines 138-149 (the same in
`/repo/rjiter/tests/rjiter_test.rs` lines 456-470).
-/

namespace Verif.RJiter

open Buffer RJ Jiter

/-- The loop `for token in tokens`, rjiter/README.md lines 141-146: whether one of the tokens was skipped. An error of
`known_skip_token`, whatever its kind, means that the next token is tried. -/
def skipOneOf (fuel : Nat) (s : RJ) : List Bytes → RJ × Res Bool
  | [] => (s, .ok false)
  | t :: ts =>
    match s.knownSkipToken fuel t with
    | (s, .ok ()) => (s, .ok true)
    | (s, .err _) => skipOneOf fuel s ts
    | (s, .panic) => (s, .panic)
    | (s, .diverge) => (s, .diverge)

/-- `peek_skipping_tokens`, rjiter/README.md lines 138-149. `turns` bounds the turns of the loop. The result of `peek` is
not looked at; it is returned if no token was skipped. -/
def peekSkippingTokens (fuel : Nat) (tokens : List Bytes) : Nat → RJ → RJ × Res Byte
  | 0, s => (s, .diverge)
  | turns + 1, s =>
    match s.peek fuel with
    | (s, .panic) => (s, .panic)
    | (s, .diverge) => (s, .diverge)
    | (s, r) =>
      match skipOneOf fuel s tokens with
      | (s, .ok true) => peekSkippingTokens fuel tokens turns s
      | (s, .ok false) => (s, r)
      | (s, .err _) => (s, r)
      | (s, .panic) => (s, .panic)
      | (s, .diverge) => (s, .diverge)

/-! ## What it should do -/

/-- Of the tokens that the text starts with, `t` is the first one in the list. -/
def FirstToken (tokens : List Bytes) (t text : Bytes) : Prop :=
  ∃ a b, tokens = a ++ t :: b ∧ t <+: text ∧ ∀ u ∈ a, ¬ u <+: text

/-- The text is a sequence of tokens with whitespace in between, and what is left behind them. -/
inductive Remains (tokens : List Bytes) : Bytes → Bytes → Prop where
  /-- Only whitespace. -/
  | nothing {ws : Bytes} (h : Spaces ws) : Remains tokens ws []
  /-- Whitespace, and then something that does not start with a token. -/
  | here {ws text : Bytes} {c : Byte} (h : Spaces ws) (hc : ¬ Space c) (hff : c ≠ 12)
      (hn : ∀ t ∈ tokens, ¬ t <+: c :: text) : Remains tokens (ws ++ c :: text) (c :: text)
  /-- Whitespace and a token. -/
  | token {ws t text left : Bytes} (h : Spaces ws) (ht : FirstToken tokens t (t ++ text)) (hr : Remains tokens text left) :
      Remains tokens (ws ++ (t ++ text)) left

/-- A token that the function can skip: it does not start with whitespace, it is not empty, and it fits into the buffer. -/
def TokenFor (size : Nat) (t : Bytes) : Prop := (∃ c r, t = c :: r ∧ ¬ Space c ∧ c ≠ 12) ∧ t.length ≤ size

/-- What the function is expected to return: the first byte of what is left, or the error of the end of the input. -/
def Answers (left : Bytes) : Res Byte → Prop
  | .ok c => left.head? = some c
  | .err e => left = [] ∧ e.type = .json .eofWhileParsingValue
  | .panic => False
  | .diverge => False

/-! ## Proofs -/

theorem prefix_iff_take {t r : Bytes} : t <+: r ↔ r.take t.length = t := by
  constructor
  · rintro ⟨x, rfl⟩; simp
  · intro h; rw [← h]; exact List.take_prefix _ _

/-- None of the tokens is there. -/
theorem skipOneOf_none {fuel : Nat} : ∀ (tokens : List Bytes) (s : RJ), s.Sync → 0 < s.b.buf.length → s.b.reader.Clean →
    s.b.reader.size < fuel → (∀ t ∈ tokens, t.length ≤ s.b.buf.length) → (∀ t ∈ tokens, ¬ t <+: s.rest) →
    ∃ s', skipOneOf fuel s tokens = (s', .ok false) ∧ s.Moved s' 0
  | [], s, h, _, _, _, _, _ => ⟨s, rfl, Moved.refl h⟩
  | t :: ts, s, h, hl, hc, hf, hfit, hn => by
    rcases knownSkipToken_spec s t fuel h hl (hfit t (by simp)) hf with ⟨s', e, _, hp⟩ | ⟨s', x, e, hm, _⟩ | ⟨s', kd, x, e, hcl⟩
    · exact absurd (prefix_iff_take.mpr hp) (hn t (by simp))
    · have hr : s'.rest = s.rest := hm.rest
      obtain ⟨s2, e2, hm2⟩ := skipOneOf_none ts s' hm.sync (by rw [hm.buf]; exact hl) (hm.clean hc)
        (Nat.lt_of_le_of_lt hm.size hf) (fun u hu => by rw [hm.buf]; exact hfit u (by simp [hu]))
        (fun u hu => by rw [hr]; exact hn u (by simp [hu]))
      exact ⟨s2, by simp only [skipOneOf, e, e2], hm.trans hm2⟩
    · exact absurd hc hcl

/-- The first of the tokens that are there is skipped. -/
theorem skipOneOf_first {fuel : Nat} {t : Bytes} {b : List Bytes} : ∀ (a : List Bytes) (s : RJ), s.Sync → 0 < s.b.buf.length →
    s.b.reader.Clean → s.b.reader.size < fuel → (∀ u ∈ a, u.length ≤ s.b.buf.length) → t.length ≤ s.b.buf.length →
    (∀ u ∈ a, ¬ u <+: s.rest) → t <+: s.rest →
    ∃ s', skipOneOf fuel s (a ++ t :: b) = (s', .ok true) ∧ s.Moved s' t.length
  | [], s, h, hl, hc, hf, _, hfit, _, hp => by
    rcases knownSkipToken_spec s t fuel h hl hfit hf with ⟨s', e, hm, _⟩ | ⟨s', x, e, _, _, hn⟩ | ⟨s', kd, x, e, hcl⟩
    · exact ⟨s', by simp only [List.nil_append, skipOneOf, e], hm⟩
    · exact absurd (prefix_iff_take.mp hp) hn
    · exact absurd hc hcl
  | u :: a, s, h, hl, hc, hf, hfits, hfit, hn, hp => by
    rcases knownSkipToken_spec s u fuel h hl (hfits u (by simp)) hf with ⟨s', e, _, hx⟩ | ⟨s', x, e, hm, _⟩ | ⟨s', kd, x, e, hcl⟩
    · exact absurd (prefix_iff_take.mpr hx) (hn u (by simp))
    · have hr : s'.rest = s.rest := hm.rest
      obtain ⟨s2, e2, hm2⟩ := skipOneOf_first (t := t) (b := b) a s' hm.sync (by rw [hm.buf]; exact hl) (hm.clean hc)
        (Nat.lt_of_le_of_lt hm.size hf) (fun v hv => by rw [hm.buf]; exact hfits v (by simp [hv])) (by rw [hm.buf]; exact hfit)
        (fun v hv => by rw [hr]; exact hn v (by simp [hv])) (by rw [hr]; exact hp)
      refine ⟨s2, by simp only [List.cons_append, skipOneOf, e, e2], ?_⟩
      have := hm.trans hm2
      rwa [Nat.zero_add] at this
    · exact absurd hc hcl

/-- Tokens that are not whitespace are not in whitespace. -/
theorem TokenFor.not_in_spaces {n : Nat} {t ws : Bytes} (h : TokenFor n t) (hw : Spaces ws) : ¬ t <+: ws := by
  obtain ⟨⟨c, r, rfl, hc, _⟩, _⟩ := h
  rintro ⟨x, rfl⟩
  exact hc (hw c (by simp))

/-- **C103, partial** (full statement: also for tokens that are longer than the buffer, see `C103_long_token` for why that is
false, for empty tokens, see `C103_empty_token`, and for a reader with I/O errors, see `C103_lost_error`). If the rest of the
stream is a sequence of tokens and whitespace and then something else, and no I/O error occurs, the function skips exactly
the tokens and the whitespace, whatever the pieces in which the reader delivers: it returns the first byte of what is left, or
the error of the end of the input if nothing is, and the parser is in front of it. -/
theorem C103_peek_skipping_tokens_partial (tokens : List Bytes) (fuel : Nat) {text left : Bytes} (hr : Remains tokens text left) :
    ∀ (s : RJ), s.Sync → 2 ≤ s.b.buf.length → s.b.reader.Clean → enoughFuel s fuel →
    (∀ t ∈ tokens, TokenFor s.b.buf.length t) → s.rest = text →
    ∃ s' r n, (∀ turns, text.length + 1 ≤ turns → peekSkippingTokens fuel tokens turns s = (s', r)) ∧ Answers left r ∧
      s.Moved s' n ∧ (left ≠ [] → s'.rest = left) := by
  induction hr with
  | @nothing ws hw =>
    intro s h hl hc hf hfit hs
    have hf' := hf
    unfold enoughFuel at hf'
    obtain ⟨s1, x, e⟩ := C16_peek_end s fuel h (by omega) hc hf (by rw [hs]; exact hw)
    rcases peek_errs h hl hf e with ⟨n, hm⟩ | ⟨hx, _⟩
    · have hsp : Spaces s1.rest := by
        rw [hm.rest, hs]; intro c hc; exact hw c (List.mem_of_mem_drop hc)
      obtain ⟨s2, e2, hm2⟩ := skipOneOf_none (fuel := fuel) tokens s1 hm.sync (by rw [hm.buf]; omega) (hm.clean hc)
        (by have := hm.size; omega) (fun t ht => by rw [hm.buf]; exact (hfit t ht).2) (fun t ht => (hfit t ht).not_in_spaces hsp)
      refine ⟨s2, .err ⟨.json .eofWhileParsingValue, x⟩, _, ?_, ⟨rfl, rfl⟩, hm.trans hm2, fun hx => absurd rfl hx⟩
      intro turns ht
      obtain ⟨k, rfl⟩ : ∃ k, turns = k + 1 := ⟨turns - 1, by omega⟩
      simp only [peekSkippingTokens, e, e2]
    · exact absurd hc hx
  | @here ws text c hw hcs hff hn =>
    intro s h hl hc hf hfit hs
    have hf' := hf
    unfold enoughFuel at hf'
    obtain ⟨s1, e, hm, _⟩ := C16_peek_partial s fuel h (by omega) hc hf ws c text hs hw hcs hff
    have hr1 : s1.rest = c :: text := by rw [hm.rest, hs]; simp
    obtain ⟨s2, e2, hm2⟩ := skipOneOf_none (fuel := fuel) tokens s1 hm.sync (by rw [hm.buf]; omega) (hm.clean hc)
      (by have := hm.size; omega) (fun t ht => by rw [hm.buf]; exact (hfit t ht).2) (by rw [hr1]; exact hn)
    refine ⟨s2, .ok c, _, ?_, rfl, hm.trans hm2, fun _ => by rw [hm2.rest, hr1]; rfl⟩
    intro turns ht
    obtain ⟨k, rfl⟩ : ∃ k, turns = k + 1 := ⟨turns - 1, by omega⟩
    simp only [peekSkippingTokens, e, e2]
  | @token ws t text left hw hfirst _ ih =>
    intro s h hl hc hf hfit hs
    have hf' := hf
    unfold enoughFuel at hf'
    obtain ⟨a, b, hab, hpre, hna⟩ := hfirst
    have htok : TokenFor s.b.buf.length t := hfit t (by rw [hab]; simp)
    obtain ⟨⟨c, rest, htc, hcs, hff⟩, hlen⟩ := htok
    obtain ⟨s1, e, hm, _⟩ := C16_peek_partial s fuel h (by omega) hc hf ws c (rest ++ text) (by rw [hs, htc]; simp) hw hcs hff
    have hr1 : s1.rest = t ++ text := by rw [hm.rest, hs]; simp
    obtain ⟨s2, e2, hm2⟩ := skipOneOf_first (fuel := fuel) (t := t) (b := b) a s1 hm.sync (by rw [hm.buf]; omega) (hm.clean hc)
      (by have := hm.size; omega) (fun u hu => by rw [hm.buf]; exact (hfit u (by rw [hab]; simp [hu])).2) (by rw [hm.buf]; exact hlen)
      (by rw [hr1]; exact hna) (by rw [hr1]; exact hpre)
    have hm3 := hm.trans hm2
    obtain ⟨s3, r, n, h1, h2, h3, h4⟩ := ih s2 hm2.sync (by rw [hm3.buf]; exact hl) (hm3.clean hc)
      (by have := hm3.size; unfold enoughFuel; omega) (fun u hu => by rw [hm3.buf]; exact hfit u hu)
      (by rw [hm2.rest, hr1]; simp)
    refine ⟨s3, r, _, ?_, h2, hm3.trans h3, h4⟩
    intro turns ht
    obtain ⟨k, rfl⟩ : ∃ k, turns = k + 1 := ⟨turns - 1, by omega⟩
    have hk : text.length + 1 ≤ k := by
      have : 0 < t.length := by rw [htc]; simp
      simp only [List.length_append] at ht; omega
    rw [← hab] at e2
    simp only [peekSkippingTokens, e, e2, h1 k hk]

/-- An empty token, or another one, is always there. -/
theorem skipOneOf_empty {fuel : Nat} : ∀ (tokens : List Bytes) (s : RJ), [] ∈ tokens → s.Sync → 0 < s.b.buf.length → s.b.reader.Clean →
    s.b.reader.size < fuel → (∀ t ∈ tokens, t.length ≤ s.b.buf.length) →
    ∃ s' n, skipOneOf fuel s tokens = (s', .ok true) ∧ s.Moved s' n
  | t :: ts, s, hm0, h, hl, hc, hf, hfit => by
    rcases knownSkipToken_spec s t fuel h hl (hfit t (by simp)) hf with ⟨s', e, hm, hp⟩ | ⟨s', x, e, hm, _, hne⟩ | ⟨s', kd, x, e, hcl⟩
    · exact ⟨s', _, by simp only [skipOneOf, e], hm⟩
    · have hin : [] ∈ ts := by
        rcases List.mem_cons.mp hm0 with rfl | h
        · exact absurd rfl hne
        · exact h
      obtain ⟨s2, n, e2, hm2⟩ := skipOneOf_empty ts s' hin hm.sync (by rw [hm.buf]; exact hl) (hm.clean hc)
        (Nat.lt_of_le_of_lt hm.size hf) (fun u hu => by rw [hm.buf]; exact hfit u (by simp [hu]))
      exact ⟨s2, _, by simp only [skipOneOf, e, e2], hm.trans hm2⟩
    · exact absurd hc hcl

/-- **C103, the false part, empty tokens.** If one of the tokens is empty, the function does not return, on no input. -/
theorem C103_empty_token (tokens : List Bytes) (fuel : Nat) (hin : [] ∈ tokens) : ∀ (turns : Nat) (s : RJ), s.Sync →
    2 ≤ s.b.buf.length → s.b.reader.Clean → enoughFuel s fuel → (∀ t ∈ tokens, t.length ≤ s.b.buf.length) →
    (peekSkippingTokens fuel tokens turns s).2 = .diverge
  | 0, _, _, _, _, _, _ => rfl
  | turns + 1, s, h, hl, hc, hf, hfit => by
    have hf' := hf
    unfold enoughFuel at hf'
    have hgo : ∀ {s1 : RJ} {n : Nat}, s.Moved s1 n → ∃ s2, skipOneOf fuel s1 tokens = (s2, .ok true) ∧
        (peekSkippingTokens fuel tokens turns s2).2 = .diverge := by
      intro s1 n hm
      obtain ⟨s2, m, e2, hm2⟩ := skipOneOf_empty (fuel := fuel) tokens s1 hin hm.sync (by rw [hm.buf]; omega) (hm.clean hc)
        (by have := hm.size; omega) (fun t ht => by rw [hm.buf]; exact hfit t ht)
      have hm3 := hm.trans hm2
      exact ⟨s2, e2, C103_empty_token tokens fuel hin turns s2 hm2.sync (by rw [hm3.buf]; exact hl) (hm3.clean hc)
        (by have := hm3.size; unfold enoughFuel; omega) (fun t ht => by rw [hm3.buf]; exact hfit t ht)⟩
    have hruns := peek_runs h hl hf
    rcases hp : s.peek fuel with ⟨s1, r⟩
    rw [hp] at hruns
    cases r with
    | ok c =>
      obtain ⟨n, _, hm⟩ := hruns
      obtain ⟨s2, e2, hd⟩ := hgo hm
      simp only [peekSkippingTokens, hp, e2, hd]
    | err er =>
      rcases peek_errs h hl hf hp with ⟨n, hm⟩ | ⟨hx, _⟩
      · obtain ⟨s2, e2, hd⟩ := hgo hm
        simp only [peekSkippingTokens, hp, e2, hd]
      · exact absurd hc hx
    | panic => exact hruns.elim
    | diverge => exact hruns.elim

/-- `"data:"`, `"event:"` and `"ping"`. -/
def exTokens : List Bytes := [[100, 97, 116, 97, 58], [101, 118, 101, 110, 116, 58], [112, 105, 110, 103]]

/-- `" data:\n{1"`, in two pieces. -/
def exTokenInput : Reader := [.data 32 [100, 97, 116], .data 97 [58, 10, 123, 49]]

/-- The hypotheses of C103 can be met. -/
example : Remains exTokens [32, 100, 97, 116, 97, 58, 10, 123, 49] [123, 49] ∧
    (∀ t ∈ exTokens, TokenFor 6 t) ∧ (RJ.new exTokenInput (List.replicate 6 0)).rest = [32, 100, 97, 116, 97, 58, 10, 123, 49] ∧
    ∃ s', peekSkippingTokens 50 exTokens 20 (.new exTokenInput (List.replicate 6 0)) = (s', .ok 123) ∧ s'.currentIndex = 7 := by
  refine ⟨?_, ?_, by decide +kernel, _, rfl, by decide +kernel⟩
  · refine .token (ws := [32]) (t := [100, 97, 116, 97, 58]) (text := [10, 123, 49]) (by intro c hc; simp at hc; simp [hc, Space])
      ⟨[], _, rfl, ⟨_, rfl⟩, by simp⟩ (.here (ws := [10]) (c := 123) (text := [49]) (by intro c hc; simp at hc; simp [hc, Space])
        (by simp [Space]) (by decide) ?_)
    decide
  · intro t ht
    simp only [exTokens, List.mem_cons, List.not_mem_nil, or_false] at ht
    rcases ht with rfl | rfl | rfl <;> exact ⟨⟨_, _, rfl, by simp [Space], by decide⟩, by decide⟩

/-- The hypotheses of C103_empty_token can be met. -/
example : [] ∈ [[112], ([] : Bytes)] ∧ (RJ.new exTokenInput (List.replicate 6 0)).Sync ∧
    (peekSkippingTokens 50 [[112], []] 20 (.new exTokenInput (List.replicate 6 0))).2 = .diverge :=
  ⟨by simp, ⟨by decide, by decide, by decide⟩, by decide +kernel⟩

/-- **C103, the false part, long tokens.** A token that is longer than the buffer is not skipped, and nobody is told: what
`peek` returned for it is returned. The same input with a buffer of six bytes is understood. -/
theorem C103_long_token :
    (peekSkippingTokens 50 [[100, 97, 116, 97, 58]] 20 (.new [.data 100 [97, 116, 97, 58, 123]] (List.replicate 4 0))).2 = .ok 100 ∧
    (peekSkippingTokens 50 [[100, 97, 116, 97, 58]] 20 (.new [.data 100 [97, 116, 97, 58, 123]] (List.replicate 6 0))).2 = .ok 123 := by
  decide +kernel

/-- **C103, the false part, I/O errors.** The reader fails in the middle of a token: the error is dropped, and what `peek`
returned in front of the token is returned. Or it fails in front of a token: the error is dropped as well, and the token is
skipped. -/
theorem C103_lost_error :
    (peekSkippingTokens 50 [[100, 97, 116, 97, 58]] 20
      (.new [.data 100 [97], .fail 3, .data 116 [97, 58, 123]] (List.replicate 8 0))).2 = .ok 100 ∧
    (peekSkippingTokens 50 [[100, 97, 116, 97, 58]] 20
      (.new [.fail 3, .data 100 [97, 116, 97, 58, 123]] (List.replicate 8 0))).2 = .ok 123 := by
  decide +kernel

end Verif.RJiter
