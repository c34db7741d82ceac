import Verif.RJiter.Failed
import Verif.RJiter.Held
import Verif.RJiter.Accept
import Verif.RJiter.Hopeless

/-!
# `known_bool` and `known_null` on input that is not the word
-/

namespace Verif.RJiter

open Buffer RJ Jiter

/-- The literal that begins with a byte. -/
def wordOf (c : Byte) : Bytes :=
  if c = 116 then [116, 114, 117, 101] else if c = 102 then [102, 97, 108, 115, 101] else [110, 117, 108, 108]

/-- The input begins like `true`, `false` or `null`, but it is something else. -/
def Wordless (r : Bytes) : Prop := ∃ c t, r = c :: t ∧ (c = 116 ∨ c = 102 ∨ c = 110) ∧ ¬ wordOf c <+: r

variable {s s' : RJ} {fuel : Nat}

/-- A second `peek` does nothing. -/
theorem RJ.peek_again {c : Byte} (h : s.peek fuel = (s', .ok c)) : s'.peek fuel = (s', .ok c) := by
  obtain ⟨k, n, h1, h2⟩ := loopUntilSuccess_readAt h
  obtain ⟨ws, t, e, hw, hc, rfl⟩ := peek_ok h1
  have hj : s'.jdata = c :: t := by
    rw [jdata, h2, ← List.drop_drop, e, List.drop_left]
  have hp : Jiter.peek (c :: t) = (0, .ok c) := by simpa using peek_tok Ws.nil hc t
  simp only [RJ.peek, loopUntilSuccess, call, hj, hp, Nat.add_zero, reallyOk, Bool.not_false, Bool.true_or, if_true]

/-- A failed call for a token that does not need to be looked behind: the position is kept, and the token is not there. -/
theorem RJ.prefix_err {α : Type} {f : JFn α} (hp : PrefixFn f) (hst : Still f) (h : s.Sync) (hl : 1 < s.b.buf.length)
    (hf : enoughFuel s fuel) (hcl : s.b.reader.Clean) {c : Byte} {t : Bytes} (hr : s.rest = c :: t) (hc : isAsciiWs c = false)
    {er : Err} (herr : s.loopUntilSuccess fuel f none false = (s', .err er)) :
    s.Moved s' 0 ∧ ∀ n v, n < s.b.buf.length → f s.rest ≠ (n, .ok v) := by
  unfold enoughFuel at hf
  have hio : ∀ kd x, er ≠ ⟨.io kd, x⟩ := by
    intro kd x he
    obtain ⟨s1, r1, e1, h1⟩ := loopUntilSuccess_sound (eager := false) (PrefixFn.jsound hp) s fuel h (by omega) (by intro _; omega) (by omega)
    rw [herr] at e1
    simp only [Prod.mk.injEq] at e1
    obtain ⟨rfl, rfl⟩ := e1
    rcases h1 with ⟨_, _, h1, _⟩ | ⟨er', h1, h2⟩
    · cases h1
    · injection h1 with h1
      subst h1 he
      exact h2 kd rfl hcl
  rcases plain_error hst.ws hst.onNil s fuel h (by omega) (by omega) herr with ⟨kd, x, he, _⟩ | ⟨ws, r, k, e, e1, hw, _, hrj, _, hm⟩
  · exact absurd he (hio kd x)
  · have hws : ws = [] := by
      cases ws with
      | nil => rfl
      | cons x ws =>
        rw [hr] at e1
        injection e1 with e1 _
        subst e1
        exact absurd (hw c (by simp)) (by simp [hc])
    subst hws
    refine ⟨hm, fun n v hn hok => ?_⟩
    simp only [List.nil_append] at e1
    rw [e1] at hok
    obtain ⟨_, h2, h3, h4⟩ := hp _ _ _ hok
    by_cases hk : n ≤ k
    · have := h3 k hk
      rw [hrj.err] at this
      simp at this
    · obtain ⟨e', h5, h6⟩ := h4 k (by omega)
      rw [hrj.err] at h5
      simp only [Prod.mk.injEq, Except.error.injEq, true_and] at h5
      subst h5
      rcases hrj.final h6 with h7 | h7 <;> omega

theorem ident_ok {α : Type} {c : Byte} {w t : Bytes} (v : α) (h : c :: w <+: c :: t) : consumeIdent w v (c :: t) = (1 + w.length, .ok v) := by
  obtain ⟨x, e⟩ := h
  simp only [List.cons_append, List.cons.injEq, true_and] at e
  subst e
  have : ∀ (w : Bytes) (i : Nat), matchIdent w (w ++ x) i = none := by
    intro w
    induction w with
    | nil => intro i; simp [matchIdent]
    | cons a w ih => intro i; simp [matchIdent, ih]
  simp [consumeIdent, this]

theorem RJ.knownBool_err {c : Byte} (hc : c = 116 ∨ c = 102) (h : s.Sync) (hl : 8 ≤ s.b.buf.length) (hf : enoughFuel s fuel)
    (hcl : s.b.reader.Clean) {t : Bytes} (hr : s.rest = c :: t) {er : Err} (herr : s.knownBool fuel c = (s', .err er)) :
    s.Moved s' 0 ∧ Wordless s.rest := by
  obtain ⟨hm, hno⟩ := prefix_err (knownBool_prefix c) (knownBool_still c) h (by omega) hf hcl hr (by rcases hc with rfl | rfl <;> decide) herr
  refine ⟨hm, c, t, hr, by rcases hc with rfl | rfl <;> simp, fun hw => ?_⟩
  rw [hr] at hno hw
  rcases hc with rfl | rfl
  · exact hno 4 true (by omega) (ident_ok _ hw)
  · exact hno 5 false (by omega) (ident_ok _ hw)

theorem RJ.knownNull_err (h : s.Sync) (hl : 8 ≤ s.b.buf.length) (hf : enoughFuel s fuel)
    (hcl : s.b.reader.Clean) {t : Bytes} (hr : s.rest = 110 :: t) {er : Err} (herr : s.knownNull fuel = (s', .err er)) :
    s.Moved s' 0 ∧ Wordless s.rest := by
  obtain ⟨hm, hno⟩ := prefix_err knownNull_prefix (consumeIdent_still _ _) h (by omega) hf hcl hr (by decide) herr
  refine ⟨hm, 110, t, hr, by simp, fun hw => ?_⟩
  rw [hr] at hno hw
  exact hno 4 () (by omega) (ident_ok _ hw)

theorem RJ.knownBool_word {c : Byte} (hc : c = 116 ∨ c = 102) (h : s.Sync) (hl : 0 < s.b.buf.length) (hf : enoughFuel s fuel)
    {t : Bytes} (hr : s.rest = c :: t) {v : Bool} (hok : s.knownBool fuel c = (s', .ok v)) : wordOf c <+: s.rest := by
  obtain ⟨d, n, hp, h1, _⟩ := known_value (PrefixFn.jsound (knownBool_prefix c)) (knownBool_still c) h hf hl hr
    (by rcases hc with rfl | rfl <;> simp [Space]) (by rcases hc with rfl | rfl <;> decide) hok
  rw [hr] at hp ⊢
  rcases hc with rfl | rfl
  · obtain ⟨t', rfl, _⟩ := ident_of_prefix hp (by decide) h1
    exact ⟨t', rfl⟩
  · obtain ⟨t', rfl, _⟩ := ident_of_prefix hp (by decide) h1
    exact ⟨t', rfl⟩

theorem RJ.knownNull_word (h : s.Sync) (hl : 0 < s.b.buf.length) (hf : enoughFuel s fuel)
    {t : Bytes} (hr : s.rest = 110 :: t) {v : Unit} (hok : s.knownNull fuel = (s', .ok v)) : wordOf 110 <+: s.rest := by
  obtain ⟨d, n, hp, h1, _⟩ := known_value (PrefixFn.jsound knownNull_prefix) (consumeIdent_still _ _) h hf hl hr
    (by simp [Space]) (by decide) hok
  rw [hr] at hp ⊢
  obtain ⟨t', rfl, _⟩ := ident_of_prefix hp (by decide) h1
  exact ⟨t', rfl⟩

/-- `peek` in front of a byte that is not space. -/
theorem RJ.peek_byte (h : s.Sync) (hl : 1 < s.b.buf.length) (hf : enoughFuel s fuel) (hcl : s.b.reader.Clean) {c : Byte} {t : Bytes}
    (hr : s.rest = c :: t) (hc : isAsciiWs c = false) : ∃ s1, s.peek fuel = (s1, .ok c) ∧ s.Moved s1 0 := by
  have hrun := RJ.peek_runs h (by omega) hf
  have hne : ∀ ws r, s.rest = ws ++ r → AWs ws → ws = [] := by
    intro ws r e hw
    cases ws with
    | nil => rfl
    | cons x ws =>
      rw [hr] at e
      injection e with e _
      subst e
      exact absurd (hw c (by simp)) (by simp [hc])
  rcases hx : s.peek fuel with ⟨s1, c' | e | _ | _⟩
  · obtain ⟨ws, t', e, hw, _, hs, n, hm⟩ := RJ.peek_text h hl hf hx
    have := hne _ _ e hw
    subst this
    rw [hr] at e
    simp only [List.nil_append, List.cons.injEq] at e
    obtain ⟨rfl, rfl⟩ := e
    refine ⟨s1, rfl, ?_⟩
    have hlen := hm.enough
    have : s1.rest.length = s.rest.length - n := by rw [hm.rest, List.length_drop]
    rw [hs, hr] at this
    have : n = 0 := by
      rw [hr] at hlen
      simp only [List.length_cons] at *
      omega
    subst this
    exact hm
  · exfalso
    unfold enoughFuel at hf
    have hio : ∀ kd, e.type ≠ .io kd := by
      intro kd he
      rcases loopUntilSuccess_sound (eager := false) peek_jsound s fuel h (by omega) (by intro _; omega) (by omega) with ⟨s2, r1, e1, h1⟩
      rw [show s.loopUntilSuccess fuel Jiter.peek none false = _ from hx] at e1
      simp only [Prod.mk.injEq] at e1
      obtain ⟨rfl, rfl⟩ := e1
      rcases h1 with ⟨_, _, h1, _⟩ | ⟨er', h1, h2⟩
      · cases h1
      · injection h1 with h1
        subst h1
        exact h2 kd he hcl
    obtain ⟨ws, r, k, e', e1, hw, _, hrj, he', hm⟩ := (plain_error peek_stillWs peek_stillNil s fuel h (by omega) (by omega) hx).resolve_left
      (by rintro ⟨kd, x, he, _⟩; exact hio kd (by rw [he]))
    have := hne _ _ e1 hw
    subst this
    rw [List.nil_append, hr] at e1
    subst e1
    have h0 := hrj.err
    cases k with
    | succ k =>
      rw [List.take_succ_cons, show Jiter.peek (c :: t.take k) = (0, .ok c) by simpa using peek_tok Ws.nil (not_ws hc) (t.take k)] at h0
      simp at h0
    | zero =>
      have h1 : Jiter.peek [] = (0, .error ⟨.json .eofWhileParsingValue, 0⟩) := rfl
      rw [List.take_zero, h1] at h0
      simp only [Prod.mk.injEq, Except.error.injEq, true_and] at h0
      subst h0
      rcases hrj.final rfl with h2 | h2
      · simp at h2
      · omega
  · rw [hx] at hrun; exact hrun.elim
  · rw [hx] at hrun; exact hrun.elim

end Verif.RJiter
