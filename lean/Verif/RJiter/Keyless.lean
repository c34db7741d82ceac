import Verif.RJiter.Hopeless
import Verif.RJiter.StrLemmas
import Verif.RJiter.Value

/-!
# `next_object` and `next_key` on a string that is no key
-/

namespace Verif.RJiter

open Buffer RJ Jiter

/-- Behind the opening quote, the text `t` is no key: the string has a byte in it that cannot be in a string, or it is followed by
something else than a colon, and also not by one of the bytes `l`. -/
def NoKey (t l : Bytes) : Prop :=
  (∃ k x y, t = k ++ x :: y ∧ RawBody k ∧ (x.toNat < 32 ∨ x = 92 ∧ ∃ e z, y = e :: z ∧ e ≠ 117 ∧ ∀ ch, ¬ Escape e ch)) ∨
  (∃ k m c y, t = k ++ 34 :: (m ++ c :: y) ∧ RawBody k ∧ Spaces m ∧ ¬ Space c ∧ c ≠ 12 ∧ c ≠ 58 ∧ c ∉ l)

theorem rawString_skip {body : Bytes} (h : RawBody body) : ∀ (t : Bytes) (i : Nat), rawString (body ++ t) i = rawString t (i + body.length) := by
  induction h with
  | nil => intro t i; simp
  | char ch r hp _ ih =>
    intro t i
    rw [List.append_assoc, rawString_plain _ _ _ (enc_plain hp), ih, List.length_append]
    congr 1; omega
  | esc e x r he _ ih =>
    intro t i
    rw [List.cons_append, List.cons_append, rawString.eq_def]
    simp only
    rw [if_neg (by decide), if_pos trivial, if_pos (escape_mem he).1, ih]
    congr 1; simp; omega
  | uni a b c d v r hx _ ih =>
    intro t i
    obtain ⟨x, y, z, w, ha, hb, hc, hd, _⟩ := hx
    rw [List.cons_append, List.cons_append, rawString.eq_def]
    simp only
    rw [if_neg (by decide), if_pos trivial, if_neg (by decide), if_pos trivial,
      if_neg (by simp only [List.cons_append, List.head?_cons, Option.some.injEq]; exact (hex_plain ha).1)]
    have := rawString_plain [a, b, c, d] (r ++ t) (i + 2) (by
      intro x hx
      simp only [List.mem_cons, List.not_mem_nil, or_false] at hx
      rcases hx with rfl | rfl | rfl | rfl
      · exact hex_plain ha
      · exact hex_plain hb
      · exact hex_plain hc
      · exact hex_plain hd)
    simp only [List.cons_append, List.nil_append] at this ⊢
    rw [this, ih]
    congr 1; simp; omega

/-- A string with a wrong byte in it is not accepted. -/
theorem knownBytes_wrong {k y : Bytes} {x : Byte} (hk : RawBody k)
    (hx : x.toNat < 32 ∨ x = 92 ∧ ∃ e z, y = e :: z ∧ e ≠ 117 ∧ ∀ ch, ¬ Escape e ch) (q : Byte) :
    ∃ e, Jiter.knownBytes (q :: (k ++ x :: y)) = (0, .error e) := by
  simp only [Jiter.knownBytes, List.drop_succ_cons, List.drop_zero, rawString_skip hk]
  have : ∃ e, rawString (x :: y) (0 + k.length) = .error e := by
    rw [rawString.eq_def]
    simp only
    rcases hx with hx | ⟨rfl, e, z, rfl, hu, he⟩
    · have h1 : x ≠ 34 := by rintro rfl; simp at hx
      have h2 : x ≠ 92 := by rintro rfl; simp at hx
      rw [if_neg h1, if_neg h2, if_pos (by rw [UInt8.lt_iff_toNat_lt]; exact hx)]
      exact ⟨_, rfl⟩
    · rw [if_neg (by decide), if_pos rfl]
      simp only
      rw [if_neg ?_, if_neg hu]
      · exact ⟨_, rfl⟩
      · intro hmem
        simp only [Escape, List.mem_cons, Prod.mk.injEq, List.not_mem_nil, or_false] at he
        rcases hmem with rfl | rfl | rfl | rfl | rfl | rfl | rfl | rfl
        · exact he '"' (by simp)
        · exact he '\\' (by simp)
        · exact he '/' (by simp)
        · exact he '\x08' (by simp)
        · exact he '\x0c' (by simp)
        · exact he '\n' (by simp)
        · exact he '\r' (by simp)
        · exact he '\t' (by simp)
  obtain ⟨e, h⟩ := this
  rw [h]
  exact ⟨_, rfl⟩

/-- What is left behind a failed `object_key`. -/
def Left (l d : Bytes) (n : Nat) : Prop := n = 0 ∨ d.drop n = [] ∨ ∃ c x, d.drop n = c :: x ∧ isWs c = false ∧ c ∉ l

theorem objectKey_never {t l : Bytes} (h : NoKey t l) (j : Nat) :
    ∃ n e, objectKey Jiter.knownBytes ((34 :: t).take j) = (n, .error e) ∧ Left l ((34 :: t).take j) n := by
  have early : ∀ e, Jiter.knownBytes ((34 :: t).take j) = (0, .error e) → ∃ n e,
      objectKey Jiter.knownBytes ((34 :: t).take j) = (n, .error e) ∧ Left l ((34 :: t).take j) n := by
    intro e he
    simp only [objectKey, he]
    exact ⟨_, _, rfl, .inl rfl⟩
  rcases h with ⟨k, x, y, rfl, hk, hx⟩ | ⟨k, m, c, y, rfl, hk, hm, h1, h2, h3, h4⟩
  · obtain ⟨e, he⟩ := knownBytes_wrong hk hx 34
    rcases hr : Jiter.knownBytes ((34 :: (k ++ x :: y)).take j) with ⟨n, e' | v⟩
    · have := knownBytes_still _ _ _ hr
      subst this
      exact early _ hr
    · have := knownBytes_ext _ ((34 :: (k ++ x :: y)).drop j) _ _ hr
      rw [List.take_append_drop, he] at this
      simp at this
  · have hfull := knownBytes_body hk 34 (m ++ c :: y)
    obtain ⟨g1, g2, g3, g4⟩ := knownBytes_prefix _ _ _ hfull
    by_cases hj : k.length + 2 ≤ j
    · have hok := g3 j hj
      have hdrop : ((34 :: (k ++ 34 :: (m ++ c :: y))).take j).drop (k.length + 2) = (m ++ c :: y).take (j - (k.length + 2)) := by
        rw [List.drop_take]
        congr 1
        rw [show 34 :: (k ++ 34 :: (m ++ c :: y)) = (34 :: (k ++ [34])) ++ (m ++ c :: y) by simp]
        exact List.drop_left' (by simp)
      have hcw : isWs c = false := isWs_of_not_ascii (by
        cases hx : isAsciiWs c with
        | false => rfl
        | true =>
          simp only [isAsciiWs, Bool.or_eq_true, beq_iff_eq] at hx
          unfold Space at h1
          exfalso
          rcases hx with (((rfl | rfl) | rfl) | rfl) | rfl <;> simp_all)
      have hdw : ∀ w, ((34 :: (k ++ 34 :: (m ++ c :: y))).take j).drop (k.length + 2 + w) =
          ((m ++ c :: y).take (j - (k.length + 2))).drop w := by
        intro w; rw [← List.drop_drop, hdrop]
      rcases take_head (t := y) (c := c) ((ws_iff _).2 hm) (j - (k.length + 2)) with h5 | ⟨i, h5⟩
      · refine ⟨k.length + 2 + ((m ++ c :: y).take (j - (k.length + 2))).length,
          ⟨.json .eofWhileParsingObject, k.length + 2 + ((m ++ c :: y).take (j - (k.length + 2))).length⟩, ?_, .inr (.inl ?_)⟩
        · simp only [objectKey, hok]
          rw [hdrop, wsLen_all h5, hdw, List.drop_length]
          rfl
        · rw [hdw, List.drop_length]
      · refine ⟨k.length + 2 + m.length, ⟨.json .expectedColon, k.length + 2 + m.length⟩, ?_,
          .inr (.inr ⟨c, y.take i, ?_, hcw, h4⟩)⟩
        · simp only [objectKey, hok]
          rw [hdrop, h5, wsLen_cons ((ws_iff _).2 hm) hcw, hdw, h5, List.drop_left]
          simp only [if_neg h3]
          rfl
        · rw [hdw, h5, List.drop_left]
    · obtain ⟨e, he, _⟩ := g4 j (by omega)
      exact early e he

theorem Left.head {t l : Bytes} {j n : Nat} (h34 : (34 : Byte) ∉ l) (h : Left l ((34 :: t).take j) n) :
    ((34 :: t).take j).drop n = [] ∨ ∃ c x, ((34 :: t).take j).drop n = c :: x ∧ isWs c = false ∧ c ∉ l := by
  rcases h with rfl | h | h
  · cases j with
    | zero => exact .inl rfl
    | succ j => exact .inr ⟨34, t.take j, rfl, by decide, h34⟩
  · exact .inl h
  · exact .inr h

theorem keyAt_fails {d x : Bytes} {w n : Nat} {e : JErr} (hd : d.drop w = x) (h : objectKey Jiter.knownBytes x = (n, .error e)) :
    keyAt Jiter.knownBytes d w = (w + n, .error ⟨e.type, w + e.index⟩) := by
  simp only [keyAt, hd, h]

theorem nextObject_brace_key {ws t : Bytes} (h : Ws ws) {n : Nat} {e : JErr} (hk : objectKey Jiter.knownBytes (34 :: t) = (n, .error e)) :
    ∃ e', Jiter.nextObject Jiter.knownBytes (123 :: (ws ++ 34 :: t)) = (1 + ws.length + n, .error e') := by
  have hp : Jiter.peek (123 :: (ws ++ 34 :: t)) = (0, .ok 123) := by
    simpa using peek_tok Ws.nil (show isWs 123 = false by decide) (ws ++ 34 :: t)
  have hd : (123 :: (ws ++ 34 :: t)).drop (1 + ws.length) = 34 :: t := by simpa using drop_two [] ws 123 (34 :: t)
  simp only [Jiter.nextObject, hp, if_true, List.drop_zero, Jiter.knownObject, List.drop_succ_cons,
    wsLen_cons h (show isWs 34 = false by decide)]
  rw [hd]
  simp only [if_true, keyAt_fails hd hk, Nat.zero_add]
  exact ⟨_, rfl⟩

theorem nextKey_comma_key {ws ws2 t : Bytes} (h : Ws ws) (h2 : Ws ws2) {n : Nat} {e : JErr}
    (hk : objectKey Jiter.knownBytes (34 :: t) = (n, .error e)) :
    ∃ e', Jiter.nextKey Jiter.knownBytes (ws ++ 44 :: (ws2 ++ 34 :: t)) = (ws.length + 1 + ws2.length + n, .error e') := by
  have hd : (ws ++ 44 :: (ws2 ++ 34 :: t)).drop (ws.length + 1 + ws2.length) = 34 :: t := drop_two ws ws2 44 (34 :: t)
  simp only [Jiter.nextKey, wsLen_cons h (show isWs 44 = false by decide), List.drop_left, if_true,
    wsLen_cons h2 (show isWs 34 = false by decide)]
  rw [hd]
  simp only [if_true, keyAt_fails hd hk]
  exact ⟨_, rfl⟩

theorem take_quote {ws : Bytes} (h : Ws ws) (t : Bytes) (k : Nat) :
    Ws ((ws ++ 34 :: t).take k) ∨ ∃ j, (ws ++ 34 :: t).take k = ws ++ (34 :: t).take (j + 1) := by
  rcases take_head (t := t) (c := 34) h k with h1 | ⟨j, h1⟩
  · exact .inl h1
  · exact .inr ⟨j, h1⟩

section
variable (s : RJ) (fuel : Nat) (h : s.Sync) (hl : 1 < s.b.buf.length) (hcl : s.b.reader.Clean) (hf : enoughFuel s fuel)
include h hl hcl hf

/-- `next_object` in front of a brace that is followed by a string that is no key. -/
theorem RJ.nextObject_keyless {ws t : Bytes} (hr : s.rest = 123 :: (ws ++ 34 :: t)) (hw : Ws ws) (hn : NoKey t [123]) :
    ∃ s' e, s.nextObjectBytes fuel = (s', .err e) ∧ ∀ kd, e.type ≠ .io kd := by
  unfold enoughFuel at hf
  have hnil : Jiter.nextObject Jiter.knownBytes [] = (0, .error ⟨.json .eofWhileParsingValue, 0⟩) := rfl
  have hcase : ∀ k ws', Ws ws' → ∃ n e, Jiter.nextObject Jiter.knownBytes ((123 :: (ws' ++ 34 :: t)).take k) = (n, .error e) ∧
      (((123 :: (ws' ++ 34 :: t)).take k).drop n = [] ∨
        ∃ c x, ((123 :: (ws' ++ 34 :: t)).take k).drop n = c :: x ∧ isWs c = false ∧ c ∉ ([123] : Bytes)) := by
    intro k ws' h1
    cases k with
    | zero => exact ⟨_, _, hnil, .inl rfl⟩
    | succ k =>
      rw [List.take_succ_cons]
      rcases take_quote h1 t k with h4 | ⟨i, h4⟩
      · exact ⟨_, _, nextObject_brace_ws h4, .inl (List.drop_eq_nil_of_le (by simp; omega))⟩
      · rw [h4]
        obtain ⟨n, e, h5, h6⟩ := objectKey_never hn (i + 1)
        obtain ⟨e', h7⟩ := nextObject_brace_key (t := t.take i) h1 h5
        refine ⟨_, e', h7, ?_⟩
        have := drop_two [] ws' 123 ((34 :: t).take (i + 1))
        simp only [List.nil_append, List.length_nil, Nat.zero_add] at this
        rw [← List.drop_drop, this]
        exact h6.head (by decide)
  refine never (nextObject_jsound knownBytes_prefix) s fuel h (by omega) (fun _ => hl) hcl (by omega) ?_ ?_ ?_
  · intro k m w he
    obtain ⟨n, e, h1, _⟩ := hcase k ws hw
    rw [hr, h1] at he; simp at he
  · intro k m w he
    obtain ⟨n, e, h1, _⟩ := hcase k [] Ws.nil
    have hn := norm_tok (x := 123) (c := 34) Ws.nil hw (by decide) (by decide) t
    rw [List.nil_append] at hn
    rw [hr, hn] at he
    simp only [List.nil_append] at h1
    rw [h1] at he; simp at he
  · intro k n e he
    right
    intro m w
    rw [hr] at he ⊢
    obtain ⟨n', e', h1, h2⟩ := hcase k ws hw
    rw [h1] at he
    simp only [Prod.mk.injEq] at he
    rw [← he.1]
    rcases h2 with h2 | ⟨c, x, h2, h3, h4⟩
    · rw [h2, hnil]; simp
    · rw [h2, nextObject_other h3 (by simpa using h4)]; simp

/-- `next_key` in front of a comma that is followed by a string that is no key. -/
theorem RJ.nextKey_comma_keyless {ws ws2 t : Bytes} (hr : s.rest = ws ++ 44 :: (ws2 ++ 34 :: t)) (hw : Ws ws) (hw2 : Ws ws2)
    (hn : NoKey t [44, 125]) : ∃ s' e, s.nextKeyBytes fuel = (s', .err e) ∧ ∀ kd, e.type ≠ .io kd := by
  unfold enoughFuel at hf
  have hcase : ∀ k ws' ws2', Ws ws' → Ws ws2' →
      ∃ n e, Jiter.nextKey Jiter.knownBytes ((ws' ++ 44 :: (ws2' ++ 34 :: t)).take k) = (n, .error e) ∧
      (((ws' ++ 44 :: (ws2' ++ 34 :: t)).take k).drop n = [] ∨
        ∃ c x, ((ws' ++ 44 :: (ws2' ++ 34 :: t)).take k).drop n = c :: x ∧ isWs c = false ∧ c ∉ ([44, 125] : Bytes)) := by
    intro k ws' ws2' h1 h2
    rcases take_head (t := ws2' ++ 34 :: t) (c := 44) h1 k with h3 | ⟨j, h3⟩
    · exact ⟨_, _, nextKey_ws h3, .inl (List.drop_length ..)⟩
    · rw [h3]
      rcases take_quote h2 t j with h4 | ⟨i, h4⟩
      · exact ⟨_, _, nextKey_comma_ws h1 h4, .inl (List.drop_eq_nil_of_le (by simp; omega))⟩
      · rw [h4]
        obtain ⟨n, e, h5, h6⟩ := objectKey_never hn (i + 1)
        obtain ⟨e', h7⟩ := nextKey_comma_key (t := t.take i) h1 h2 h5
        refine ⟨_, e', h7, ?_⟩
        rw [← List.drop_drop, drop_two]
        exact h6.head (by decide)
  refine never (nextKey_jsound knownBytes_prefix) s fuel h (by omega) (fun _ => hl) hcl (by omega) ?_ ?_ ?_
  · intro k m w he
    obtain ⟨n, e, h1, _⟩ := hcase k ws ws2 hw hw2
    rw [hr, h1] at he; simp at he
  · intro k m w he
    obtain ⟨n, e, h1, _⟩ := hcase k [] [] Ws.nil Ws.nil
    rw [hr, norm_tok hw hw2 (by decide) (by decide)] at he
    simp only [List.nil_append] at h1
    rw [h1] at he; simp at he
  · intro k n e he
    right
    intro m w
    rw [hr] at he ⊢
    obtain ⟨n', e', h1, h2⟩ := hcase k ws ws2 hw hw2
    rw [h1] at he
    simp only [Prod.mk.injEq] at he
    rw [← he.1]
    rcases h2 with h2 | ⟨c, x, h2, h3, h4⟩
    · rw [h2, nextKey_ws Ws.nil]; simp [jerr]
    · simp only [List.mem_cons, List.not_mem_nil, or_false, not_or] at h4
      rw [h2, ← List.nil_append (c :: x), nextKey_bad Ws.nil h3 h4.1 h4.2]; simp [jerr]

end

end Verif.RJiter
