import Verif.RJiter.StrLemmas

/-!
# jiter's string functions accept only the specified strings
-/

namespace Verif.RJiter

open Jiter

/-- Decoding byte by byte, without a look at UTF-8. -/
inductive Dec : Bytes → Bytes → Prop where
  | nil : Dec [] []
  | byte (c : Byte) (r v : Bytes) : PlainByte c → Dec r v → Dec (c :: r) (c :: v)
  | esc (e : Byte) (x : Char) (r v : Bytes) : Escape e x → Dec r v → Dec (92 :: e :: r) (enc x ++ v)
  | uni (a b c d : Byte) (ch : Char) (r v : Bytes) : Hex4 a b c d ch.toNat → Dec r v →
      Dec (92 :: 117 :: a :: b :: c :: d :: r) (enc ch ++ v)
  | pair (a b c d a' b' c' d' : Byte) (hi lo : Nat) (ch : Char) (r v : Bytes) :
      Hex4 a b c d hi → 0xD800 ≤ hi → hi ≤ 0xDBFF → Hex4 a' b' c' d' lo → 0xDC00 ≤ lo → lo ≤ 0xDFFF →
      ch.toNat = 0x10000 + (hi - 0xD800) * 0x400 + (lo - 0xDC00) → Dec r v →
      Dec (92 :: 117 :: a :: b :: c :: d :: 92 :: 117 :: a' :: b' :: c' :: d' :: r) (enc ch ++ v)

theorem Dec.append {a x b y : Bytes} (h1 : Dec a x) (h2 : Dec b y) : Dec (a ++ b) (x ++ y) := by
  induction h1 with
  | nil => exact h2
  | byte c r v hp _ ih => exact .byte c _ _ hp ih
  | esc e x r v he _ ih => rw [List.append_assoc]; exact .esc e x _ _ he ih
  | uni a b c d ch r v hx _ ih => rw [List.append_assoc]; exact .uni a b c d ch _ _ hx ih
  | pair a b c d a' b' c' d' hi lo ch r v p1 p2 p3 p4 p5 p6 p7 _ ih =>
    rw [List.append_assoc]; exact .pair a b c d a' b' c' d' hi lo ch _ _ p1 p2 p3 p4 p5 p6 p7 ih

theorem hexVal_some {c : Byte} {v : Nat} (h : hexVal c = some v) : HexDigit c v := by
  unfold hexVal at h
  simp only [byte_le] at h
  have e1 : (48 : Byte).toNat = 48 := rfl
  have e2 : (57 : Byte).toNat = 57 := rfl
  have e3 : (97 : Byte).toNat = 97 := rfl
  have e4 : (102 : Byte).toNat = 102 := rfl
  have e5 : (65 : Byte).toNat = 65 := rfl
  have e6 : (70 : Byte).toNat = 70 := rfl
  rw [e1, e2, e3, e4, e5, e6] at h
  split at h
  · rename_i hh; injection h with h; exact .inl ⟨hh.1, hh.2, h.symm⟩
  · split at h
    · rename_i hh; injection h with h; exact .inr (.inl ⟨hh.1, hh.2, h.symm⟩)
    · split at h
      · rename_i hh; injection h with h; exact .inr (.inr ⟨hh.1, hh.2, h.symm⟩)
      · cases h

theorem HexDigit.lt {c : Byte} {v : Nat} (h : HexDigit c v) : v < 16 := by
  rcases h with h | h | h <;> omega

theorem parseU4_ok {d : Bytes} {i n : Nat} (h : parseU4 d i = .ok n) :
    ∃ a b c e r, d = a :: b :: c :: e :: r ∧ Hex4 a b c e n ∧ n < 0x10000 := by
  match d, h with
  | a :: b :: c :: e :: r, h =>
    simp only [parseU4] at h
    cases ha : hexVal a with
    | none => simp [ha] at h
    | some x =>
      cases hb : hexVal b with
      | none => simp [ha, hb] at h
      | some y =>
        cases hc : hexVal c with
        | none => simp [ha, hb, hc] at h
        | some z =>
          cases hd : hexVal e with
          | none => simp [ha, hb, hc, hd] at h
          | some w =>
            simp only [ha, hb, hc, hd, Except.ok.injEq] at h
            have h1 := hexVal_some ha
            have h2 := hexVal_some hb
            have h3 := hexVal_some hc
            have h4 := hexVal_some hd
            have l1 := h1.lt
            have l2 := h2.lt
            have l3 := h3.lt
            have l4 := h4.lt
            exact ⟨a, b, c, e, r, rfl, ⟨x, y, z, w, h1, h2, h3, h4, by omega⟩, by omega⟩
  | [], h => simp [parseU4] at h
  | [_], h => simp [parseU4] at h
  | [_, _], h => simp [parseU4] at h
  | [_, _, _], h => simp [parseU4] at h

/-- The character with a given code point. -/
theorem exists_char {n : Nat} (h : n < 0xD800 ∨ (0xDFFF < n ∧ n < 0x110000)) : ∃ ch : Char, ch.toNat = n :=
  ⟨Char.ofNatAux n h, by
    show (UInt32.ofNatLT n _).toNat = n
    exact UInt32.toNat_ofNatLT⟩

theorem simpleEscape_some {e x : Byte} (h : simpleEscape e = some x) : ∃ ch : Char, Escape e ch ∧ enc ch = [x] := by
  unfold simpleEscape at h
  by_cases h1 : e = 34
  · subst h1; simp at h; subst h; exact ⟨'"', by simp [Escape], by decide⟩
  by_cases h2 : e = 92
  · subst h2; simp at h; subst h; exact ⟨'\\', by simp [Escape], by decide⟩
  by_cases h3 : e = 47
  · subst h3; simp at h; subst h; exact ⟨'/', by simp [Escape], by decide⟩
  by_cases h4 : e = 98
  · subst h4; simp at h; subst h; exact ⟨'\x08', by simp [Escape], by decide⟩
  by_cases h5 : e = 102
  · subst h5; simp at h; subst h; exact ⟨'\x0c', by simp [Escape], by decide⟩
  by_cases h6 : e = 110
  · subst h6; simp at h; subst h; exact ⟨'\n', by simp [Escape], by decide⟩
  by_cases h7 : e = 114
  · subst h7; simp at h; subst h; exact ⟨'\r', by simp [Escape], by decide⟩
  by_cases h8 : e = 116
  · subst h8; simp at h; subst h; exact ⟨'\t', by simp [Escape], by decide⟩
  simp [h1, h2, h3, h4, h5, h6, h7, h8] at h

/-- A success of `\u`: one unit, or a surrogate pair. -/
theorem unicodeEscape_ok {d bs : Bytes} {i n : Nat} (h : unicodeEscape d i = .ok (bs, n)) :
    (∃ a b c e r ch, d = a :: b :: c :: e :: r ∧ Hex4 a b c e ch.toNat ∧ bs = enc ch ∧ n = 4) ∨
    (∃ a b c e a' b' c' e' r hi lo, ∃ ch : Char, d = a :: b :: c :: e :: 92 :: 117 :: a' :: b' :: c' :: e' :: r ∧
      Hex4 a b c e hi ∧ 0xD800 ≤ hi ∧ hi ≤ 0xDBFF ∧ Hex4 a' b' c' e' lo ∧ 0xDC00 ≤ lo ∧ lo ≤ 0xDFFF ∧
      ch.toNat = 0x10000 + (hi - 0xD800) * 0x400 + (lo - 0xDC00) ∧ bs = enc ch ∧ n = 10) := by
  unfold unicodeEscape at h
  cases hp : parseU4 d i with
  | error e => simp [hp] at h
  | ok v =>
    obtain ⟨a, b, c, e, r, rfl, hx, hlt⟩ := parseU4_ok hp
    simp only [hp] at h
    by_cases h1 : 0xDC00 ≤ v ∧ v ≤ 0xDFFF
    · rw [if_pos h1] at h; cases h
    · rw [if_neg h1] at h
      by_cases h2 : 0xD800 ≤ v ∧ v ≤ 0xDBFF
      · rw [if_pos h2] at h
        simp only [List.drop_succ_cons, List.drop_zero] at h
        split at h
        · rename_i d2
          cases hp2 : parseU4 d2 (i + 6) with
          | error e => simp [hp2] at h
          | ok v2 =>
            obtain ⟨a', b', c', e', r', rfl, hx', hlt'⟩ := parseU4_ok hp2
            simp only [hp2] at h
            split at h
            · rename_i h3
              injection h with h
              injection h with h4 h5
              obtain ⟨ch, hch⟩ := exists_char (n := 0x10000 + (v - 0xD800) * 0x400 + (v2 - 0xDC00)) (by omega)
              right
              exact ⟨a, b, c, e, a', b', c', e', r', v, v2, ch, rfl, hx, h2.1, h2.2, hx', h3.1, h3.2, hch,
                by rw [← h4, ← hch, encodeUtf8_eq], h5.symm⟩
            · cases h
        all_goals cases h
      · rw [if_neg h2] at h
        injection h with h
        injection h with h4 h5
        obtain ⟨ch, hch⟩ := exists_char (n := v) (by omega)
        left
        exact ⟨a, b, c, e, r, ch, rfl, by rw [hch]; exact hx, by rw [← h4, ← hch, encodeUtf8_eq], h5.symm⟩

theorem decodeLoop_ok : ∀ (fuel : Nat) (d acc s : Bytes) (i n : Nat), decodeLoop fuel d i acc = .ok (s, n) →
    ∃ body t v, d = body ++ 34 :: t ∧ n = i + body.length ∧ s = acc ++ v ∧ Dec body v := by
  intro fuel
  induction fuel with
  | zero => intro d acc s i n h; simp [decodeLoop] at h
  | succ fuel ih =>
    intro d acc s i n h
    rw [decodeLoop.eq_def] at h
    cases d with
    | nil => simp at h
    | cons c cs =>
      simp only at h
      by_cases h1 : c = 34
      · rw [if_pos h1] at h
        injection h with h
        injection h with h2 h3
        exact ⟨[], cs, [], by rw [h1]; rfl, by simp [h3], by simp [h2], .nil⟩
      · rw [if_neg h1] at h
        by_cases h2 : c = 92
        · rw [if_pos h2] at h
          subst h2
          cases cs with
          | nil => simp at h
          | cons e cs' =>
            simp only at h
            cases hse : simpleEscape e with
            | some x =>
              rw [hse] at h
              simp only at h
              obtain ⟨ch, he, henc⟩ := simpleEscape_some hse
              obtain ⟨body, t, v, rfl, rfl, rfl, hd⟩ := ih _ _ _ _ _ h
              refine ⟨92 :: e :: body, t, enc ch ++ v, rfl, by simp; omega, by rw [henc, List.append_assoc], .esc e ch _ _ he hd⟩
            | none =>
              rw [hse] at h
              simp only at h
              by_cases h3 : e = 117
              · rw [if_pos h3] at h
                subst h3
                cases hu : unicodeEscape cs' (i + 2) with
                | error er => rw [hu] at h; simp at h
                | ok p =>
                  obtain ⟨bs, m⟩ := p
                  rw [hu] at h
                  simp only at h
                  obtain ⟨body, t, v, hd1, rfl, rfl, hd⟩ := ih _ _ _ _ _ h
                  rcases unicodeEscape_ok hu with ⟨a, b, c, e, r, ch, rfl, hx, rfl, rfl⟩ |
                    ⟨a, b, c, e, a', b', c', e', r, hi, lo, ch, rfl, p1, p2, p3, p4, p5, p6, p7, rfl, rfl⟩
                  · simp only [List.drop_succ_cons, List.drop_zero] at hd1
                    subst hd1
                    exact ⟨92 :: 117 :: a :: b :: c :: e :: body, t, enc ch ++ v, rfl, by simp; omega,
                      by rw [List.append_assoc], .uni a b c e ch _ _ hx hd⟩
                  · simp only [List.drop_succ_cons, List.drop_zero] at hd1
                    subst hd1
                    exact ⟨92 :: 117 :: a :: b :: c :: e :: 92 :: 117 :: a' :: b' :: c' :: e' :: body, t, enc ch ++ v, rfl,
                      by simp; omega, by rw [List.append_assoc],
                      .pair a b c e a' b' c' e' hi lo ch _ _ p1 p2 p3 p4 p5 p6 p7 hd⟩
              · rw [if_neg h3] at h; cases h
        · rw [if_neg h2] at h
          by_cases h3 : c < 32
          · rw [if_pos h3] at h; cases h
          · rw [if_neg h3] at h
            obtain ⟨body, t, v, rfl, rfl, rfl, hd⟩ := ih _ _ _ _ _ h
            exact ⟨c :: body, t, c :: v, rfl, by simp; omega, by rw [List.append_assoc]; rfl, .byte c _ _ ⟨h1, h2, h3⟩ hd⟩

/-! ### UTF-8 -/

/-- A well-formed string starts with an encoded character. -/
theorem utf8Valid_cons {a : Byte} {r : Bytes} (h : utf8Valid (a :: r) = true) :
    ∃ (ch : Char) (r' : Bytes), a :: r = enc ch ++ r' ∧ utf8Valid r' = true := by
  rw [utf8Valid.eq_def] at h
  simp only at h
  have key : ∀ (n : Nat) (l r' : Bytes) (hn : n < 0xD800 ∨ (0xDFFF < n ∧ n < 0x110000)),
      encodeUtf8 n = l → a :: r = l ++ r' → utf8Valid r' = true →
      ∃ (ch : Char) (r' : Bytes), a :: r = enc ch ++ r' ∧ utf8Valid r' = true := by
    intro n l r' hn hl he hv
    obtain ⟨ch, rfl⟩ := exists_char hn
    rw [encodeUtf8_eq] at hl
    exact ⟨ch, r', by rw [he, hl], hv⟩
  have hof : ∀ (x : Byte) (n : Nat), n = x.toNat → UInt8.ofNat n = x := by
    intro x n hn; rw [hn]; exact UInt8.ofNat_toNat
  by_cases h1 : a < 0x80
  · rw [if_pos h1] at h
    rw [byte_lt] at h1
    have : (0x80 : Byte).toNat = 0x80 := rfl
    refine key a.toNat [a] r (by omega) ?_ rfl h
    unfold encodeUtf8
    rw [if_pos (by omega), hof a _ rfl]
  · rw [if_neg h1] at h
    rw [byte_lt] at h1
    by_cases h2 : (0xC2 ≤ a && a < 0xE0) = true
    · rw [if_pos h2] at h
      simp only [Bool.and_eq_true, decide_eq_true_eq, byte_le, byte_lt] at h2
      cases r with
      | nil => simp at h
      | cons b r =>
        simp only [Bool.and_eq_true, isCont_iff] at h
        obtain ⟨hb, hv⟩ := h
        have e1 : (0xC2 : Byte).toNat = 0xC2 := rfl
        have e2 : (0xE0 : Byte).toNat = 0xE0 := rfl
        refine key ((a.toNat - 0xC0) * 64 + (b.toNat - 0x80)) [a, b] r (by omega) ?_ rfl hv
        unfold encodeUtf8
        rw [if_neg (by omega), if_pos (by omega), hof a _ (by omega), hof b _ (by omega)]
    · rw [if_neg h2] at h
      simp only [Bool.and_eq_true, decide_eq_true_eq, byte_le, byte_lt] at h2
      by_cases h3 : (0xE0 ≤ a && a < 0xF0) = true
      · rw [if_pos h3] at h
        simp only [Bool.and_eq_true, decide_eq_true_eq, byte_le, byte_lt] at h3
        match r, h with
        | b :: c :: r, h =>
          simp only [Bool.and_eq_true, isCont_iff, Bool.or_eq_true, bne_iff_ne, ne_eq, decide_eq_true_eq, byte_le, byte_lt,
            ← UInt8.toNat_inj] at h
          obtain ⟨⟨⟨⟨hb, hc⟩, he0⟩, hed⟩, hv⟩ := h
          have e1 : (0xA0 : Byte).toNat = 0xA0 := rfl
          have e2 : (0xE0 : Byte).toNat = 0xE0 := rfl
          have e3 : (0xED : Byte).toNat = 0xED := rfl
          have e4 : (0xF0 : Byte).toNat = 0xF0 := rfl
          rw [e1, e2] at he0
          rw [e1, e3] at hed
          rw [e2, e4] at h3
          refine key ((a.toNat - 0xE0) * 4096 + (b.toNat - 0x80) * 64 + (c.toNat - 0x80)) [a, b, c] r (by omega) ?_ rfl hv
          unfold encodeUtf8
          rw [if_neg (by omega), if_neg (by omega), if_pos (by omega), hof a _ (by omega), hof b _ (by omega), hof c _ (by omega)]
        | [], h => simp at h
        | [_], h => simp at h
      · rw [if_neg h3] at h
        by_cases h4 : (0xF0 ≤ a && a < 0xF5) = true
        · rw [if_pos h4] at h
          simp only [Bool.and_eq_true, decide_eq_true_eq, byte_le, byte_lt] at h4
          match r, h with
          | b :: c :: d :: r, h =>
            simp only [Bool.and_eq_true, isCont_iff, Bool.or_eq_true, bne_iff_ne, ne_eq, decide_eq_true_eq, byte_le, byte_lt,
              ← UInt8.toNat_inj] at h
            obtain ⟨⟨⟨⟨⟨hb, hc⟩, hd⟩, he0⟩, hed⟩, hv⟩ := h
            have e1 : (0x90 : Byte).toNat = 0x90 := rfl
            have e2 : (0xF0 : Byte).toNat = 0xF0 := rfl
            have e3 : (0xF4 : Byte).toNat = 0xF4 := rfl
            have e4 : (0xF5 : Byte).toNat = 0xF5 := rfl
            rw [e1, e2] at he0
            rw [e1, e3] at hed
            rw [e2, e4] at h4
            refine key ((a.toNat - 0xF0) * 262144 + (b.toNat - 0x80) * 4096 + (c.toNat - 0x80) * 64 + (d.toNat - 0x80))
              [a, b, c, d] r (by omega) ?_ rfl hv
            unfold encodeUtf8
            rw [if_neg (by omega), if_neg (by omega), if_neg (by omega), hof a _ (by omega), hof b _ (by omega),
              hof c _ (by omega), hof d _ (by omega)]
          | [], h => simp at h
          | [_], h => simp at h
          | [_, _], h => simp at h
        · rw [if_neg h4] at h; cases h

theorem utf8Valid_chars : ∀ (n : Nat) (v : Bytes), v.length ≤ n → utf8Valid v = true → ∃ s, v = encAll s := by
  intro n
  induction n with
  | zero =>
    intro v hn _
    exact ⟨[], List.length_eq_zero_iff.mp (by omega)⟩
  | succ n ih =>
    intro v hn hv
    cases v with
    | nil => exact ⟨[], rfl⟩
    | cons a r =>
      obtain ⟨ch, r', he, hv'⟩ := utf8Valid_cons hv
      obtain ⟨c, cs, henc, _⟩ := enc_shape ch
      have hl := congrArg List.length he
      rw [henc, List.length_append, List.length_cons, List.length_cons] at hl
      rw [List.length_cons] at hn
      obtain ⟨s, rfl⟩ := ih r' (by omega) hv'
      exact ⟨ch :: s, he⟩

theorem utf8Valid_append {a b : Bytes} (h1 : utf8Valid a = true) (h2 : utf8Valid b = true) : utf8Valid (a ++ b) = true := by
  obtain ⟨s, rfl⟩ := utf8Valid_chars _ a (Nat.le_refl _) h1
  induction s with
  | nil => exact h2
  | cons c s ih =>
    show utf8Valid (enc c ++ encAll s ++ b) = true
    rw [List.append_assoc, utf8Valid_enc]
    exact ih (utf8Valid_encAll s)

/-- The encoding is a prefix code. -/
theorem enc_inj {x c : Char} {v w : Bytes} (h : enc x ++ v = enc c ++ w) : x = c ∧ v = w := by
  have hx := char_bound x
  have hc := char_bound c
  have fin : x.toNat = c.toNat → x = c ∧ v = w := by
    intro hn
    have : x = c := by apply Char.ext; rw [← UInt32.toNat_inj]; exact hn
    subst this
    exact ⟨rfl, List.append_cancel_left h⟩
  apply fin
  have inj : ∀ m n : Nat, UInt8.ofNat m = UInt8.ofNat n → m % 256 = n % 256 := by
    intro m n hmn
    have := congrArg UInt8.toNat hmn
    rwa [byte_ofNat, byte_ofNat] at this
  rcases enc_cases x with ⟨a1, e1⟩ | ⟨a1, a2, e1⟩ | ⟨a1, a2, e1⟩ | ⟨a1, e1⟩ <;>
    rcases enc_cases c with ⟨b1, e2⟩ | ⟨b1, b2, e2⟩ | ⟨b1, b2, e2⟩ | ⟨b1, e2⟩ <;>
    rw [e1, e2] at h <;>
    simp only [List.cons_append, List.nil_append, List.cons.injEq] at h
  all_goals have k1 := inj _ _ h.1
  all_goals first
    | (have k2 := inj _ _ h.2.1; have k3 := inj _ _ h.2.2.1; have k4 := inj _ _ h.2.2.2.1; omega)
    | (have k2 := inj _ _ h.2.1; have k3 := inj _ _ h.2.2.1; omega)
    | (have k2 := inj _ _ h.2.1; omega)
    | omega

/-- Characters are cut only between them. -/
theorem enc_cut {c x : Char} {a b v : Bytes} (h : enc c ++ b = a ++ (enc x ++ v)) (ha : a ≠ []) :
    ∃ a', a = enc c ++ a' := by
  obtain ⟨p, ps, hp, _, hps, _⟩ := enc_shape c
  obtain ⟨q, qs, hq, hq1, _⟩ := enc_shape x
  by_cases hl : (enc c).length ≤ a.length
  · have h1 := congrArg (List.take (enc c).length) h
    rw [List.take_left, List.take_append_of_le_length hl] at h1
    refine ⟨a.drop (enc c).length, ?_⟩
    have := List.take_append_drop (enc c).length a
    rw [← h1] at this
    exact this.symm
  · exfalso
    have hal : 0 < a.length := List.length_pos_iff.mpr ha
    have h1 : (enc c ++ b)[a.length]? = (a ++ (enc x ++ v))[a.length]? := by rw [h]
    rw [List.getElem?_append_right (Nat.le_refl _), Nat.sub_self, hq, List.cons_append, List.getElem?_cons_zero,
      List.getElem?_append_left (by omega), hp] at h1
    obtain ⟨m, hm⟩ : ∃ m, a.length = m + 1 := ⟨a.length - 1, by omega⟩
    rw [hm, List.getElem?_cons_succ] at h1
    have := hps q (List.mem_of_getElem? h1)
    omega

/-- Decoded bytes that are well-formed UTF-8 come from characters. -/
theorem Dec.chars {body v : Bytes} (h : Dec body v) : ∀ s, v = encAll s → StrBody true body s := by
  -- plain bytes may be the beginning of a character: collect them first
  have key : ∀ {r v : Bytes}, Dec r v → ∀ (a : Bytes), (∀ c ∈ a, PlainByte c) → ∀ s, a ++ v = encAll s → StrBody true (a ++ r) s := by
    intro r v h
    have plain : ∀ (a : Bytes), (∀ c ∈ a, PlainByte c) → ∀ (s : List Char) (r : Bytes), a = encAll s →
        ∀ s', StrBody true r s' → StrBody true (a ++ r) (s ++ s') := by
      intro a ha s
      induction s generalizing a with
      | nil => intro r hs s' hr; rw [hs]; exact hr
      | cons c s ih =>
        intro r hs s' hr
        rw [show encAll (c :: s) = enc c ++ encAll s from rfl] at hs
        rw [hs, List.append_assoc]
        refine .char c _ _ ?_ (ih (encAll s) (fun x hx => ha x (by rw [hs]; exact List.mem_append_right _ hx)) r rfl s' hr)
        have hp : ∀ x ∈ enc c, PlainByte x := fun x hx => ha x (by rw [hs]; exact List.mem_append_left _ hx)
        obtain ⟨p, ps, he, hpp, _, _, h1, h2⟩ := enc_shape c
        have hq := hp p (by rw [he]; simp)
        refine ⟨?_, ?_, ?_⟩
        · by_cases hlt : c.toNat < 0x80
          · have := h1 (h2 hlt)
            have h3 := hq.2.2
            rw [byte_lt] at h3
            have : (32 : Byte).toNat = 32 := rfl
            omega
          · omega
        · intro hc; subst hc
          have : enc '"' = [34] := by decide
          rw [this] at he
          injection he with he _
          exact hq.1 he.symm
        · intro hc; subst hc
          have : enc '\\' = [92] := by decide
          rw [this] at he
          injection he with he _
          exact hq.2.1 he.symm
    -- an escape behind plain bytes
    have step : ∀ (x : Char) (v : Bytes) (a : Bytes), (∀ c ∈ a, PlainByte c) → ∀ s, a ++ (enc x ++ v) = encAll s →
        ∃ s1 s2, s = s1 ++ x :: s2 ∧ a = encAll s1 ∧ v = encAll s2 := by
      intro x v a ha s hs
      induction s generalizing a with
      | nil =>
        obtain ⟨p, ps, he, _⟩ := enc_shape x
        rw [he] at hs
        have := congrArg List.length hs
        simp [encAll] at this
      | cons c s ih =>
        rw [show encAll (c :: s) = enc c ++ encAll s from rfl] at hs
        by_cases ha0 : a = []
        · subst ha0
          rw [List.nil_append] at hs
          obtain ⟨rfl, h2⟩ := enc_inj hs
          exact ⟨[], s, rfl, rfl, h2⟩
        · obtain ⟨a', rfl⟩ := enc_cut hs.symm ha0
          rw [List.append_assoc] at hs
          obtain ⟨s1, s2, h1, h2, h3⟩ := ih a' (fun c hc => ha c (List.mem_append_right _ hc)) (List.append_cancel_left hs)
          exact ⟨c :: s1, s2, by rw [h1]; rfl, by rw [h2]; rfl, h3⟩
    induction h with
    | nil =>
      intro a ha s hs
      rw [List.append_nil] at hs ⊢
      have := plain a ha s [] hs [] .nil
      rwa [List.append_nil, List.append_nil] at this
    | byte c r v hp _ ih =>
      intro a ha s hs
      have := ih (a ++ [c]) (by
        intro x hx
        rcases List.mem_append.mp hx with hx | hx
        · exact ha x hx
        · simp only [List.mem_cons, List.not_mem_nil, or_false] at hx; rw [hx]; exact hp) s (by
        rw [List.append_assoc]; exact hs)
      rwa [List.append_assoc] at this
    | esc e x r v he _ ih =>
      intro a ha s hs
      obtain ⟨s1, s2, rfl, h1, h2⟩ := step x v a ha s hs
      exact plain a ha s1 _ h1 _ (.esc e x _ _ he (ih [] (by simp) s2 h2))
    | uni p q c d x r v hx _ ih =>
      intro a ha s hs
      obtain ⟨s1, s2, rfl, h1, h2⟩ := step x v a ha s hs
      exact plain a ha s1 _ h1 _ (.uni p q c d x _ _ hx (ih [] (by simp) s2 h2))
    | pair p q c d a' b' c' d' hi lo x r v p1 p2 p3 p4 p5 p6 p7 _ ih =>
      intro a ha s hs
      obtain ⟨s1, s2, rfl, h1, h2⟩ := step x v a ha s hs
      exact plain a ha s1 _ h1 _ (.pair p q c d a' b' c' d' hi lo x _ _ rfl p1 p2 p3 p4 p5 p6 p7 (ih [] (by simp) s2 h2))
  intro s hs
  exact key h [] (by simp) s hs

/-- jiter's `known_str` succeeds only on a specified string, and returns the encoding of its characters. -/
theorem knownStr_ok {d : Bytes} {n : Nat} {v : Bytes} (h : knownStr d = (n, .ok v)) :
    ∃ body t, d.drop 1 = body ++ 34 :: t ∧ n = body.length + 2 ∧ Dec body v ∧ utf8Valid v = true := by
  simp only [knownStr, decodeString] at h
  cases hd : decodeLoop ((d.drop 1).length + 1) (d.drop 1) 0 [] with
  | error e => rw [hd] at h; simp [jerr] at h
  | ok p =>
    obtain ⟨s, m⟩ := p
    simp only [hd] at h
    by_cases hu : utf8Valid s = true
    · rw [if_pos hu] at h
      simp only [Prod.mk.injEq, Except.ok.injEq] at h
      obtain ⟨h1, rfl⟩ := h
      obtain ⟨body, t, v, e1, e2, e3, e4⟩ := decodeLoop_ok _ _ _ _ _ _ hd
      rw [List.nil_append] at e3
      subst e3
      exact ⟨body, t, e1, by omega, e4, hu⟩
    · rw [if_neg hu] at h
      simp [jerr] at h

theorem rawString_ok : ∀ (fuel : Nat) (d : Bytes) (i n : Nat), d.length ≤ fuel → rawString d i = .ok n →
    ∃ body t, d = body ++ 34 :: t ∧ n = i + body.length := by
  intro fuel
  induction fuel with
  | zero =>
    intro d i n hl h
    rw [List.length_eq_zero_iff.mp (Nat.le_zero.mp hl)] at h
    simp [rawString] at h
  | succ fuel ih =>
    intro d i n hl h
    rw [rawString.eq_def] at h
    cases d with
    | nil => simp at h
    | cons c cs =>
      simp only at h
      rw [List.length_cons] at hl
      by_cases h1 : c = 34
      · rw [if_pos h1] at h
        injection h with h
        exact ⟨[], cs, by rw [h1]; rfl, by simp [h]⟩
      · rw [if_neg h1] at h
        have next : ∀ (pre cs' : Bytes), c :: cs = pre ++ cs' → pre.length ≠ 0 → rawString cs' (i + pre.length) = .ok n →
            ∃ body t, c :: cs = body ++ 34 :: t ∧ n = i + body.length := by
          intro pre cs' he hp hr
          have hlen := congrArg List.length he
          rw [List.length_cons, List.length_append] at hlen
          obtain ⟨body, t, rfl, rfl⟩ := ih cs' _ _ (by omega) hr
          exact ⟨pre ++ body, t, by rw [he, List.append_assoc], by rw [List.length_append]; omega⟩
        by_cases h2 : c = 92
        · rw [if_pos h2] at h
          cases cs with
          | nil => simp at h
          | cons e cs' =>
            simp only at h
            split at h
            · exact next [c, e] cs' rfl (by simp) h
            · split at h
              · split at h
                · cases h
                · exact next [c, e] cs' rfl (by simp) h
              · cases h
        · rw [if_neg h2] at h
          by_cases h3 : c < 32
          · rw [if_pos h3] at h; cases h
          · rw [if_neg h3] at h
            exact next [c] cs rfl (by simp) h

/-- jiter's `known_bytes` returns the bytes between two quotes. -/
theorem knownBytes_ok {d : Bytes} {n : Nat} {v : Bytes} (h : knownBytes d = (n, .ok v)) :
    ∃ t, d.drop 1 = v ++ 34 :: t ∧ n = v.length + 2 := by
  simp only [knownBytes] at h
  cases hd : rawString (d.drop 1) 0 with
  | error e => rw [hd] at h; simp [jerr] at h
  | ok m =>
    simp only [hd, Prod.mk.injEq, Except.ok.injEq] at h
    obtain ⟨body, t, e1, e2⟩ := rawString_ok _ _ _ _ (Nat.le_refl _) hd
    obtain ⟨h1, h2⟩ := h
    rw [e1, e2, Nat.zero_add, List.take_left] at h2
    subst h2
    exact ⟨t, e1, by omega⟩

end Verif.RJiter
