import Verif.RJiter.StrSpec
import Verif.RJiter.Calls

/-!
# jiter's string functions accept the specified strings
-/

namespace Verif.RJiter

open Jiter

theorem byte_lt (a b : Byte) : a < b ↔ a.toNat < b.toNat := UInt8.lt_iff_toNat_lt
theorem byte_le (a b : Byte) : a ≤ b ↔ a.toNat ≤ b.toNat := UInt8.le_iff_toNat_le
theorem byte_ofNat (n : Nat) : (UInt8.ofNat n).toNat = n % 256 := UInt8.toNat_ofNat'

theorem char_bound (ch : Char) : ch.toNat < 0xD800 ∨ (0xDFFF < ch.toNat ∧ ch.toNat < 0x110000) := ch.valid

/-- Shape of an encoded character. -/
theorem enc_cases (ch : Char) :
    (ch.toNat < 0x80 ∧ enc ch = [UInt8.ofNat ch.toNat]) ∨
    (0x80 ≤ ch.toNat ∧ ch.toNat < 0x800 ∧
      enc ch = [UInt8.ofNat (0xC0 + ch.toNat / 64), UInt8.ofNat (0x80 + ch.toNat % 64)]) ∨
    (0x800 ≤ ch.toNat ∧ ch.toNat < 0x10000 ∧
      enc ch = [UInt8.ofNat (0xE0 + ch.toNat / 4096), UInt8.ofNat (0x80 + ch.toNat / 64 % 64),
        UInt8.ofNat (0x80 + ch.toNat % 64)]) ∨
    (0x10000 ≤ ch.toNat ∧
      enc ch = [UInt8.ofNat (0xF0 + ch.toNat / 262144), UInt8.ofNat (0x80 + ch.toNat / 4096 % 64),
        UInt8.ofNat (0x80 + ch.toNat / 64 % 64), UInt8.ofNat (0x80 + ch.toNat % 64)]) := by
  have hb := char_bound ch
  have e : ch.val.toNat = ch.toNat := rfl
  unfold enc String.utf8EncodeChar
  simp only [e]
  by_cases h1 : ch.toNat ≤ 0x7f
  · left; exact ⟨by omega, by simp [h1]⟩
  · by_cases h2 : ch.toNat ≤ 0x7ff
    · right; left
      refine ⟨by omega, by omega, ?_⟩
      simp only [h1, h2, if_true, if_false]
      rw [show ch.toNat / 64 % 32 + 192 = 192 + ch.toNat / 64 by omega, Nat.add_comm 128]
    · by_cases h3 : ch.toNat ≤ 0xffff
      · right; right; left
        refine ⟨by omega, by omega, ?_⟩
        simp only [h1, h2, h3, if_true, if_false]
        rw [show ch.toNat / 4096 % 16 + 224 = 224 + ch.toNat / 4096 by omega, Nat.add_comm 128, Nat.add_comm 128]
      · right; right; right
        refine ⟨by omega, ?_⟩
        simp only [h1, h2, h3, if_false]
        rw [show ch.toNat / 262144 % 8 + 240 = 240 + ch.toNat / 262144 by omega, Nat.add_comm 128, Nat.add_comm 128,
          Nat.add_comm 128]

theorem encodeUtf8_eq (ch : Char) : encodeUtf8 ch.toNat = enc ch := by
  rcases enc_cases ch with ⟨h1, e⟩ | ⟨h1, h2, e⟩ | ⟨h1, h2, e⟩ | ⟨h1, e⟩
  · rw [e]; simp [encodeUtf8, h1]
  · rw [e]; unfold encodeUtf8; rw [if_neg (by omega), if_pos h2]
  · rw [e]; unfold encodeUtf8; rw [if_neg (by omega), if_neg (by omega), if_pos h2]
  · rw [e]; unfold encodeUtf8; rw [if_neg (by omega), if_neg (by omega), if_neg (by omega)]

theorem isCont_iff (c : Byte) : isCont c = true ↔ 0x80 ≤ c.toNat ∧ c.toNat < 0xC0 := by
  simp only [isCont, Bool.and_eq_true, decide_eq_true_eq, byte_le, byte_lt]
  exact Iff.rfl

/-- First byte of an encoded character, and the rest of it. -/
theorem enc_shape (ch : Char) : ∃ c cs, enc ch = c :: cs ∧ (c.toNat < 0x80 ∨ 0xC0 ≤ c.toNat) ∧
    (∀ x ∈ cs, 0x80 ≤ x.toNat ∧ x.toNat < 0xC0) ∧ cs.length ≤ 3 ∧ (c.toNat < 0x80 → c.toNat = ch.toNat ∧ cs = []) ∧
    (ch.toNat < 0x80 → c.toNat < 0x80) := by
  have hb := char_bound ch
  rcases enc_cases ch with ⟨h1, e⟩ | ⟨h1, h2, e⟩ | ⟨h1, h2, e⟩ | ⟨h1, e⟩
  · refine ⟨_, _, e, ?_, by simp, by simp, ?_, ?_⟩ <;> rw [byte_ofNat] <;> (try simp) <;> omega
  · refine ⟨_, _, e, ?_, ?_, by simp, ?_, by omega⟩
    · rw [byte_ofNat]; omega
    · intro x hx
      simp only [List.mem_cons, List.not_mem_nil, or_false] at hx
      subst hx; rw [byte_ofNat]; omega
    · rw [byte_ofNat]; omega
  · refine ⟨_, _, e, ?_, ?_, by simp, ?_, by omega⟩
    · rw [byte_ofNat]; omega
    · intro x hx
      simp only [List.mem_cons, List.not_mem_nil, or_false] at hx
      rcases hx with rfl | rfl <;> rw [byte_ofNat] <;> omega
    · rw [byte_ofNat]; omega
  · refine ⟨_, _, e, ?_, ?_, by simp, ?_, by omega⟩
    · rw [byte_ofNat]; omega
    · intro x hx
      simp only [List.mem_cons, List.not_mem_nil, or_false] at hx
      rcases hx with rfl | rfl | rfl <;> rw [byte_ofNat] <;> omega
    · rw [byte_ofNat]; omega

theorem utf8Valid_enc (ch : Char) (r : Bytes) : utf8Valid (enc ch ++ r) = utf8Valid r := by
  have hb := char_bound ch
  rcases enc_cases ch with ⟨h1, e⟩ | ⟨h1, h2, e⟩ | ⟨h1, h2, e⟩ | ⟨h1, e⟩
  · rw [e]
    simp only [List.cons_append, List.nil_append]
    rw [utf8Valid.eq_def]
    simp only
    rw [if_pos (by rw [byte_lt, byte_ofNat]; simp; omega)]
  · rw [e]
    simp only [List.cons_append, List.nil_append]
    rw [utf8Valid.eq_def]
    simp only
    rw [if_neg (by rw [byte_lt, byte_ofNat]; simp; omega),
      if_pos (by simp only [Bool.and_eq_true, decide_eq_true_eq, byte_le, byte_lt, byte_ofNat]; simp; omega)]
    rw [(isCont_iff _).mpr (by rw [byte_ofNat]; omega)]
    simp
  · rw [e]
    simp only [List.cons_append, List.nil_append]
    rw [utf8Valid.eq_def]
    simp only
    rw [if_neg (by rw [byte_lt, byte_ofNat]; simp; omega),
      if_neg (by simp only [Bool.and_eq_true, decide_eq_true_eq, byte_le, byte_lt, byte_ofNat]; simp; omega),
      if_pos (by simp only [Bool.and_eq_true, decide_eq_true_eq, byte_le, byte_lt, byte_ofNat]; simp; omega)]
    rw [(isCont_iff _).mpr (by rw [byte_ofNat]; omega), (isCont_iff _).mpr (by rw [byte_ofNat]; omega)]
    have h3 : (UInt8.ofNat (0xE0 + ch.toNat / 4096) != 0xE0 || decide (0xA0 ≤ UInt8.ofNat (0x80 + ch.toNat / 64 % 64))) = true := by
      simp only [Bool.or_eq_true, bne_iff_ne, ne_eq, decide_eq_true_eq, byte_le, byte_ofNat, ← UInt8.toNat_inj]
      simp; omega
    have h4 : (UInt8.ofNat (0xE0 + ch.toNat / 4096) != 0xED || decide (UInt8.ofNat (0x80 + ch.toNat / 64 % 64) < 0xA0)) = true := by
      simp only [Bool.or_eq_true, bne_iff_ne, ne_eq, decide_eq_true_eq, byte_lt, byte_ofNat, ← UInt8.toNat_inj]
      simp; omega
    rw [h3, h4]
    simp
  · rw [e]
    simp only [List.cons_append, List.nil_append]
    rw [utf8Valid.eq_def]
    simp only
    rw [if_neg (by rw [byte_lt, byte_ofNat]; simp; omega),
      if_neg (by simp only [Bool.and_eq_true, decide_eq_true_eq, byte_le, byte_lt, byte_ofNat]; simp; omega),
      if_neg (by simp only [Bool.and_eq_true, decide_eq_true_eq, byte_le, byte_lt, byte_ofNat]; simp; omega),
      if_pos (by simp only [Bool.and_eq_true, decide_eq_true_eq, byte_le, byte_lt, byte_ofNat]; simp; omega)]
    rw [(isCont_iff _).mpr (by rw [byte_ofNat]; omega), (isCont_iff _).mpr (by rw [byte_ofNat]; omega),
      (isCont_iff _).mpr (by rw [byte_ofNat]; omega)]
    have h3 : (UInt8.ofNat (0xF0 + ch.toNat / 262144) != 0xF0 || decide (0x90 ≤ UInt8.ofNat (0x80 + ch.toNat / 4096 % 64))) = true := by
      simp only [Bool.or_eq_true, bne_iff_ne, ne_eq, decide_eq_true_eq, byte_le, byte_ofNat, ← UInt8.toNat_inj]
      simp; omega
    have h4 : (UInt8.ofNat (0xF0 + ch.toNat / 262144) != 0xF4 || decide (UInt8.ofNat (0x80 + ch.toNat / 4096 % 64) < 0x90)) = true := by
      simp only [Bool.or_eq_true, bne_iff_ne, ne_eq, decide_eq_true_eq, byte_lt, byte_ofNat, ← UInt8.toNat_inj]
      simp; omega
    rw [h3, h4]
    simp

theorem utf8Valid_encAll (s : List Char) : utf8Valid (encAll s) = true := by
  induction s with
  | nil => simp [encAll, utf8Valid]
  | cons c s ih => simp only [encAll, List.flatMap_cons] at *; rw [utf8Valid_enc]; exact ih

/-! ### Raw strings -/

/-- A plain byte of a string. -/
def PlainByte (c : Byte) : Prop := c ≠ 34 ∧ c ≠ 92 ∧ ¬ c < 32

theorem enc_plain {ch : Char} (h : PlainChar ch) : ∀ c ∈ enc ch, PlainByte c := by
  obtain ⟨c, cs, e, hc, hcs, _, h1, _⟩ := enc_shape ch
  obtain ⟨h32, hq, hb⟩ := h
  rw [e]
  have hn : ∀ (x : Byte), x.toNat ≥ 128 → PlainByte x := by
    intro x hx
    refine ⟨?_, ?_, ?_⟩
    · intro h; subst h; revert hx; decide
    · intro h; subst h; revert hx; decide
    · rw [byte_lt]; simp; omega
  intro x hx
  rcases List.mem_cons.mp hx with rfl | hx
  · rcases hc with hc | hc
    · have hcc := (h1 hc).1
      refine ⟨?_, ?_, ?_⟩
      · intro h; subst h
        apply hq
        apply Char.ext
        rw [← UInt32.toNat_inj]
        exact hcc.symm
      · intro h; subst h
        apply hb
        apply Char.ext
        rw [← UInt32.toNat_inj]
        exact hcc.symm
      · rw [byte_lt]; simp; omega
    · exact hn _ (by omega)
  · exact hn _ (hcs x hx).1

theorem rawString_plain : ∀ (l r : Bytes) (i : Nat), (∀ c ∈ l, PlainByte c) →
    rawString (l ++ r) i = rawString r (i + l.length) := by
  intro l
  induction l with
  | nil => intro r i _; rfl
  | cons c l ih =>
    intro r i h
    obtain ⟨h1, h2, h3⟩ := h c (by simp)
    rw [List.cons_append, rawString.eq_def]
    simp only [h1, h2, h3, if_false]
    rw [ih r (i + 1) (fun x hx => h x (by simp [hx])), List.length_cons]
    congr 1; omega

theorem hex_plain {c : Byte} {v : Nat} (h : HexDigit c v) : PlainByte c := by
  refine ⟨?_, ?_, ?_⟩
  · intro hc; subst hc; revert h; simp [HexDigit]
  · intro hc; subst hc; revert h; simp [HexDigit]
  · rw [byte_lt]; rcases h with h | h | h <;> simp <;> omega

theorem escape_mem {e : Byte} {x : Char} (h : Escape e x) :
    (e = 34 ∨ e = 92 ∨ e = 47 ∨ e = 98 ∨ e = 102 ∨ e = 110 ∨ e = 114 ∨ e = 116) ∧
    simpleEscape e = some (UInt8.ofNat x.toNat) ∧ x.toNat < 0x80 ∧ e ≠ 117 ∧ e ≠ 85 ∧ e.toNat < 0x80 := by
  simp only [Escape, List.mem_cons, Prod.mk.injEq, List.not_mem_nil, or_false] at h
  rcases h with ⟨rfl, rfl⟩ | ⟨rfl, rfl⟩ | ⟨rfl, rfl⟩ | ⟨rfl, rfl⟩ | ⟨rfl, rfl⟩ | ⟨rfl, rfl⟩ | ⟨rfl, rfl⟩ | ⟨rfl, rfl⟩ <;>
    decide

theorem rawString_body {body : Bytes} (h : RawBody body) : ∀ (t : Bytes) (i : Nat),
    rawString (body ++ 34 :: t) i = .ok (i + body.length) := by
  induction h with
  | nil => intro t i; rw [List.nil_append, rawString.eq_def]; simp
  | char ch r hp _ ih =>
    intro t i
    rw [List.append_assoc, rawString_plain _ _ _ (enc_plain hp), ih, List.length_append]
    congr 1; omega
  | esc e x r he _ ih =>
    intro t i
    rw [List.cons_append, List.cons_append, rawString.eq_def]
    simp only
    rw [if_neg (by decide), if_pos trivial, if_pos (escape_mem he).1, ih]
    simp; omega
  | uni a b c d v r hx _ ih =>
    intro t i
    obtain ⟨x, y, z, w, ha, hb, hc, hd, _⟩ := hx
    rw [List.cons_append, List.cons_append, rawString.eq_def]
    simp only
    rw [if_neg (by decide), if_pos trivial, if_neg (by decide), if_pos trivial,
      if_neg (by simp only [List.cons_append, List.head?_cons, Option.some.injEq]; exact (hex_plain ha).1)]
    have := rawString_plain [a, b, c, d] (r ++ 34 :: t) (i + 2) (by
      intro x hx
      simp only [List.mem_cons, List.not_mem_nil, or_false] at hx
      rcases hx with rfl | rfl | rfl | rfl
      · exact hex_plain ha
      · exact hex_plain hb
      · exact hex_plain hc
      · exact hex_plain hd)
    simp only [List.cons_append, List.nil_append] at this ⊢
    rw [this, ih]
    simp; omega

/-- jiter's `known_bytes` returns the bytes between the quotes. -/
theorem knownBytes_body {body : Bytes} (h : RawBody body) (q : Byte) (t : Bytes) :
    Jiter.knownBytes (q :: (body ++ 34 :: t)) = (body.length + 2, .ok body) := by
  simp only [Jiter.knownBytes, List.drop_succ_cons, List.drop_zero, rawString_body h, Nat.zero_add]
  rw [List.take_left]

/-! ### Decoded strings -/

theorem decodeLoop_plain : ∀ (l r acc : Bytes) (fuel i : Nat), (∀ c ∈ l, PlainByte c) →
    decodeLoop (l.length + fuel) (l ++ r) i acc = decodeLoop fuel r (i + l.length) (acc ++ l) := by
  intro l
  induction l with
  | nil => intro r acc fuel i _; simp
  | cons c l ih =>
    intro r acc fuel i h
    obtain ⟨h1, h2, h3⟩ := h c (by simp)
    rw [List.cons_append, List.length_cons, show l.length + 1 + fuel = (l.length + fuel) + 1 by omega, decodeLoop.eq_def]
    simp only [h1, h2, h3, if_false]
    rw [ih r (acc ++ [c]) fuel (i + 1) (fun x hx => h x (by simp [hx]))]
    rw [List.append_assoc, show i + 1 + l.length = i + (l.length + 1) by omega]
    rfl

theorem hexVal_digit {c : Byte} {v : Nat} (h : HexDigit c v) : hexVal c = some v := by
  unfold hexVal
  simp only [byte_le]
  have e1 : (48 : Byte).toNat = 48 := rfl
  have e2 : (57 : Byte).toNat = 57 := rfl
  have e3 : (97 : Byte).toNat = 97 := rfl
  have e4 : (102 : Byte).toNat = 102 := rfl
  have e5 : (65 : Byte).toNat = 65 := rfl
  have e6 : (70 : Byte).toNat = 70 := rfl
  rw [e1, e2, e3, e4, e5, e6]
  rcases h with ⟨h1, h2, rfl⟩ | ⟨h1, h2, rfl⟩ | ⟨h1, h2, rfl⟩
  · rw [if_pos ⟨h1, h2⟩]
  · rw [if_neg (by omega), if_pos ⟨h1, h2⟩]
  · rw [if_neg (by omega), if_neg (by omega), if_pos ⟨h1, h2⟩]

theorem parseU4_hex {a b c d : Byte} {v : Nat} (h : Hex4 a b c d v) (r : Bytes) (i : Nat) :
    parseU4 (a :: b :: c :: d :: r) i = .ok v := by
  obtain ⟨x, y, z, w, ha, hb, hc, hd, rfl⟩ := h
  simp only [parseU4, hexVal_digit ha, hexVal_digit hb, hexVal_digit hc, hexVal_digit hd]
  congr 1; omega

theorem decodeLoop_body {pairs : Bool} {body : Bytes} {s : List Char} (h : StrBody pairs body s) :
    ∀ (t acc : Bytes) (fuel i : Nat), body.length < fuel →
    decodeLoop fuel (body ++ 34 :: t) i acc = .ok (acc ++ encAll s, i + body.length) := by
  induction h with
  | nil =>
    intro t acc fuel i hf
    obtain ⟨f, rfl⟩ : ∃ f, fuel = f + 1 := ⟨fuel - 1, by omega⟩
    rw [List.nil_append, decodeLoop.eq_def]; simp [encAll]
  | char ch r s hp _ ih =>
    intro t acc fuel i hf
    rw [List.length_append] at hf
    obtain ⟨f, rfl⟩ : ∃ f, fuel = (enc ch).length + f := ⟨fuel - (enc ch).length, by omega⟩
    rw [List.append_assoc, decodeLoop_plain _ _ _ _ _ (enc_plain hp), ih _ _ _ _ (by omega), List.length_append,
      List.append_assoc]
    congr 2; omega
  | esc e x r s he _ ih =>
    intro t acc fuel i hf
    obtain ⟨_, h2, h3, _⟩ := escape_mem he
    obtain ⟨f, rfl⟩ : ∃ f, fuel = f + 1 := ⟨fuel - 1, by omega⟩
    simp only [List.length_cons] at hf
    rw [List.cons_append, List.cons_append, decodeLoop.eq_def]
    simp only
    rw [if_neg (by decide), if_pos trivial, h2]
    simp only
    rw [ih _ _ _ _ (by omega)]
    have hx : enc x = [UInt8.ofNat x.toNat] := by
      rcases enc_cases x with ⟨_, e⟩ | ⟨h, _⟩ | ⟨h, _⟩ | ⟨h, _⟩
      · exact e
      all_goals omega
    rw [show encAll (x :: s) = enc x ++ encAll s from rfl, hx]
    simp; omega
  | uni a b c d ch r s hx _ ih =>
    intro t acc fuel i hf
    obtain ⟨f, rfl⟩ : ∃ f, fuel = f + 1 := ⟨fuel - 1, by omega⟩
    simp only [List.length_cons] at hf
    have hb := char_bound ch
    have hu : unicodeEscape (a :: b :: c :: d :: (r ++ 34 :: t)) (i + 2) = .ok (enc ch, 4) := by
      unfold unicodeEscape
      rw [parseU4_hex hx]
      simp only
      rw [if_neg (by omega), if_neg (by omega), encodeUtf8_eq]
    simp only [List.cons_append]
    rw [decodeLoop.eq_def]
    simp only
    rw [if_neg (by decide), if_pos trivial, show simpleEscape 117 = none from rfl]
    simp only [if_true]
    rw [hu]
    simp only [List.drop_succ_cons, List.drop_zero]
    rw [ih _ _ _ _ (by omega), show encAll (ch :: s) = enc ch ++ encAll s from rfl]
    simp; omega
  | pair a b c d a' b' c' d' hi lo ch r s _ hx1 h1 h2 hx2 h3 h4 hv _ ih =>
    intro t acc fuel i hf
    obtain ⟨f, rfl⟩ : ∃ f, fuel = f + 1 := ⟨fuel - 1, by omega⟩
    simp only [List.length_cons] at hf
    have hu : unicodeEscape (a :: b :: c :: d :: 92 :: 117 :: a' :: b' :: c' :: d' :: (r ++ 34 :: t)) (i + 2) =
        .ok (enc ch, 10) := by
      unfold unicodeEscape
      rw [parseU4_hex hx1]
      simp only
      rw [if_neg (by omega), if_pos ⟨h1, h2⟩]
      simp only [List.drop_succ_cons, List.drop_zero]
      rw [parseU4_hex hx2]
      simp only
      rw [if_pos ⟨h3, h4⟩, ← hv, encodeUtf8_eq]
    simp only [List.cons_append]
    rw [decodeLoop.eq_def]
    simp only
    rw [if_neg (by decide), if_pos trivial, show simpleEscape 117 = none from rfl]
    simp only [if_true]
    rw [hu]
    simp only [List.drop_succ_cons, List.drop_zero]
    rw [ih _ _ _ _ (by omega), show encAll (ch :: s) = enc ch ++ encAll s from rfl]
    simp; omega

/-- jiter's `known_str` returns the UTF-8 encoding of the characters. -/
theorem knownStr_body {pairs : Bool} {body : Bytes} {s : List Char} (h : StrBody pairs body s) (q : Byte) (t : Bytes) :
    Jiter.knownStr (q :: (body ++ 34 :: t)) = (body.length + 2, .ok (encAll s)) := by
  simp only [Jiter.knownStr, decodeString, List.drop_succ_cons, List.drop_zero]
  rw [decodeLoop_body h _ _ _ _ (by simp; omega)]
  simp only [List.nil_append, Nat.zero_add, utf8Valid_encAll, if_true]

/-- A decodable string is a raw string. -/
theorem StrBody.raw {pairs : Bool} {body : Bytes} {s : List Char} (h : StrBody pairs body s) : RawBody body := by
  induction h with
  | nil => exact .nil
  | char ch r s hp _ ih => exact .char ch r hp ih
  | esc e x r s he _ ih => exact .esc e x r he ih
  | uni a b c d ch r s hx _ ih => exact .uni a b c d _ r hx ih
  | pair a b c d a' b' c' d' hi lo ch r s _ hx1 h1 h2 hx2 h3 h4 hv _ ih =>
    exact .uni a b c d _ _ hx1 (.uni a' b' c' d' _ _ hx2 ih)

end Verif.RJiter
