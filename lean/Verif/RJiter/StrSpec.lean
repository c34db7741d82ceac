import Verif.RJiter.Jiter

/-!
# Specification of JSON strings

Independent of the model of jiter's decoder: characters are Lean's `Char`, encoded with Lean's
`String.utf8EncodeChar`.
-/

namespace Verif.RJiter

/-- UTF-8 encoding of a character (Lean core). -/
abbrev enc (ch : Char) : Bytes := String.utf8EncodeChar ch

/-- The one-letter escapes of RFC 8259: the byte after the backslash, and what it stands for. -/
def Escape (e : Byte) (x : Char) : Prop :=
  (e, x) ∈ [((34 : Byte), '"'), (92, '\\'), (47, '/'), (98, '\x08'), (102, '\x0c'), (110, '\n'), (114, '\r'), (116, '\t')]

/-- A hexadecimal digit and its value. -/
def HexDigit (c : Byte) (v : Nat) : Prop :=
  (48 ≤ c.toNat ∧ c.toNat ≤ 57 ∧ v = c.toNat - 48) ∨ (97 ≤ c.toNat ∧ c.toNat ≤ 102 ∧ v = c.toNat - 87) ∨
  (65 ≤ c.toNat ∧ c.toNat ≤ 70 ∧ v = c.toNat - 55)

/-- Four hexadecimal digits and their value. -/
def Hex4 (a b c d : Byte) (v : Nat) : Prop :=
  ∃ x y z w, HexDigit a x ∧ HexDigit b y ∧ HexDigit c z ∧ HexDigit d w ∧ v = x * 4096 + y * 256 + z * 16 + w

/-- A character that may stand for itself in a string. -/
def PlainChar (ch : Char) : Prop := 32 ≤ ch.toNat ∧ ch ≠ '"' ∧ ch ≠ '\\'

/-- What may stand between the quotes: characters, one-letter escapes, `\uXXXX`. -/
inductive RawBody : Bytes → Prop where
  | nil : RawBody []
  | char (ch : Char) (r : Bytes) : PlainChar ch → RawBody r → RawBody (enc ch ++ r)
  | esc (e : Byte) (x : Char) (r : Bytes) : Escape e x → RawBody r → RawBody (92 :: e :: r)
  | uni (a b c d : Byte) (v : Nat) (r : Bytes) : Hex4 a b c d v → RawBody r → RawBody (92 :: 117 :: a :: b :: c :: d :: r)

/-- A string body and the characters it stands for. Without `pairs` there is no surrogate pair in it. -/
inductive StrBody (pairs : Bool) : Bytes → List Char → Prop where
  | nil : StrBody pairs [] []
  | char (ch : Char) (r : Bytes) (s : List Char) : PlainChar ch → StrBody pairs r s → StrBody pairs (enc ch ++ r) (ch :: s)
  | esc (e : Byte) (x : Char) (r : Bytes) (s : List Char) : Escape e x → StrBody pairs r s →
      StrBody pairs (92 :: e :: r) (x :: s)
  | uni (a b c d : Byte) (ch : Char) (r : Bytes) (s : List Char) : Hex4 a b c d ch.toNat → StrBody pairs r s →
      StrBody pairs (92 :: 117 :: a :: b :: c :: d :: r) (ch :: s)
  | pair (a b c d a' b' c' d' : Byte) (hi lo : Nat) (ch : Char) (r : Bytes) (s : List Char) : pairs = true →
      Hex4 a b c d hi → 0xD800 ≤ hi → hi ≤ 0xDBFF → Hex4 a' b' c' d' lo → 0xDC00 ≤ lo → lo ≤ 0xDFFF →
      ch.toNat = 0x10000 + (hi - 0xD800) * 0x400 + (lo - 0xDC00) → StrBody pairs r s →
      StrBody pairs (92 :: 117 :: a :: b :: c :: d :: 92 :: 117 :: a' :: b' :: c' :: d' :: r) (ch :: s)

/-- UTF-8 encoding of a list of characters. -/
def encAll (s : List Char) : Bytes := s.flatMap enc

end Verif.RJiter
