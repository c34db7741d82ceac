import Verif.RJiter.PropsValue

/-!
# Specification vocabulary: what the parser lets through between and inside tokens
-/

namespace Verif.RJiter

/-- The contents of a string of which only the bytes are looked at: no control character, no quote, and one of nine letters
behind a backslash. With `wide`, the four bytes behind `\u` can be anything. -/
inductive Skim (wide : Bool) : Bytes → Prop where
  | nil : Skim wide []
  | byte (c : Byte) (r : Bytes) : 32 ≤ c.toNat → c ≠ 34 → c ≠ 92 → Skim wide r → Skim wide (c :: r)
  | esc (e : Byte) (r : Bytes) : e ∈ [34, 92, 47, 98, 102, 110, 114, 116, 117] → Skim wide r → Skim wide (92 :: e :: r)
  | uni (a b c d : Byte) (r : Bytes) : wide = true → Skim wide r → Skim wide (92 :: 117 :: a :: b :: c :: d :: r)

/-- The contents of a string where a quote can only stand behind a backslash, even one that is itself escaped. -/
inductive Weak : Bytes → Prop where
  | nil : Weak []
  | byte (c : Byte) (r : Bytes) : c ≠ 34 → Weak r → Weak (c :: r)
  | esc (r : Bytes) : Weak r → Weak (92 :: 34 :: r)

/-- What may stand in front of the second brace of an object: nothing, or a string and spaces. -/
def Junk (j : Bytes) : Prop := j = [] ∨ ∃ k w, j = 34 :: (k ++ 34 :: w) ∧ Skim false k ∧ Spaces w

/-- What may stand behind the brace of an object instead of space, because a failed attempt is continued where it stopped: another
brace, with `Junk` in front of it. -/
def Doubled (b : Bytes) : Prop := ∃ j b2, b = j ++ 123 :: b2 ∧ Junk j ∧ Spaces b2

end Verif.RJiter
