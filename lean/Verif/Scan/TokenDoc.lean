import Verif.Scan.LooseDoc

/-!
# Specification vocabulary: what `scan` lets through if it has SSE tokens

As `Val.Loose`, but in the place of a document, and of an item of an array that is a document, there can be a token.
-/

namespace Verif.Scan

open Verif.RJiter (Spaces Number Blank Skim Doubled)

/-- The text that is skipped as a token: one of the tokens `T`. A number that just fills the buffer of `L` bytes can stand in front of it and is
skipped with it. -/
def Skipped (T : List Bytes) (L : Nat) (text : Bytes) : Prop :=
  ∃ t ∈ T, text = t ∨ ∃ num, Number num ∧ num.length = L ∧ text = num ++ t

/-- The value is no value but a token. -/
def Val.Skipped (T : List Bytes) (L : Nat) : Val → Prop
  | .atom text => Scan.Skipped T L text
  | _ => False

/-- The value is a token with a comma behind it. -/
def Val.Trailing (T : List Bytes) (L : Nat) (v : Val) : Prop := ∃ text, v = .atom (text ++ [44]) ∧ Scan.Skipped T L text

mutual
/-- The documents that `scan` lets through, see `Val.Loose`. The value may be a token if `may` holds; `d` is the number of the entries of the
context stack at the value. Behind a token that is the last item of its array there may be a comma. -/
def Val.Lax (T : List Bytes) (L : Nat) (strict : Prop) (may : Prop) (d : Nat) : Val → Prop
  | .atom tok => LooseAtom strict tok ∨ may ∧ Scan.Skipped T L tok
  | .arr w items => Blank w ∧ items.Lax T L strict (d + 1)
  | .obj w members => (Blank w ∨ Doubled w ∧ members.Opens) ∧ members.Lax T L strict (d + 1)
@[inherit_doc Val.Lax]
def Items.Lax (T : List Bytes) (L : Nat) (strict : Prop) (d : Nat) : Items → Prop
  | .nil => True
  | .cons b v a more => Blank b ∧ v.Tight ∧ (v.Lax T L strict (d = 2) d ∨ d = 2 ∧ v.Trailing T L ∧ a = [] ∧ more = .nil) ∧ Blank a ∧
      more.Lax T L strict d
@[inherit_doc Val.Lax]
def Members.Lax (T : List Bytes) (L : Nat) (strict : Prop) (d : Nat) : Members → Prop
  | .nil => True
  | .cons b k m m' v a more => Blank b ∧ Skim false k ∧ Spaces m ∧ Blank m' ∧ v.Lax T L strict False d ∧ Blank a ∧ more.Lax T L strict d
end

/-- A stream of such documents and tokens. -/
def Docs.Lax (T : List Bytes) (L : Nat) (strict : Prop) (d : Nat) : Docs → Bytes → Prop
  | [], tail => Blank tail
  | (b, v) :: ds, tail => Blank b ∧ v.Lax T L strict True d ∧ Docs.Lax T L strict d ds tail

/-- No document that is a number is continued by what follows it, see `Docs.Parted`. This is not said of tokens. -/
def Docs.Severed (T : List Bytes) (L : Nat) : Docs → Bytes → Prop
  | [], _ => True
  | (_, v) :: ds, tail => (v.Parted L (Docs.text ds tail) ∨ v.Skipped T L) ∧ Docs.Severed T L ds tail

end Verif.Scan
