import Verif.RJiter.SkimSpec
import Verif.Scan.Doc

/-!
# Specification vocabulary: the documents that `scan` lets through

A `Val` is a document with its text; `Val.Loose` says what the text may be like. The documents of JSON are loose (see
`Docs.Meets.loose`), but a loose document need not be JSON: see the comments, and the witnesses beside C65.
-/

namespace Verif.Scan

open Verif.RJiter (Spaces Number Blank Skim Weak Doubled)

/-- The text of an atom. Of a string only the bytes are looked at; `strict` says if they are looked at properly (see C65). -/
inductive LooseAtom (strict : Prop) : Bytes → Prop where
  | null : LooseAtom strict [110, 117, 108, 108]
  | true : LooseAtom strict [116, 114, 117, 101]
  | false : LooseAtom strict [102, 97, 108, 115, 101]
  | number (tok : Bytes) (h : Number tok) : LooseAtom strict tok
  | string (body : Bytes) (h : strict → Skim true body) (hw : Weak body) : LooseAtom strict (34 :: (body ++ [34]))

/-- No space in front of the first member. -/
def Members.Opens : Members → Prop
  | .nil => True
  | .cons b _ _ _ _ _ _ => b = []

/-- There is only space behind the brace. -/
def Val.Tight : Val → Prop
  | .obj w _ => Blank w
  | _ => True

mutual
/-- The documents that `scan` lets through. A form feed counts as space, except beside the colon. Behind the brace of an
object that is not an item of an array there can be another one, see `Doubled`. -/
def Val.Loose (strict : Prop) : Val → Prop
  | .atom tok => LooseAtom strict tok
  | .arr w items => Blank w ∧ items.Loose strict
  | .obj w members => (Blank w ∨ Doubled w ∧ members.Opens) ∧ members.Loose strict
@[inherit_doc Val.Loose]
def Items.Loose (strict : Prop) : Items → Prop
  | .nil => True
  | .cons b v a more => Blank b ∧ v.Tight ∧ v.Loose strict ∧ Blank a ∧ more.Loose strict
@[inherit_doc Val.Loose]
def Members.Loose (strict : Prop) : Members → Prop
  | .nil => True
  | .cons b k m m' v a more => Blank b ∧ Skim false k ∧ Spaces m ∧ Blank m' ∧ v.Loose strict ∧
      Blank a ∧ more.Loose strict
end

/-- A stream of such documents; nothing need be between them. -/
def Docs.Loose (strict : Prop) : Docs → Bytes → Prop
  | [], tail => Blank tail
  | (b, v) :: ds, tail => Blank b ∧ v.Loose strict ∧ Docs.Loose strict ds tail

/-- The first byte of `t` does not continue the number in front of it to the beginning of a number, or the number has just `L` bytes. -/
def Val.Parted (L : Nat) : Val → Bytes → Prop
  | .atom tok, t => Number tok → (∀ c b y, t = c :: b → ¬ Number (tok ++ c :: y)) ∨ tok.length = L
  | _, _ => True

/-- No document is a number that is continued by what follows, except one of `L` bytes. -/
def Docs.Parted (L : Nat) : Docs → Bytes → Prop
  | [], _ => True
  | (_, v) :: ds, tail => v.Parted L (Docs.text ds tail) ∧ Docs.Parted L ds tail

end Verif.Scan
