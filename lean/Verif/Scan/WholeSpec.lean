import Verif.Scan.Doc
import Verif.RJiter.JiterValue
import Verif.RJiter.SkimSpec

/-!
# Specification: what a document stands for

Nothing here refers to jiter or to the buffer; `Build` only says how results are put together.
-/

namespace Verif.Scan

open Verif.RJiter (Spaces RawBody Number EndsNumber Build StrBody encAll IntPart Digit JsonValue Skim)

/-- What is asked of numbers, and what string bodies stand for. -/
structure Reading where
  num : Bytes → Prop
  str : Bytes → Bytes → Prop

section
variable {α : Type} (R : Reading) (B : Build α)

/-- The value of an atom. -/
inductive AtomGives : Bytes → α → Prop where
  | null : AtomGives [110, 117, 108, 108] B.null
  | true : AtomGives [116, 114, 117, 101] (B.bool true)
  | false : AtomGives [102, 97, 108, 115, 101] (B.bool false)
  | number (tok : Bytes) (h : Number tok) (hn : R.num tok) : AtomGives tok (B.num tok)
  | string (body s : Bytes) (h : R.str body s) : AtomGives (34 :: (body ++ [34])) (B.str s)

mutual
/-- The document stands for this value. -/
def Val.Gives : Val → α → Prop
  | .atom tok, x => AtomGives R B tok x
  | .arr w items, x => Spaces w ∧ ∃ l, items.Gives l ∧ x = B.arr l
  | .obj w members, x => Spaces w ∧ ∃ l, members.Gives l ∧ x = B.obj l
@[inherit_doc Val.Gives]
def Items.Gives : Items → List α → Prop
  | .nil, l => l = []
  | .cons b v a more, l => Spaces b ∧ Spaces a ∧ ∃ x xs, v.Gives x ∧ more.Gives xs ∧ l = x :: xs
@[inherit_doc Val.Gives]
def Members.Gives : Members → List (Bytes × α) → Prop
  | .nil, l => l = []
  | .cons b k m m' v a more, l => Spaces b ∧ Spaces m ∧ Spaces m' ∧ Spaces a ∧
      ∃ key x xs, R.str k key ∧ v.Gives x ∧ more.Gives xs ∧ l = (key, x) :: xs
end

end

/-- An integer part of at most 4300 digits. -/
def ShortInt (tok : Bytes) : Prop :=
  ∃ m i fe, tok = m ++ (i ++ fe) ∧ (m = [] ∨ m = [45]) ∧ IntPart i ∧ i.length ≤ 4300 ∧ ∀ c, fe.head? = some c → ¬ Digit c

/-- An integer of at most 4300 digits. -/
def IsInt (tok : Bytes) : Prop := ∃ m i, tok = m ++ i ∧ (m = [] ∨ m = [45]) ∧ IntPart i ∧ i.length ≤ 4300

/-- Decoded strings; numbers as jiter's `NumberAny` takes them. -/
def Reading.value : Reading := ⟨ShortInt, fun body s => ∃ chars, StrBody true body chars ∧ s = encAll chars⟩

/-- Any JSON. -/
def Reading.skip : Reading := ⟨fun _ => True, fun body s => RawBody body ∧ s = body⟩

/-- JSON, but in strings any bytes from 32 on and any `\u`. -/
def Reading.rough : Reading := ⟨fun _ => True, fun body s => Skim false body ∧ s = body⟩

mutual
/-- The number of nested containers, empty ones not counted. -/
def Val.nesting : Val → Nat
  | .atom _ => 0
  | .arr _ items => items.nesting
  | .obj _ members => members.nesting
@[inherit_doc Val.nesting]
def Items.nesting : Items → Nat
  | .nil => 0
  | .cons _ v _ more => max (v.nesting + 1) more.nesting
@[inherit_doc Val.nesting]
def Members.nesting : Members → Nat
  | .nil => 0
  | .cons _ _ _ _ v _ more => max (v.nesting + 1) more.nesting
end

/-- Behind a number there is nothing that continues it. -/
def Stops (v : Val) (t : Bytes) : Prop :=
  match v with
  | .atom tok => Number tok → EndsNumber t
  | _ => True

end Verif.Scan
