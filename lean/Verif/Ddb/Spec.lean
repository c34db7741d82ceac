import Verif.Scan.IdtProps

/-!
# Specification vocabulary for the DynamoDB converters

DynamoDB JSON writes a value with its type: `{"S":"x"}`, `{"N":"1"}`, `{"BOOL":true}`, `{"NULL":true}`, `{"L":[..]}`,
`{"M":{..}}`. Nothing here refers to the converters. `p` says whether the text is indented, `d` is the level.
-/

namespace Verif.Ddb

open Verif.Scan (Val Items Members Docs)
open Verif.RJiter (Number)

/-- A line break. -/
def nl (p : Bool) : Bytes := if p then [10] else []

/-- Indentation, two spaces for each level. -/
def ind (p : Bool) (d : Nat) : Bytes := if p then (List.replicate d [32, 32]).flatten else []

/-- An object with a single member, at level `d`. -/
def wrap (p : Bool) (d : Nat) (name : Bytes) (v : Val) : Val :=
  .obj [] (.cons (nl p ++ ind p (d + 1)) name [] [] v (nl p ++ ind p d) .nil)

/-- The type of a value that is not an array or object (`S`, `BOOL`, `NULL` or `N`), and the text behind it. -/
def atomType : Bytes → Bytes × Bytes
  | 34 :: r => ([83], 34 :: r)
  | 116 :: r => ([66, 79, 79, 76], 116 :: r)
  | 102 :: r => ([66, 79, 79, 76], 102 :: r)
  | 110 :: _ => ([78, 85, 76, 76], [116, 114, 117, 101])
  | tok => ([78], 34 :: (tok ++ [34]))

/-- `close` if there are no items. -/
def closeItems (close : Bytes) : Items → Bytes
  | .nil => close
  | .cons _ _ _ _ => []

@[inherit_doc closeItems]
def closeMembers (close : Bytes) : Members → Bytes
  | .nil => close
  | .cons _ _ _ _ _ _ _ => []

mutual
/-- A value with its types, at level `d`. An array is `{"L":[`, a line for each item, `]}`, where the items are not indented; an
object is `{"M":{`, lines for each member, `}}`. -/
def typed (p : Bool) (d : Nat) : Val → Val
  | .atom tok => wrap p d (atomType tok).1 (.atom (atomType tok).2)
  | .arr _ items => wrap p d [76] (.arr (closeItems (nl p ++ (nl p ++ ind p (d + 1))) items)
      (typedItems p (d + 1) (nl p ++ ind p (d + 1)) items))
  | .obj _ members => wrap p d [77] (.obj (closeMembers (nl p ++ (nl p ++ ind p (d + 1))) members)
      (typedMembers p (d + 2) (nl p ++ ind p (d + 1)) members))
/-- The items, with `close` behind the last. -/
def typedItems (p : Bool) (d : Nat) (close : Bytes) : Items → Items
  | .nil => .nil
  | .cons _ v _ more => .cons (nl p) (typed p d v) (closeItems close more) (typedItems p d close more)
/-- The members, with `close` behind the last. -/
def typedMembers (p : Bool) (d : Nat) (close : Bytes) : Members → Members
  | .nil => .nil
  | .cons _ k _ _ v _ more => .cons (nl p ++ ind p d) k [] [] (typed p d v) (closeMembers close more) (typedMembers p d close more)
end

/-- A document: a value with its type, but an object has no type. With `item`, an object is put under the name `Item`. -/
def typedDoc (item p : Bool) : Val → Val
  | .atom tok => .obj [] (.cons (ind p 1) (atomType tok).1 [] [] (.atom (atomType tok).2) (nl p) .nil)
  | .arr w items => typed p 0 (.arr w items)
  | .obj _ members =>
    if item then
      wrap p 0 [73, 116, 101, 109] (.obj (closeMembers (nl p ++ (nl p ++ ind p 1)) members) (typedMembers p 2 (nl p ++ ind p 1) members))
    else .obj (closeMembers (nl p ++ nl p) members) (typedMembers p 1 (nl p) members)

/-- Each document on its lines. -/
def typedDocs (item p : Bool) : Docs → Bytes
  | [] => []
  | (_, v) :: ds => (typedDoc item p v).text ++ 10 :: typedDocs item p ds

mutual
/-- The strings, numbers and literals of a document all have the property `P`. -/
def Atoms (P : Bytes → Prop) : Val → Prop
  | .atom tok => P tok
  | .arr _ items => AtomsItems P items
  | .obj _ members => AtomsMembers P members
@[inherit_doc Atoms]
def AtomsItems (P : Bytes → Prop) : Items → Prop
  | .nil => True
  | .cons _ v _ more => Atoms P v ∧ AtomsItems P more
@[inherit_doc Atoms]
def AtomsMembers (P : Bytes → Prop) : Members → Prop
  | .nil => True
  | .cons _ _ _ _ v _ more => Atoms P v ∧ AtomsMembers P more
end

/-- A number has at most 32 bytes. -/
def Short (tok : Bytes) : Prop := Number tok → tok.length ≤ 32

/-- An array, or an object with members. -/
def compound : Val → Bool
  | .atom _ => false
  | .arr _ _ => true
  | .obj _ .nil => false
  | .obj _ (.cons _ _ _ _ _ _ _) => true

/-- No literal (string, number, `true`, `false`, `null`) comes directly after an array or an object with members. -/
def Calm (ds : Docs) : Prop :=
  ∀ l b v b' tok r, ds = l ++ (b, v) :: (b', .atom tok) :: r → compound v = false

/-- `{"a": [1], "b": null}` and its typed form, on one line and indented. -/
def exSpec : Val :=
  .obj [] (.cons [] [97] [] [] (.arr [] (.cons [] (.atom [49]) [] .nil)) []
    (.cons [] [98] [] [] (.atom [110, 117, 108, 108]) [] .nil))

example : (typedDoc false false exSpec).text = "{\"a\":{\"L\":[{\"N\":\"1\"}]},\"b\":{\"NULL\":true}}".toUTF8.toList := by
  decide +kernel

example : (typedDoc true false exSpec).text = "{\"Item\":{\"a\":{\"L\":[{\"N\":\"1\"}]},\"b\":{\"NULL\":true}}}".toUTF8.toList := by
  decide +kernel

example : (typedDoc false true exSpec).text =
    "{\n  \"a\":{\n    \"L\":[\n{\n      \"N\":\"1\"\n    }\n    ]\n  },\n  \"b\":{\n    \"NULL\":true\n  }\n}".toUTF8.toList := by
  decide +kernel

end Verif.Ddb
