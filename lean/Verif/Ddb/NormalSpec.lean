import Verif.Ddb.Spec

/-!
# Specification vocabulary: DynamoDB JSON and what it means

A value of DynamoDB JSON is an object with a single member, whose name is the type. `DVal` lists the types, with all the space that
a text may have. `json` is the value as it is written, `plain` the JSON value it stands for, as it should come out: `p` says whether the
text is indented, `d` is the level. Nothing here refers to the converters.
-/

namespace Verif.Ddb

open Verif.Scan (Val Items Members Docs)

/-- The space in `{ before "type" mid : mid' value after }`. -/
structure Sp where
  before : Bytes
  mid : Bytes
  mid' : Bytes
  after : Bytes
deriving DecidableEq, Repr

/-- An element of a set: the space before it, the body of the string, the space behind it. -/
structure Elem where
  before : Bytes
  body : Bytes
  after : Bytes
deriving DecidableEq, Repr

mutual
/-- A value with its type. `binary` selects `B` and `BS` in place of `S` and `SS`. -/
inductive DVal where
  | string (sp : Sp) (binary : Bool) (body : Bytes)
  | number (sp : Sp) (body : Bytes)
  | bool (sp : Sp) (v : Bool)
  | null (sp : Sp)
  | strings (sp : Sp) (binary : Bool) (w : Bytes) (elems : List Elem)
  | numbers (sp : Sp) (w : Bytes) (elems : List Elem)
  | list (sp : Sp) (w : Bytes) (items : DItems)
  | map (sp : Sp) (w : Bytes) (members : DMembers)
/-- Items with the space before and behind each. -/
inductive DItems where
  | nil
  | cons (before : Bytes) (v : DVal) (after : Bytes) (more : DItems)
/-- Members `before "key" mid : mid' v after`. -/
inductive DMembers where
  | nil
  | cons (before key mid mid' : Bytes) (v : DVal) (after : Bytes) (more : DMembers)
end

/-- A document: an object whose members have types, or such an object under the name `Item`. -/
inductive DDoc where
  | bare (w : Bytes) (members : DMembers)
  | item (sp : Sp) (w : Bytes) (members : DMembers)

/-- `{ "name": v }` -/
def Sp.wrap (sp : Sp) (name : Bytes) (v : Val) : Val := .obj [] (.cons sp.before name sp.mid sp.mid' v sp.after .nil)

/-- The text of a string. -/
def quoted (body : Bytes) : Bytes := 34 :: (body ++ [34])

/-- `true` or `false`. -/
def boolText : Bool → Bytes
  | true => [116, 114, 117, 101]
  | false => [102, 97, 108, 115, 101]

/-- The elements of a set, all of them strings. -/
def elemsJson : List Elem → Items
  | [] => .nil
  | e :: es => .cons e.before (.atom (quoted e.body)) e.after (elemsJson es)

mutual
/-- The value as it is written. -/
def DVal.json : DVal → Val
  | .string sp binary body => sp.wrap (if binary then [66] else [83]) (.atom (quoted body))
  | .number sp body => sp.wrap [78] (.atom (quoted body))
  | .bool sp v => sp.wrap [66, 79, 79, 76] (.atom (boolText v))
  | .null sp => sp.wrap [78, 85, 76, 76] (.atom (boolText true))
  | .strings sp binary w elems => sp.wrap (if binary then [66, 83] else [83, 83]) (.arr w (elemsJson elems))
  | .numbers sp w elems => sp.wrap [78, 83] (.arr w (elemsJson elems))
  | .list sp w items => sp.wrap [76] (.arr w items.json)
  | .map sp w members => sp.wrap [77] (.obj w members.json)
@[inherit_doc DVal.json]
def DItems.json : DItems → Items
  | .nil => .nil
  | .cons b v a more => .cons b v.json a more.json
@[inherit_doc DVal.json]
def DMembers.json : DMembers → Members
  | .nil => .nil
  | .cons b k m m' v a more => .cons b k m m' v.json a more.json
end

/-- The document as it is written. -/
def DDoc.json : DDoc → Val
  | .bare w members => .obj w members.json
  | .item sp w members => sp.wrap [73, 116, 101, 109] (.obj w members.json)

/-- The elements of a set, each but the first on a new line. -/
def elemsPlain (p : Bool) (text : Bytes → Bytes) : Bytes → List Elem → Items
  | _, [] => .nil
  | before, e :: es => .cons before (.atom (text e.body)) [] (elemsPlain p text (nl p) es)

/-- `close` if there are no members. -/
def DMembers.close (close : Bytes) : DMembers → Bytes
  | .nil => close
  | .cons _ _ _ _ _ _ _ => []

mutual
/-- The value it stands for. A number is written as a string and stands for the text of the string; `NULL` stands for `null`; a set is an
array. The items of arrays are on lines of their own, but not indented; the members of objects are indented. -/
def DVal.plain (p : Bool) (d : Nat) : DVal → Val
  | .string _ _ body => .atom (quoted body)
  | .number _ body => .atom body
  | .bool _ v => .atom (boolText v)
  | .null _ => .atom [110, 117, 108, 108]
  | .strings _ _ _ elems => .arr [] (elemsPlain p quoted [] elems)
  | .numbers _ _ elems => .arr [] (elemsPlain p id [] elems)
  | .list _ _ items => .arr [] (items.plain p d [])
  | .map _ _ members => .obj (members.close (nl p ++ (nl p ++ ind p d))) (members.plain p (d + 1) (nl p ++ ind p d))
/-- The items, with `before` in front of the first. -/
def DItems.plain (p : Bool) (d : Nat) (before : Bytes) : DItems → Items
  | .nil => .nil
  | .cons _ v _ more => .cons before (v.plain p d) [] (more.plain p d (nl p))
/-- The members, with `close` behind the last. -/
def DMembers.plain (p : Bool) (d : Nat) (close : Bytes) : DMembers → Members
  | .nil => .nil
  | .cons _ k _ _ v _ more => .cons (nl p ++ ind p d) k [] [] (v.plain p d) (more.close close) (more.plain p d close)
end

/-- The document it stands for. -/
def DDoc.plain (p : Bool) : DDoc → Val
  | .bare _ members => .obj (members.close (nl p ++ nl p)) (members.plain p 1 (nl p))
  | .item _ _ members => .obj (members.close (nl p ++ nl p)) (members.plain p 1 (nl p))

/-- A stream of documents, each behind some space. -/
abbrev DDocs := List (Bytes × DDoc)

/-- The stream as it is written. -/
def DDocs.json (ds : DDocs) : Docs := ds.map fun d => (d.1, d.2.json)

/-- Each document on its lines. -/
def DDocs.plain (p : Bool) : DDocs → Bytes
  | [] => []
  | (_, d) :: ds => (d.plain p).text ++ 10 :: DDocs.plain p ds

mutual
/-- The names of fields all have the property `P`. -/
def DVal.Names (P : Bytes → Prop) : DVal → Prop
  | .list _ _ items => items.Names P
  | .map _ _ members => members.Names P
  | _ => True
@[inherit_doc DVal.Names]
def DItems.Names (P : Bytes → Prop) : DItems → Prop
  | .nil => True
  | .cons _ v _ more => v.Names P ∧ more.Names P
@[inherit_doc DVal.Names]
def DMembers.Names (P : Bytes → Prop) : DMembers → Prop
  | .nil => True
  | .cons _ k _ _ v _ more => P k ∧ v.Names P ∧ more.Names P
end

/-- The names of the fields of a document. -/
def DMembers.keys : DMembers → List Bytes
  | .nil => []
  | .cons _ k _ _ _ _ more => k :: more.keys

/-- A set. -/
def DVal.isSet : DVal → Bool
  | .strings _ _ _ _ => true
  | .numbers _ _ _ => true
  | _ => false

mutual
/-- No set is an item of a list, unless it is the first. -/
def DVal.Orderly : DVal → Prop
  | .list _ _ items => items.Orderly false
  | .map _ _ members => members.Orderly
  | _ => True
/-- `later` says whether there are items before these. -/
def DItems.Orderly (later : Bool) : DItems → Prop
  | .nil => True
  | .cons _ v _ more => (later = true → v.isSet = false) ∧ v.Orderly ∧ more.Orderly true
@[inherit_doc DVal.Orderly]
def DMembers.Orderly : DMembers → Prop
  | .nil => True
  | .cons _ _ _ _ v _ more => v.Orderly ∧ more.Orderly
end

/-- The members of a document. -/
def DDoc.members : DDoc → DMembers
  | .bare _ members => members
  | .item _ _ members => members

/-- Whether the name `Item` is used as it is read: without the wrapper mode it is a field, with the wrapper mode no field of a document
has this name. -/
def DDoc.Reads (asWrapper : Bool) : DDoc → Prop
  | .bare _ members => asWrapper = true → [73, 116, 101, 109] ∉ members.keys
  | .item _ _ _ => asWrapper = true

/-- No space. -/
def Sp.no : Sp := ⟨[], [], [], []⟩

/-- `{"a":{"L":[{"N":"1"},{"M":{"b":{"SS":["x","y"]}}}]},"c":{"NULL":true}}` -/
def exDdb : DDoc :=
  .bare [] (.cons [] [97] [] []
    (.list .no [] (.cons [] (.number .no [49]) []
      (.cons [] (.map .no [] (.cons [] [98] [] [] (.strings .no false [] [⟨[], [120], []⟩, ⟨[], [121], []⟩]) [] .nil)) [] .nil))) []
    (.cons [] [99] [] [] (.null .no) [] .nil))

example : exDdb.json.text = "{\"a\":{\"L\":[{\"N\":\"1\"},{\"M\":{\"b\":{\"SS\":[\"x\",\"y\"]}}}]},\"c\":{\"NULL\":true}}".toUTF8.toList := by
  decide +kernel

example : (exDdb.plain false).text = "{\"a\":[1,{\"b\":[\"x\",\"y\"]}],\"c\":null}".toUTF8.toList := by
  decide +kernel

example : (exDdb.plain true).text = "{\n  \"a\":[1,\n{\n    \"b\":[\"x\",\n\"y\"]\n  }],\n  \"c\":null\n}".toUTF8.toList := by
  decide +kernel

end Verif.Ddb
