import Verif.RJiter.StrSpec
import Verif.RJiter.NumSpec
import Verif.RJiter.Props
import Verif.Scan.Matcher

/-!
# Specification vocabulary for `scan_json`: documents and what a scan of them should do

Nothing here refers to buffers, to the pool or to the main loop of `scan`.
-/

namespace Verif.Scan

open Verif.RJiter (Spaces RawBody Number EndsNumber)

/-! ## Documents with their concrete text -/

mutual
/-- A JSON value as it is written: `atom` is the text of a string (with quotes), number, `null`, `true` or `false`;
`arr w items` is `[`, the space `w`, the items, `]`; `obj w members` likewise. -/
inductive Val where
  | atom (tok : Bytes)
  | arr (w : Bytes) (items : Items)
  | obj (w : Bytes) (members : Members)
/-- Items with the space before and behind each. -/
inductive Items where
  | nil
  | cons (before : Bytes) (v : Val) (after : Bytes) (more : Items)
/-- Members `before "key" mid : mid' v after`. -/
inductive Members where
  | nil
  | cons (before key mid mid' : Bytes) (v : Val) (after : Bytes) (more : Members)
end

mutual
/-- The text of a value. -/
def Val.text : Val → Bytes
  | .atom tok => tok
  | .arr w items => 91 :: (w ++ (items.text ++ [93]))
  | .obj w members => 123 :: (w ++ (members.text ++ [125]))
/-- The first item has no comma in front of it. -/
def Items.text : Items → Bytes
  | .nil => []
  | .cons b v a more => b ++ (v.text ++ (a ++ more.textMore))
/-- The other items. -/
def Items.textMore : Items → Bytes
  | .nil => []
  | .cons b v a more => 44 :: (b ++ (v.text ++ (a ++ more.textMore)))
@[inherit_doc Items.text]
def Members.text : Members → Bytes
  | .nil => []
  | .cons b k m m' v a more => b ++ 34 :: (k ++ 34 :: (m ++ 58 :: (m' ++ (v.text ++ (a ++ more.textMore)))))
@[inherit_doc Items.textMore]
def Members.textMore : Members → Bytes
  | .nil => []
  | .cons b k m m' v a more => 44 :: (b ++ 34 :: (k ++ 34 :: (m ++ 58 :: (m' ++ (v.text ++ (a ++ more.textMore))))))
end

/-- Conditions on the tokens of a document: on an atom; on a key and the space between it and its colon; and on an
object that is a top-level value or the value of a member: the space before it, the space and the key behind its
brace, the space behind that key. -/
structure Rules where
  atom : Bytes → Prop
  key : Bytes → Bytes → Prop
  head : Bytes → Bytes → Bytes → Bytes → Prop

/-- The condition on the start of an object that is written behind the space `ws`. -/
def Val.HeadMeets (R : Rules) (ws : Bytes) : Val → Prop
  | .obj w (.cons b k m _ _ _ _) => R.head ws (w ++ b) k m
  | _ => True

mutual
/-- All tokens meet the rules, and there is only space between tokens. -/
def Val.Meets (R : Rules) : Val → Prop
  | .atom tok => R.atom tok
  | .arr w items => Spaces w ∧ items.Meets R
  | .obj w members => Spaces w ∧ members.Meets R
@[inherit_doc Val.Meets]
def Items.Meets (R : Rules) : Items → Prop
  | .nil => True
  | .cons b v a more => Spaces b ∧ v.Meets R ∧ Spaces a ∧ more.Meets R
@[inherit_doc Val.Meets]
def Members.Meets (R : Rules) : Members → Prop
  | .nil => True
  | .cons b k m m' v a more => Spaces b ∧ R.key k m ∧ Spaces m ∧ Spaces m' ∧ v.Meets R ∧ v.HeadMeets R m' ∧ Spaces a ∧
      more.Meets R
end

/-- The text of an atom. -/
inductive IsAtom (num str : Bytes → Prop) : Bytes → Prop where
  | null : IsAtom num str [110, 117, 108, 108]
  | true : IsAtom num str [116, 114, 117, 101]
  | false : IsAtom num str [102, 97, 108, 115, 101]
  | number (tok : Bytes) (h : Number tok) (hn : num tok) : IsAtom num str tok
  | string (body : Bytes) (h : RawBody body) (hs : str body) : IsAtom num str (34 :: (body ++ [34]))

/-- The rules of JSON, with additional conditions on numbers, string bodies, keys and object starts. -/
def Rules.json (num str : Bytes → Prop) (key : Bytes → Bytes → Prop) (head : Bytes → Bytes → Bytes → Bytes → Prop) : Rules :=
  ⟨IsAtom num str, fun k m => RawBody k ∧ key k m, head⟩

/-- What may follow a value: behind a number there must be a byte, and one that does not continue it. -/
def Ends (v : Val) (t : Bytes) : Prop :=
  match v with
  | .atom tok => Number tok → EndsNumber t ∧ t ≠ []
  | _ => True

/-! ## What a client's callbacks are meant to do -/

/-- The effect of the begin callbacks and of the end callbacks on the client's state, given the event, the path of
the element (innermost first) and, for the begin callbacks, the value they are called for. -/
structure Handler (β : Type) where
  start : Pseudo → List Bytes → Val → β → β × StreamOp
  finish : Pseudo → List Bytes → β → β × Option String

/-- Why a scan of a well-formed document stops. -/
inductive Fault where
  | action (message : String)
  | deep (level : Nat)
  | keyTooLong
deriving DecidableEq, Repr

/-- The result of a scan: the client's state, and why it stopped if it did. -/
inductive Out (β : Type) where
  | done (b : β)
  | stop (b : β) (f : Fault)
deriving DecidableEq, Repr

/-- Go on unless stopped. -/
def Out.bind {β : Type} : Out β → (β → Out β) → Out β
  | .done b, k => k b
  | .stop b f, _ => .stop b f

/-- The size of the context stack: bytes for names, number of entries (as claimed by the creator of the pool, and as
present in memory). -/
structure Room where
  cap : Nat
  max : Nat
  slots : Nat
deriving DecidableEq, Repr

/-- The bytes taken by a path: one byte more than the name for each entry. -/
def usedNames : List Bytes → Nat
  | [] => 0
  | n :: ns => 1 + n.length + usedNames ns

/-- There is room for one more name. -/
def Room.Fits (R : Room) (path : List Bytes) (name : Bytes) : Prop :=
  path.length < R.max ∧ usedNames path + (1 + name.length) ≤ R.cap ∧ usedNames path ≤ 65535 ∧ 1 + name.length ≤ 65535 ∧
    path.length < R.slots

instance (R : Room) (path : List Bytes) (name : Bytes) : Decidable (R.Fits path name) :=
  inferInstanceAs (Decidable (_ ∧ _))

section
variable {β : Type}

/-- An end callback. -/
def Handler.end (H : Handler β) (p : Pseudo) (path : List Bytes) (b : β) : Out β :=
  match H.finish p path b with
  | (b, none) => .done b
  | (b, some m) => .stop b (.action m)

/-- The start callback; if it does not consume the value, `inner`. -/
def Handler.around (H : Handler β) (p : Pseudo) (path : List Bytes) (v : Val) (inner : β → Out β) (b : β) : Out β :=
  match H.start p path v b with
  | (b, .none) => inner b
  | (b, .valueIsConsumed) => .done b
  | (b, .error m) => .stop b (.action m)

mutual
/-- What scanning a value should do. -/
def Val.scan (H : Handler β) (R : Room) (path : List Bytes) : Val → β → Out β
  | .atom tok => H.around .atom path (.atom tok) .done
  | .arr w items => H.around .array path (.arr w items) fun b =>
      if R.Fits path nameArray then (items.scan H R (nameArray :: path) b).bind (H.end .array path)
      else .stop b (.deep path.length)
  | .obj w members => H.around .object path (.obj w members) fun b =>
      (members.scan H R path b).bind (H.end .object path)
/-- The items of an array, one after the other. -/
def Items.scan (H : Handler β) (R : Room) (path : List Bytes) : Items → β → Out β
  | .nil => .done
  | .cons _ v _ more => fun b => (v.scan H R path b).bind (more.scan H R path)
/-- The members of an object: key, value, end of the key. -/
def Members.scan (H : Handler β) (R : Room) (path : List Bytes) : Members → β → Out β
  | .nil => .done
  | .cons _ k _ _ v _ more => fun b =>
      if R.Fits path k then
        ((H.around .none (k :: path) v (v.scan H R (k :: path)) b).bind (H.end .none (k :: path))).bind
          (more.scan H R path)
      else if R.max ≤ path.length then .stop b (.deep R.max)
      else .stop b .keyTooLong
end

/-- A stream of documents, each behind some space. -/
abbrev Docs := List (Bytes × Val)

/-- The text of a stream of documents, with `tail` behind it. -/
def Docs.text : Docs → Bytes → Bytes
  | [], tail => tail
  | (b, v) :: ds, tail => b ++ (v.text ++ Docs.text ds tail)

/-- Each document meets the rules, and no number runs into what follows it. -/
def Docs.Meets (Rs : Rules) : Docs → Bytes → Prop
  | [], tail => Spaces tail
  | (b, v) :: ds, tail => Spaces b ∧ v.Meets Rs ∧ v.HeadMeets Rs b ∧ Ends v (Docs.text ds tail) ∧ Docs.Meets Rs ds tail

/-- What scanning a stream of documents should do. -/
def Docs.scan (H : Handler β) (R : Room) (path : List Bytes) : Docs → β → Out β
  | [], b => .done b
  | (_, v) :: ds, b => (v.scan H R path b).bind (Docs.scan H R path ds)

end

end Verif.Scan
