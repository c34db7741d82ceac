import Verif.Scan.LooseDoc

/-!
# Specification vocabulary: documents of which only the beginning was read

A `Stub` is a document up to a place where a scan stopped: its text up to there (`lead`), and what the callbacks have done up to
there (`Gives`).
-/

namespace Verif.Scan

open Verif.RJiter (Space Spaces Blank Skim Doubled)

mutual
/-- The beginning of a value. `nothing`: it was not reported; `begun p`: it was reported as `p`, and nothing inside of it;
otherwise the scan stopped inside of it, or at its end callback. -/
inductive Stub where
  | nothing
  | begun (p : Pseudo)
  | arr (w : Bytes) (is : StubItems)
  | obj (w : Bytes) (ms : StubMembers)
/-- The items of an array up to the stop. `closed`: the bracket was read, and the end callback failed. -/
inductive StubItems where
  | closed
  | here (before : Bytes) (x : Stub)
  | later (before : Bytes) (v : Val) (after : Bytes) (more : StubMore)
/-- What follows an item. -/
inductive StubMore where
  | nothing
  | closed
  | comma (is : StubItems)
/-- The members of an object up to the stop. `key`: the callback for the key failed; `ended`: the end callback for the key
failed. -/
inductive StubMembers where
  | closed
  | key (before key mid : Bytes)
  | here (before key mid mid' : Bytes) (x : Stub)
  | ended (before key mid mid' : Bytes) (v : Val)
  | later (before key mid mid' : Bytes) (v : Val) (after : Bytes) (more : StubRest)
/-- What follows a member. -/
inductive StubRest where
  | nothing
  | closed
  | comma (ms : StubMembers)
end

mutual
/-- The text in front of the stop. -/
def Stub.lead : Stub → Bytes
  | .nothing => []
  | .begun _ => []
  | .arr w is => 91 :: (w ++ is.lead)
  | .obj w ms => 123 :: (w ++ ms.lead)
@[inherit_doc Stub.lead]
def StubItems.lead : StubItems → Bytes
  | .closed => [93]
  | .here b x => b ++ x.lead
  | .later b v a more => b ++ (v.text ++ (a ++ more.lead))
@[inherit_doc Stub.lead]
def StubMore.lead : StubMore → Bytes
  | .nothing => []
  | .closed => [93]
  | .comma is => 44 :: is.lead
@[inherit_doc Stub.lead]
def StubMembers.lead : StubMembers → Bytes
  | .closed => [125]
  | .key b k m => b ++ 34 :: (k ++ 34 :: (m ++ [58]))
  | .here b k m m' x => b ++ 34 :: (k ++ 34 :: (m ++ 58 :: (m' ++ x.lead)))
  | .ended b k m m' v => b ++ 34 :: (k ++ 34 :: (m ++ 58 :: (m' ++ v.text)))
  | .later b k m m' v a more => b ++ 34 :: (k ++ 34 :: (m ++ 58 :: (m' ++ (v.text ++ (a ++ more.lead)))))
@[inherit_doc Stub.lead]
def StubRest.lead : StubRest → Bytes
  | .nothing => []
  | .closed => [125]
  | .comma ms => 44 :: ms.lead
end

/-- No space in front of the first member. -/
def StubMembers.Opens : StubMembers → Prop
  | .closed => True
  | .key b _ _ => b = []
  | .here b _ _ _ _ => b = []
  | .ended b _ _ _ _ => b = []
  | .later b _ _ _ _ _ _ => b = []

/-- There is only space behind the brace. -/
def Stub.Tight : Stub → Prop
  | .obj w _ => Blank w
  | _ => True

mutual
/-- As `Val.Loose`, for the text in front of the stop. -/
def Stub.Loose (strict : Prop) : Stub → Prop
  | .nothing => True
  | .begun _ => True
  | .arr w is => Blank w ∧ is.Loose strict
  | .obj w ms => (Blank w ∨ Doubled w ∧ ms.Opens) ∧ ms.Loose strict
@[inherit_doc Stub.Loose]
def StubItems.Loose (strict : Prop) : StubItems → Prop
  | .closed => True
  | .here b x => Blank b ∧ x.Tight ∧ x.Loose strict
  | .later b v a more => Blank b ∧ v.Tight ∧ v.Loose strict ∧ Blank a ∧ more.Loose strict
@[inherit_doc Stub.Loose]
def StubMore.Loose (strict : Prop) : StubMore → Prop
  | .nothing => True
  | .closed => True
  | .comma is => is ≠ .closed ∧ is.Loose strict
@[inherit_doc Stub.Loose]
def StubMembers.Loose (strict : Prop) : StubMembers → Prop
  | .closed => True
  | .key b k m => Blank b ∧ Skim false k ∧ Spaces m
  | .here b k m m' x => Blank b ∧ Skim false k ∧ Spaces m ∧ Blank m' ∧ x.Loose strict
  | .ended b k m m' v => Blank b ∧ Skim false k ∧ Spaces m ∧ Blank m' ∧ v.Loose strict
  | .later b k m m' v a more => Blank b ∧ Skim false k ∧ Spaces m ∧ Blank m' ∧ v.Loose strict ∧ Blank a ∧ more.Loose strict
@[inherit_doc Stub.Loose]
def StubRest.Loose (strict : Prop) : StubRest → Prop
  | .nothing => True
  | .closed => True
  | .comma ms => ms ≠ .closed ∧ ms.Loose strict
end

variable {β : Type}

/-- What a begin callback that fails can do: the event, the path, the input in front of which it is called, the client's state
before and after. -/
abbrev Failing (β : Type) : Type := Pseudo → List Bytes → Bytes → β → β → Prop

/-- The input at which a value is reported as `p`. -/
def Begins : Pseudo → Bytes → Prop
  | .array, t => ∃ r, t = 91 :: r
  | .object, t => ∃ r, t = 123 :: r
  | .atom, t => ∃ c r, t = c :: r ∧ c ≠ 91 ∧ c ≠ 123 ∧ ¬ Space c
  | .none, _ => False

mutual
/-- If a value was reported, and nothing inside of it, then the input behind the stop starts accordingly. -/
def Stub.Faces : Stub → Bytes → Prop
  | .nothing, _ => True
  | .begun p, t => Begins p t
  | .arr _ is, t => is.Faces t
  | .obj _ ms, t => ms.Faces t
@[inherit_doc Stub.Faces]
def StubItems.Faces : StubItems → Bytes → Prop
  | .closed, _ => True
  | .here _ x, t => (x = .begun .atom → t.head? ≠ some 93) ∧ x.Faces t
  | .later _ _ _ more, t => more.Faces t
@[inherit_doc Stub.Faces]
def StubMore.Faces : StubMore → Bytes → Prop
  | .comma is, t => is.Faces t
  | _, _ => True
@[inherit_doc Stub.Faces]
def StubMembers.Faces : StubMembers → Bytes → Prop
  | .here _ _ _ _ x, t => x.Faces t
  | .later _ _ _ _ _ _ more, t => more.Faces t
  | _, _ => True
@[inherit_doc Stub.Faces]
def StubRest.Faces : StubRest → Bytes → Prop
  | .comma ms, t => ms.Faces t
  | _, _ => True
end

mutual
/-- No number in front of the stop is continued by what follows, except one of `L` bytes. `t` is the input behind the stop. -/
def Stub.Parted (L : Nat) : Stub → Bytes → Prop
  | .nothing, _ => True
  | .begun _, _ => True
  | .arr _ is, t => is.Parted L t
  | .obj _ ms, t => ms.Parted L t
@[inherit_doc Stub.Parted]
def StubItems.Parted (L : Nat) : StubItems → Bytes → Prop
  | .closed, _ => True
  | .here _ x, t => x.Parted L t
  | .later _ v a more, t => v.Parted L (a ++ (more.lead ++ t)) ∧ more.Parted L t
@[inherit_doc Stub.Parted]
def StubMore.Parted (L : Nat) : StubMore → Bytes → Prop
  | .comma is, t => is.Parted L t
  | _, _ => True
@[inherit_doc Stub.Parted]
def StubMembers.Parted (L : Nat) : StubMembers → Bytes → Prop
  | .here _ _ _ _ x, t => x.Parted L t
  | .ended _ _ _ _ v, t => v.Parted L t
  | .later _ _ _ _ v a more, t => v.Parted L (a ++ (more.lead ++ t)) ∧ more.Parted L t
  | _, _ => True
@[inherit_doc Stub.Parted]
def StubRest.Parted (L : Nat) : StubRest → Bytes → Prop
  | .comma ms, t => ms.Parted L t
  | _, _ => True
end

section
variable (H : Handler β) (E : Failing β) (R : Room)

/-- The begin callback lets the scan go on, whatever the value is. -/
def Passes (p : Pseudo) (path : List Bytes) (b b' : β) : Prop := ∀ v, H.start p path v b = (b', .none)

/-- The end callback fails. -/
def EndFails (p : Pseudo) (path : List Bytes) (b b' : β) : Prop := ∃ m, H.finish p path b = (b', some m)

mutual
/-- The callbacks, called for what is in front of the stop and in this order, turn the client's state `b` into `b'`. `t` is the
input behind the stop. -/
def Stub.Gives (path : List Bytes) : Stub → Bytes → β → β → Prop
  | .nothing, _, b, b' => b' = b
  | .begun p, t, b, b' => Begins p t ∧ (Passes H p path b b' ∨ E p path t b b')
  | .arr _ is, t, b, b' => ∃ b1, Passes H .array path b b1 ∧ R.Fits path nameArray ∧ is.Gives (nameArray :: path) path t b1 b'
  | .obj _ ms, t, b, b' => ∃ b1, Passes H .object path b b1 ∧ ms.Gives path t b1 b'
/-- `path` is the one of the items, `outer` the one of the array. A bracket that closes the array is not reported as an item. -/
def StubItems.Gives (path outer : List Bytes) : StubItems → Bytes → β → β → Prop
  | .closed, _, b, b' => EndFails H .array outer b b'
  | .here _ x, t, b, b' => (x = .begun .atom → t.head? ≠ some 93) ∧ x.Gives path t b b'
  | .later _ v _ more, t, b, b' => ∃ b1, v.scan H R path b = .done b1 ∧ more.Gives path outer t b1 b'
@[inherit_doc StubItems.Gives]
def StubMore.Gives (path outer : List Bytes) : StubMore → Bytes → β → β → Prop
  | .nothing, _, b, b' => b' = b
  | .closed, _, b, b' => EndFails H .array outer b b'
  | .comma is, t, b, b' => is.Gives path outer t b b'
@[inherit_doc Stub.Gives]
def StubMembers.Gives (path : List Bytes) : StubMembers → Bytes → β → β → Prop
  | .closed, _, b, b' => EndFails H .object path b b'
  | .key _ k _, t, b, b' => R.Fits path k ∧ E .none (k :: path) t b b'
  | .here _ k _ _ x, t, b, b' => R.Fits path k ∧ ∃ b1, Passes H .none (k :: path) b b1 ∧ x.Gives (k :: path) t b1 b'
  | .ended _ k _ _ v, _, b, b' => R.Fits path k ∧ ∃ b1, H.around .none (k :: path) v (v.scan H R (k :: path)) b = .done b1 ∧
      EndFails H .none (k :: path) b1 b'
  | .later _ k _ _ v _ more, t, b, b' => R.Fits path k ∧
      ∃ b1 b2, H.around .none (k :: path) v (v.scan H R (k :: path)) b = .done b1 ∧ H.end .none (k :: path) b1 = .done b2 ∧
        more.Gives path t b2 b'
@[inherit_doc Stub.Gives]
def StubRest.Gives (path : List Bytes) : StubRest → Bytes → β → β → Prop
  | .nothing, _, b, b' => b' = b
  | .closed, _, b, b' => EndFails H .object path b b'
  | .comma ms, t, b, b' => ms.Gives path t b b'
end
end

end Verif.Scan
