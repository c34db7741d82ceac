import Verif.Ddb.RoundTrip

/-!
# Back and there again (C73)

What `convert_ddb_to_normal` writes is a stream of JSON documents that `convert_normal_to_ddb` reads. The result is the stream that it was
made of, up to space between tokens, but for three things: a set comes back as a list, a binary value as a string, and whether documents are
under the name `Item` depends on the option of the second conversion alone.
-/

namespace Verif.Ddb

open Verif.RJiter Verif.Scan

/-! ## What comes back -/

/-- The elements of a set as items of a list. -/
def elemsBack (f : Bytes → DVal) : List Elem → DItems
  | [] => .nil
  | e :: es => .cons [] (f e.body) [] (elemsBack f es)

mutual
/-- The value that comes back, without space: sets are lists, binary values are strings. -/
def DVal.back : DVal → DVal
  | .string _ _ body => .string .no false body
  | .number _ body => .number .no body
  | .bool _ v => .bool .no v
  | .null _ => .null .no
  | .strings _ _ _ elems => .list .no [] (elemsBack (.string .no false) elems)
  | .numbers _ _ elems => .list .no [] (elemsBack (.number .no) elems)
  | .list _ _ items => .list .no [] items.back
  | .map _ _ members => .map .no [] members.back
@[inherit_doc DVal.back]
def DItems.back : DItems → DItems
  | .nil => .nil
  | .cons _ v _ more => .cons [] v.back [] more.back
@[inherit_doc DVal.back]
def DMembers.back : DMembers → DMembers
  | .nil => .nil
  | .cons _ k _ _ v _ more => .cons [] k [] [] v.back [] more.back
end

/-- The document that comes back. -/
def DDoc.back (item : Bool) (d : DDoc) : DDoc := if item then .item .no [] d.members.back else .bare [] d.members.back

mutual
/-- There are no sets and no binary values. -/
def DVal.Kept : DVal → Prop
  | .string _ binary _ => binary = false
  | .strings _ _ _ _ => False
  | .numbers _ _ _ => False
  | .list _ _ items => items.Kept
  | .map _ _ members => members.Kept
  | _ => True
@[inherit_doc DVal.Kept]
def DItems.Kept : DItems → Prop
  | .nil => True
  | .cons _ v _ more => v.Kept ∧ more.Kept
@[inherit_doc DVal.Kept]
def DMembers.Kept : DMembers → Prop
  | .nil => True
  | .cons _ _ _ _ v _ more => v.Kept ∧ more.Kept
end

/-- The document is under the name `Item`. -/
def DDoc.isItem : DDoc → Bool
  | .bare _ _ => false
  | .item _ _ _ => true

mutual
/-- Without sets and binary values the same comes back, without space. -/
theorem back_json : ∀ (V : DVal), V.Kept → V.back.json = bare V.json
  | .string _ binary _, h => by
    simp only [DVal.Kept] at h
    subst h
    rfl
  | .number _ _, _ => rfl
  | .bool _ _, _ => rfl
  | .null _, _ => rfl
  | .strings _ _ _ _, h => by simp only [DVal.Kept] at h
  | .numbers _ _ _, h => by simp only [DVal.Kept] at h
  | .list _ _ is, h => by
    simp only [DVal.Kept] at h
    simp only [DVal.back, DVal.json, Sp.wrap, Sp.no, bare, bareMembers, itemsBack_json is h]
  | .map _ _ ms, h => by
    simp only [DVal.Kept] at h
    simp only [DVal.back, DVal.json, Sp.wrap, Sp.no, bare, bareMembers, membersBack_json ms h]
theorem itemsBack_json : ∀ (is : DItems), is.Kept → is.back.json = bareItems is.json
  | .nil, _ => by simp only [DItems.back, DItems.json, bareItems]
  | .cons _ v _ more, h => by
    simp only [DItems.Kept] at h
    simp only [DItems.back, DItems.json, bareItems, back_json v h.1, itemsBack_json more h.2]
theorem membersBack_json : ∀ (ms : DMembers), ms.Kept → ms.back.json = bareMembers ms.json
  | .nil, _ => by simp only [DMembers.back, DMembers.json, bareMembers]
  | .cons _ k _ _ v _ more, h => by
    simp only [DMembers.Kept] at h
    simp only [DMembers.back, DMembers.json, bareMembers, back_json v h.1, membersBack_json more h.2]
end

theorem docBack_json (d : DDoc) (h : d.members.Kept) : (d.back d.isItem).json = bare d.json := by
  cases d with
  | bare w ms => simp [DDoc.back, DDoc.isItem, DDoc.json, bare, DDoc.members, membersBack_json ms h]
  | item sp w ms => simp [DDoc.back, DDoc.isItem, DDoc.json, Sp.wrap, Sp.no, bare, bareMembers, DDoc.members, membersBack_json ms h]

/-! ## The typed form of the plain form -/

/-- The numbers that come back. -/
abbrev Small (t : Bytes) : Prop := Number t ∧ t.length ≤ 32

theorem atomType_quoted (body : Bytes) : atomType (quoted body) = ([83], quoted body) := rfl

theorem typed_number {t : Bytes} (h : Number t) (e : Nat) : typed false e (.atom t) = (DVal.number .no t).json := by
  simp only [typed, (number_kind h .no).1]
  rfl

theorem elems_strings (p : Bool) : ∀ (es : List Elem) (e : Nat) (b : Bytes),
    typedItems false e [] (elemsPlain p quoted b es) = (elemsBack (.string .no false) es).json
  | [], _, _ => rfl
  | x :: es, e, b => by
    simp only [elemsPlain, typedItems, elemsBack, DItems.json, elems_strings p es e, closeItems_empty]
    rfl

theorem elems_numbers (p : Bool) : ∀ (es : List Elem) (e : Nat) (b : Bytes), (∀ x ∈ es, Number x.body) →
    typedItems false e [] (elemsPlain p id b es) = (elemsBack (.number .no) es).json
  | [], _, _, _ => rfl
  | x :: es, e, b, h => by
    simp only [elemsPlain, typedItems, elemsBack, DItems.json, elems_numbers p es e _ fun y hy => h y (by simp [hy]), closeItems_empty]
    rw [show id x.body = x.body from rfl, typed_number (h x (by simp))]
    rfl

mutual
theorem typed_plain (p : Bool) : ∀ (V : DVal) (d e : Nat), V.Numbers Number → typed false e (V.plain p d) = V.back.json
  | .string _ _ _, _, _, _ => rfl
  | .number _ body, _, e, h => typed_number h e
  | .bool _ x, _, _, _ => by cases x <;> rfl
  | .null _, _, _, _ => rfl
  | .strings _ _ _ es, d, e, _ => by
    have := elems_strings p es (e + 1) []
    simp only [DVal.plain, DVal.back, DVal.json, typed, nl, ind, Bool.false_eq_true, if_false, List.append_nil, closeItems_empty, this]
    rfl
  | .numbers _ _ es, d, e, h => by
    have := elems_numbers p es (e + 1) [] h
    simp only [DVal.plain, DVal.back, DVal.json, typed, nl, ind, Bool.false_eq_true, if_false, List.append_nil, closeItems_empty, this]
    rfl
  | .list _ _ is, d, e, h => by
    simp only [DVal.Numbers] at h
    have := typedItems_plain p is d (e + 1) [] h
    simp only [DVal.plain, DVal.back, DVal.json, typed, nl, ind, Bool.false_eq_true, if_false, List.append_nil, closeItems_empty, this]
    rfl
  | .map _ _ ms, d, e, h => by
    simp only [DVal.Numbers] at h
    have := typedMembers_plain p ms (d + 1) (e + 2) (nl p ++ ind p d) h
    simp only [DVal.plain, DVal.back, DVal.json, typed]
    simp only [show nl false = [] from rfl, show ∀ n, ind false n = [] from fun _ => rfl, List.append_nil, closeMembers_empty, this]
    rfl
theorem typedItems_plain (p : Bool) : ∀ (is : DItems) (d e : Nat) (b : Bytes), is.Numbers Number → typedItems false e [] (is.plain p d b) = is.back.json
  | .nil, _, _, _, _ => by simp only [DItems.plain, typedItems, DItems.back, DItems.json]
  | .cons _ v _ more, d, e, b, h => by
    simp only [DItems.Numbers] at h
    simp only [DItems.plain, typedItems, DItems.back, DItems.json, typed_plain p v d e h.1, typedItems_plain p more d e _ h.2, closeItems_empty]
    rfl
theorem typedMembers_plain (p : Bool) : ∀ (ms : DMembers) (d e : Nat) (c : Bytes), ms.Numbers Number →
    typedMembers false e [] (ms.plain p d c) = ms.back.json
  | .nil, _, _, _, _ => by simp only [DMembers.plain, typedMembers, DMembers.back, DMembers.json]
  | .cons _ k _ _ v _ more, d, e, c, h => by
    simp only [DMembers.Numbers] at h
    simp only [DMembers.plain, typedMembers, DMembers.back, DMembers.json, typed_plain p v d e h.1, typedMembers_plain p more d e _ h.2, closeMembers_empty]
    rfl
end

theorem typedDoc_plain (item p : Bool) (d : DDoc) (h : d.members.Numbers Number) : typedDoc item false (d.plain p) = (d.back item).json := by
  rw [docPlain_eq]
  cases item
  · simp [typedDoc, DDoc.back, DDoc.json, nl, closeMembers_empty, typedMembers_plain p d.members 1 1 _ h]
  · simp [typedDoc, DDoc.back, DDoc.json, nl, ind, wrap, Sp.wrap, Sp.no, closeMembers_empty, typedMembers_plain p d.members 1 2 _ h]

/-! ## The conditions of the second conversion -/

mutual
theorem numbers_mono {P Q : Bytes → Prop} (hpq : ∀ t, P t → Q t) : ∀ (V : DVal), V.Numbers P → V.Numbers Q
  | .string _ _ _, _ => trivial
  | .number _ _, h => hpq _ h
  | .bool _ _, _ => trivial
  | .null _, _ => trivial
  | .strings _ _ _ _, _ => trivial
  | .numbers _ _ es, h => fun e he => hpq _ (h e he)
  | .list _ _ is, h => by
    simp only [DVal.Numbers] at h ⊢
    exact numbersItems_mono hpq is h
  | .map _ _ ms, h => by
    simp only [DVal.Numbers] at h ⊢
    exact numbersMembers_mono hpq ms h
theorem numbersItems_mono {P Q : Bytes → Prop} (hpq : ∀ t, P t → Q t) : ∀ (is : DItems), is.Numbers P → is.Numbers Q
  | .nil, _ => by simp only [DItems.Numbers]
  | .cons _ v _ more, h => by
    simp only [DItems.Numbers] at h ⊢
    exact ⟨numbers_mono hpq v h.1, numbersItems_mono hpq more h.2⟩
theorem numbersMembers_mono {P Q : Bytes → Prop} (hpq : ∀ t, P t → Q t) : ∀ (ms : DMembers), ms.Numbers P → ms.Numbers Q
  | .nil, _ => by simp only [DMembers.Numbers]
  | .cons _ _ _ _ v _ more, h => by
    simp only [DMembers.Numbers] at h ⊢
    exact ⟨numbers_mono hpq v h.1, numbersMembers_mono hpq more h.2⟩
end

mutual
theorem names_mono {P Q : Bytes → Prop} (hpq : ∀ t, P t → Q t) : ∀ (V : DVal), V.Names P → V.Names Q
  | .string _ _ _, _ => trivial
  | .number _ _, _ => trivial
  | .bool _ _, _ => trivial
  | .null _, _ => trivial
  | .strings _ _ _ _, _ => trivial
  | .numbers _ _ _, _ => trivial
  | .list _ _ is, h => by
    simp only [DVal.Names] at h ⊢
    exact namesItems_mono hpq is h
  | .map _ _ ms, h => by
    simp only [DVal.Names] at h ⊢
    exact namesMembers_mono hpq ms h
theorem namesItems_mono {P Q : Bytes → Prop} (hpq : ∀ t, P t → Q t) : ∀ (is : DItems), is.Names P → is.Names Q
  | .nil, _ => by simp only [DItems.Names]
  | .cons _ v _ more, h => by
    simp only [DItems.Names] at h ⊢
    exact ⟨names_mono hpq v h.1, namesItems_mono hpq more h.2⟩
theorem namesMembers_mono {P Q : Bytes → Prop} (hpq : ∀ t, P t → Q t) : ∀ (ms : DMembers), ms.Names P → ms.Names Q
  | .nil, _ => by simp only [DMembers.Names]
  | .cons _ _ _ _ v _ more, h => by
    simp only [DMembers.Names] at h ⊢
    exact ⟨hpq _ h.1, names_mono hpq v h.2.1, namesMembers_mono hpq more h.2.2⟩
end

theorem elems_keys (P : Bytes → Prop) (p : Bool) (text : Bytes → Bytes) : ∀ (es : List Elem) (b : Bytes), (elemsPlain p text b es).Keys P
  | [], _ => trivial
  | _ :: es, _ => ⟨trivial, elems_keys P p text es _⟩

mutual
theorem plain_keys {P : Bytes → Prop} (p : Bool) : ∀ (V : DVal) (d : Nat), V.Names P → (V.plain p d).Keys P
  | .string _ _ _, _, _ => trivial
  | .number _ _, _, _ => trivial
  | .bool _ _, _, _ => trivial
  | .null _, _, _ => trivial
  | .strings _ _ _ es, _, _ => elems_keys P p _ es _
  | .numbers _ _ es, _, _ => elems_keys P p _ es _
  | .list _ _ is, d, h => by
    simp only [DVal.Names] at h
    simp only [DVal.plain, Val.Keys]
    exact itemsPlain_keys p is d _ h
  | .map _ _ ms, d, h => by
    simp only [DVal.Names] at h
    simp only [DVal.plain, Val.Keys]
    exact membersPlain_keys p ms _ _ h
theorem itemsPlain_keys {P : Bytes → Prop} (p : Bool) : ∀ (is : DItems) (d : Nat) (b : Bytes), is.Names P → (is.plain p d b).Keys P
  | .nil, _, _, _ => by simp only [DItems.plain, Items.Keys]
  | .cons _ v _ more, d, b, h => by
    simp only [DItems.Names] at h
    simp only [DItems.plain, Items.Keys]
    exact ⟨plain_keys p v d h.1, itemsPlain_keys p more d _ h.2⟩
theorem membersPlain_keys {P : Bytes → Prop} (p : Bool) : ∀ (ms : DMembers) (d : Nat) (c : Bytes), ms.Names P → (ms.plain p d c).Keys P
  | .nil, _, _, _ => by simp only [DMembers.plain, Members.Keys]
  | .cons _ k _ _ v _ more, d, c, h => by
    simp only [DMembers.Names] at h
    simp only [DMembers.plain, Members.Keys]
    exact ⟨h.1, plain_keys p v d h.2.1, membersPlain_keys p more d _ h.2.2⟩
end

theorem short_quoted (body : Bytes) : Short (quoted body) := fun h => absurd h (not_number_string _)

theorem elems_atoms {P : Bytes → Prop} (p : Bool) (text : Bytes → Bytes) : ∀ (es : List Elem) (b : Bytes), (∀ e ∈ es, P (text e.body)) →
    AtomsItems P (elemsPlain p text b es)
  | [], _, _ => trivial
  | e :: es, _, h => ⟨h e (by simp), elems_atoms p text es _ fun x hx => h x (by simp [hx])⟩

mutual
theorem plain_atoms (p : Bool) : ∀ (V : DVal) (d : Nat), V.Numbers Small → Atoms Short (V.plain p d)
  | .string _ _ body, _, _ => short_quoted body
  | .number _ _, _, h => fun _ => h.2
  | .bool _ x, _, _ => fun _ => by cases x <;> decide
  | .null _, _, _ => fun _ => by decide
  | .strings _ _ _ es, _, _ => elems_atoms p _ es _ fun e _ => short_quoted e.body
  | .numbers _ _ es, _, h => elems_atoms p _ es _ fun e he _ => (h e he).2
  | .list _ _ is, d, h => by
    simp only [DVal.Numbers] at h
    simp only [DVal.plain, Atoms]
    exact itemsPlain_atoms p is d _ h
  | .map _ _ ms, d, h => by
    simp only [DVal.Numbers] at h
    simp only [DVal.plain, Atoms]
    exact membersPlain_atoms p ms _ _ h
theorem itemsPlain_atoms (p : Bool) : ∀ (is : DItems) (d : Nat) (b : Bytes), is.Numbers Small → AtomsItems Short (is.plain p d b)
  | .nil, _, _, _ => by simp only [DItems.plain, AtomsItems]
  | .cons _ v _ more, d, b, h => by
    simp only [DItems.Numbers] at h
    simp only [DItems.plain, AtomsItems]
    exact ⟨plain_atoms p v d h.1, itemsPlain_atoms p more d _ h.2⟩
theorem membersPlain_atoms (p : Bool) : ∀ (ms : DMembers) (d : Nat) (c : Bytes), ms.Numbers Small → AtomsMembers Short (ms.plain p d c)
  | .nil, _, _, _ => by simp only [DMembers.plain, AtomsMembers]
  | .cons _ k _ _ v _ more, d, c, h => by
    simp only [DMembers.Numbers] at h
    simp only [DMembers.plain, AtomsMembers]
    exact ⟨plain_atoms p v d h.1, membersPlain_atoms p more d _ h.2⟩
end

/-! ## The context stack of the second converter -/

/-- The two paths of a type: `path` in the plain document, `path'` in the typed one. -/
structure Half1 (path path' : List Bytes) : Prop where
  depth : 2 * path.length ≤ path'.length + 2
  used : usedNames path ≤ usedNames path'

/-- The same behind a type. -/
structure Half (path path' : List Bytes) : Prop where
  depth : 2 * path.length ≤ path'.length + 1
  used : usedNames path ≤ usedNames path'

theorem Half1.typed {path path' : List Bytes} (h : Half1 path path') (name : Bytes) : Half path (name :: path') := by
  have h1 := h.depth; have h2 := h.used
  refine ⟨?_, ?_⟩ <;> simp only [usedNames, List.length_cons] <;> omega

theorem Half.push {cap cap' : Nat} (hcap : cap ≤ cap') {path path' : List Bytes} (h : Half path path') {k : Bytes} (hk : Room.Fits ⟨cap, 67, 67⟩ path' k) :
    Room.Fits ⟨cap', 34, 34⟩ path k ∧ Half1 (k :: path) (k :: path') := by
  have h1 := h.depth; have h2 := h.used
  obtain ⟨k1, k2, k3, k4, k5⟩ := hk
  simp only [] at k1 k2
  have a1 : path.length < 34 := by omega
  have a2 : usedNames path + (1 + k.length) ≤ cap' := by omega
  refine ⟨⟨a1, a2, by omega, k4, a1⟩, ⟨?_, ?_⟩⟩ <;> simp only [usedNames, List.length_cons] <;> omega

theorem elems_fit (R : Room) (path : List Bytes) (p : Bool) (text : Bytes → Bytes) : ∀ (es : List Elem) (b : Bytes), (elemsPlain p text b es).Fit R path
  | [], _ => trivial
  | _ :: es, _ => ⟨trivial, elems_fit R path p text es _⟩

set_option linter.unusedSectionVars false

section
variable {cap cap' : Nat} (hcap : cap ≤ cap')
include hcap

mutual
theorem plain_fit (p : Bool) : ∀ (V : DVal) (d : Nat) (path path' : List Bytes), Half1 path path' → V.json.Fit ⟨cap, 67, 67⟩ path' →
    (V.plain p d).Fit ⟨cap', 34, 34⟩ path
  | .string _ _ _, _, _, _, _, _ => trivial
  | .number _ _, _, _, _, _, _ => trivial
  | .bool _ _, _, _, _, _, _ => trivial
  | .null _, _, _, _, _, _ => trivial
  | .strings _ _ _ es, _, _, _, h, hf => by
    simp only [DVal.json] at hf
    exact ⟨((h.typed _).push hcap hf.2.1.1).1, elems_fit _ _ p _ es _⟩
  | .numbers _ _ es, _, _, _, h, hf => by
    simp only [DVal.json] at hf
    exact ⟨((h.typed _).push hcap hf.2.1.1).1, elems_fit _ _ p _ es _⟩
  | .list _ _ is, d, path, path', h, hf => by
    simp only [DVal.json] at hf
    obtain ⟨h1, h2⟩ := (h.typed _).push hcap hf.2.1.1
    simp only [DVal.plain, Val.Fit]
    exact ⟨h1, itemsPlain_fit p is d _ _ _ h2 hf.2.1.2⟩
  | .map _ _ ms, d, path, path', h, hf => by
    simp only [DVal.json] at hf
    simp only [DVal.plain, Val.Fit]
    exact membersPlain_fit p ms _ _ _ _ (h.typed _) hf.2.1
theorem itemsPlain_fit (p : Bool) : ∀ (is : DItems) (d : Nat) (b : Bytes) (path path' : List Bytes), Half1 path path' → is.json.Fit ⟨cap, 67, 67⟩ path' →
    (is.plain p d b).Fit ⟨cap', 34, 34⟩ path
  | .nil, _, _, _, _, _, _ => by simp only [DItems.plain, Items.Fit]
  | .cons _ v _ more, d, b, path, path', h, hf => by
    simp only [DItems.json, Items.Fit] at hf
    simp only [DItems.plain, Items.Fit]
    exact ⟨plain_fit p v d path path' h hf.1, itemsPlain_fit p more d _ path path' h hf.2⟩
theorem membersPlain_fit (p : Bool) : ∀ (ms : DMembers) (d : Nat) (c : Bytes) (path path' : List Bytes), Half path path' → ms.json.Fit ⟨cap, 67, 67⟩ path' →
    (ms.plain p d c).Fit ⟨cap', 34, 34⟩ path
  | .nil, _, _, _, _, _, _ => by simp only [DMembers.plain, Members.Fit]
  | .cons _ k _ _ v _ more, d, c, path, path', h, hf => by
    simp only [DMembers.json, Members.Fit] at hf
    simp only [DMembers.plain, Members.Fit]
    obtain ⟨h1, h2⟩ := h.push hcap hf.1
    exact ⟨h1, plain_fit p v d _ _ h2 hf.2.1, membersPlain_fit p more d _ path path' h hf.2.2⟩
end

theorem docPlain_fit (p : Bool) (d : DDoc) (hf : d.json.Fit ⟨cap, 67, 67⟩ [nameTop]) : (d.plain p).Fit ⟨cap', 34, 34⟩ [nameTop] := by
  cases d with
  | bare w ms =>
    exact membersPlain_fit hcap p ms 1 _ [nameTop] [nameTop] ⟨by decide, by decide⟩ hf
  | item sp w ms =>
    exact membersPlain_fit hcap p ms 1 _ [nameTop] [[73, 116, 101, 109], nameTop] ⟨by decide, by decide⟩ hf.2.1

end

/-! ## The stream between the conversions -/

/-- The stream of plain documents, the first behind `b`, the others behind a newline. -/
def plainDocs (p : Bool) : Bytes → DDocs → Docs
  | _, [] => []
  | b, d :: ds => (b, d.2.plain p) :: plainDocs p [10] ds

theorem plainDocs_text (p : Bool) : ∀ (ds : DDocs), Docs.text (plainDocs p [10] ds) [10] = 10 :: DDocs.plain p ds
  | [] => rfl
  | (b, d) :: ds => by
    simp only [plainDocs, Docs.text, plainDocs_text p ds, DDocs.plain]
    rfl

theorem plainDocs_mem (p : Bool) : ∀ (ds : DDocs) (b : Bytes) (x : Bytes × Val), x ∈ plainDocs p b ds → ∃ d ∈ ds, x.2 = d.2.plain p
  | [], _, _, h => by simp [plainDocs] at h
  | d :: ds, b, x, h => by
    simp only [plainDocs, List.mem_cons] at h
    rcases h with rfl | h
    · exact ⟨d, by simp, rfl⟩
    · obtain ⟨d', hd, e⟩ := plainDocs_mem p ds [10] x h
      exact ⟨d', by simp [hd], e⟩

theorem plainDocs_length (p : Bool) : ∀ (ds : DDocs) (b : Bytes), (plainDocs p b ds).length = ds.length
  | [], _ => rfl
  | d :: ds, b => by simp only [plainDocs, List.length_cons, plainDocs_length p ds]

theorem plainDocs_objects (p : Bool) (ds : DDocs) (b : Bytes) : Objects (plainDocs p b ds) := by
  intro x hx
  obtain ⟨d, _, e⟩ := plainDocs_mem p ds b x hx
  rw [e, docPlain_eq]
  exact ⟨_, _, rfl⟩

theorem plainDocs_meets {P : Bytes → Prop} {p : Bool} {M : Mode} {L : Nat} {Rs : Rules} (A : Takes P p M L Rs) : ∀ (ds : DDocs) (tail b tail' : Bytes),
    Docs.Meets (rules M L) ds.json tail → (∀ d ∈ ds, d.2.members.Numbers P) → Spaces b → Spaces tail' → Docs.Meets Rs (plainDocs p b ds) tail'
  | [], _, _, _, _, _, _, ht => ht
  | d :: ds, tail, b, tail', hm, hn, hb, ht => by
    have h1 := plainDocs_meets A ds tail [10] tail' hm.2.2.2.2 (fun x hx => hn x (by simp [hx])) (spaces_nl true) ht
    have h2 := docPlain_meets A d.2 hm.2.1 (hn d (by simp))
    refine ⟨hb, h2.1, h2.2 _, ?_, h1⟩
    rw [docPlain_eq]
    trivial

theorem plainDocs_fit {cap cap' : Nat} (hcap : cap ≤ cap') (p : Bool) : ∀ (ds : DDocs) (b : Bytes), Docs.Fit ⟨cap, 67, 67⟩ [nameTop] ds.json →
    Docs.Fit ⟨cap', 34, 34⟩ [nameTop] (plainDocs p b ds)
  | [], _, _ => trivial
  | d :: ds, _, hf => ⟨docPlain_fit hcap p d.2 hf.1, plainDocs_fit hcap p ds [10] hf.2⟩

theorem plainDocs_typed (item p : Bool) : ∀ (ds : DDocs) (b : Bytes), (∀ d ∈ ds, d.2.members.Numbers Number) →
    (plainDocs p b ds).map (fun d => typedDoc item false d.2) = ds.map fun d => (d.2.back item).json
  | [], _, _ => rfl
  | d :: ds, _, h => by
    simp only [plainDocs, List.map_cons, typedDoc_plain item p d.2 (h d (by simp)), plainDocs_typed item p ds [10] fun x hx => h x (by simp [hx])]

/-- Property C73. What `convert_ddb_to_normal` writes for a stream of items, `convert_normal_to_ddb` turns back into the stream, where sets
are lists and binary values are strings, and all documents are under the name `Item` or none, as the option `item` says. It writes the
documents without space between tokens, each followed by a newline; indented, it writes documents that differ from them only by space. The
context buffer of the second conversion may be 136 bytes smaller. The text between is read in any mode `M2` with `Takes`: all at once
(`takes_whole`), in chunks that do not end within certain keys (`takes_chunk`, ASCII), or, if it is indented, in any chunks, into a small
buffer (`takes_stream`, ASCII).

The conditions `hn`, `ho`, `hw` are those of `C49_output_partial` (a field may not have the name `#top` either, for the second conversion);
`hnum` says that numbers are numbers, of at most 32 bytes, and `hf` allows one level less than C49. Without them the statement is false:
`C49_set_in_list`, `C49_array_field`, `C47_top_key`, `C53_not_a_number`, `C47_long_number`. -/
theorem C73_back_partial (M : Mode) (L F : Nat) (reader : Reader) (rb cb : Bytes) (pretty unbuffered asWrapper : Bool) (ds : DDocs) (tail : Bytes)
    (hi : Inv M L F (.new reader rb)) (hcb : 277 ≤ cb.length) (hr : reader.pending = Docs.text ds.json tail) (hm : Docs.Meets (rules M L) ds.json tail)
    (hf : Docs.Fit ⟨cb.length - 272, 67, 67⟩ [nameTop] ds.json) (hn : ∀ d ∈ ds, d.2.members.Names Usual) (ho : ∀ d ∈ ds, d.2.members.Orderly)
    (hw : ∀ d ∈ ds, d.2.Reads asWrapper) (hnum : ∀ d ∈ ds, d.2.members.Numbers Small) (turns : Nat) (ht : ds.length + reader.pending.length + 1 ≤ turns)
    (M2 : Mode) (L2 F2 : Nat) (A : Takes Small pretty M L (rules M2 L2)) (reader2 : Reader) (rb2 cb2 : Bytes) (pretty2 unbuffered2 item : Bool)
    (hi2 : Inv M2 L2 F2 (.new reader2 rb2)) (hcb2 : cb.length ≤ cb2.length + 136)
    (hr2 : reader2.pending = (convertDdbToNormal turns F reader ⟨⟨[], []⟩, []⟩ rb cb pretty unbuffered asWrapper).1.d.w.out)
    (turns2 : Nat) (ht2 : ds.length + reader2.pending.length + 1 ≤ turns2) :
    (convertNormalToDdb turns2 F2 reader2 ⟨⟨[], []⟩, []⟩ rb2 cb2 pretty2 unbuffered2 item).2 = .ok ∧
    ∃ ws : List Val, (convertNormalToDdb turns2 F2 reader2 ⟨⟨[], []⟩, []⟩ rb2 cb2 pretty2 unbuffered2 item).1.d.w.out = lines ws ∧
      ws.map bare = ds.map (fun d => (d.2.back item).json) ∧ (pretty2 = false → ws = ds.map fun d => (d.2.back item).json) := by
  rw [(C49_output_partial M L F reader rb cb [] pretty unbuffered asWrapper ds tail hi hcb hr hm (fitDocs_wider (R := ⟨cb.length - 272, 67, 67⟩) (R' := ⟨cb.length - 272, 68, 68⟩) ⟨Nat.le_refl _, Nat.le_succ 67, Nat.le_succ 67⟩ _ _ hf)
    (fun d hd => namesMembers_mono (fun k hk => ((usual_iff k).1 hk).2) _ (hn d hd)) ho hw turns ht).2] at hr2
  have htext : ∃ tail2, Spaces tail2 ∧ reader2.pending = Docs.text (plainDocs pretty [] ds) tail2 := by
    rw [hr2]
    cases ds with
    | nil => exact ⟨[], spaces_nil, rfl⟩
    | cons d ds =>
      refine ⟨[10], spaces_nl true, ?_⟩
      simp only [plainDocs, Docs.text, plainDocs_text, DDocs.plain]
  obtain ⟨tail2, hs2, htext⟩ := htext
  have hnumber : ∀ d ∈ ds, d.2.members.Numbers Number := fun d hd => numbersMembers_mono (fun _ h => h.1) _ (hnum d hd)
  obtain ⟨h1, h2⟩ := C47_output_partial M2 L2 F2 reader2 rb2 cb2 [] pretty2 unbuffered2 item (plainDocs pretty [] ds) tail2 hi2 (by omega) htext
    (plainDocs_meets A ds tail [] tail2 hm hnum spaces_nil hs2) (plainDocs_fit (by omega) pretty ds [] hf)
    (fun x hx => by
      obtain ⟨d, hd, e⟩ := plainDocs_mem pretty ds [] x hx
      rw [e, docPlain_eq]
      exact membersPlain_keys pretty _ _ _ (hn d hd))
    (fun x hx => by
      obtain ⟨d, hd, e⟩ := plainDocs_mem pretty ds [] x hx
      rw [e, docPlain_eq]
      exact membersPlain_atoms pretty _ _ _ (hnum d hd))
    (objects_calm (plainDocs_objects pretty ds [])) turns2 (by rw [plainDocs_length]; exact ht2)
  have h3 := plainDocs_typed item pretty ds [] hnumber
  refine ⟨h1, (plainDocs pretty [] ds).map (fun d => typedDoc item pretty2 d.2), ?_, ?_, ?_⟩
  · rw [h2, typedDocs_lines]
    rfl
  · rw [← h3, List.map_map]
    exact List.map_congr_left fun d _ => typedDoc_bare item pretty2 d.2
  · rintro rfl
    exact h3

/-- Property C73 for items without sets and binary values: the same documents come back, without space between tokens, if the option
says how the documents were written. -/
theorem C73_same_partial (M : Mode) (L F : Nat) (reader : Reader) (rb cb : Bytes) (pretty unbuffered asWrapper : Bool) (ds : DDocs) (tail : Bytes)
    (hi : Inv M L F (.new reader rb)) (hcb : 277 ≤ cb.length) (hr : reader.pending = Docs.text ds.json tail) (hm : Docs.Meets (rules M L) ds.json tail)
    (hf : Docs.Fit ⟨cb.length - 272, 67, 67⟩ [nameTop] ds.json) (hn : ∀ d ∈ ds, d.2.members.Names Usual) (ho : ∀ d ∈ ds, d.2.members.Orderly)
    (hw : ∀ d ∈ ds, d.2.Reads asWrapper) (hnum : ∀ d ∈ ds, d.2.members.Numbers Small) (turns : Nat) (ht : ds.length + reader.pending.length + 1 ≤ turns)
    (M2 : Mode) (L2 F2 : Nat) (A : Takes Small pretty M L (rules M2 L2)) (reader2 : Reader) (rb2 cb2 : Bytes) (unbuffered2 item : Bool)
    (hi2 : Inv M2 L2 F2 (.new reader2 rb2)) (hcb2 : cb.length ≤ cb2.length + 136)
    (hr2 : reader2.pending = (convertDdbToNormal turns F reader ⟨⟨[], []⟩, []⟩ rb cb pretty unbuffered asWrapper).1.d.w.out)
    (turns2 : Nat) (ht2 : ds.length + reader2.pending.length + 1 ≤ turns2)
    (hkept : ∀ d ∈ ds, d.2.members.Kept ∧ d.2.isItem = item) :
    (convertNormalToDdb turns2 F2 reader2 ⟨⟨[], []⟩, []⟩ rb2 cb2 false unbuffered2 item).2 = .ok ∧
    (convertNormalToDdb turns2 F2 reader2 ⟨⟨[], []⟩, []⟩ rb2 cb2 false unbuffered2 item).1.d.w.out = lines (ds.map fun d => bare d.2.json) := by
  obtain ⟨h1, ws, h2, _, h3⟩ := C73_back_partial M L F reader rb cb pretty unbuffered asWrapper ds tail hi hcb hr hm hf hn ho hw hnum turns ht M2 L2 F2 A
    reader2 rb2 cb2 false unbuffered2 item hi2 hcb2 hr2 turns2 ht2
  refine ⟨h1, ?_⟩
  rw [h2, h3 rfl]
  refine congrArg lines (List.map_congr_left fun d hd => ?_)
  obtain ⟨k1, k2⟩ := hkept d hd
  rw [← k2]
  exact docBack_json d.2 k1

/-! ## Examples -/

/-- What comes back of `exDdb`. -/
example : (exDdb.back true).json.text =
    "{\"Item\":{\"a\":{\"L\":[{\"N\":\"1\"},{\"M\":{\"b\":{\"L\":[{\"S\":\"x\"},{\"S\":\"y\"}]}}}]},\"c\":{\"NULL\":true}}}".toUTF8.toList := by
  decide +kernel

/-- `{"a":{"N":"1"}}` under the name `Item`, behind a space. -/
def exBack : DDocs := [([32], .item .no [] (.cons [] [97] [] [] (.number .no [49]) [] .nil))]

/-- The hypotheses of `C73_same_partial` (with those of `C73_back_partial` among them), on one document that is read all at once. -/
example : Docs.text exBack.json [] = " {\"Item\":{\"a\":{\"N\":\"1\"}}}".toUTF8.toList ∧
    Inv wholeMode 20 200 (.new (whole (Docs.text exBack.json [])) (List.replicate 60 0)) ∧
    (whole (Docs.text exBack.json [])).pending = Docs.text exBack.json [] ∧ Docs.Meets (rules wholeMode 20) exBack.json [] ∧
    Docs.Fit ⟨400 - 272, 67, 67⟩ [nameTop] exBack.json ∧ (∀ d ∈ exBack, d.2.members.Names Usual) ∧ (∀ d ∈ exBack, d.2.members.Orderly) ∧
    (∀ d ∈ exBack, d.2.Reads true) ∧ (∀ d ∈ exBack, d.2.members.Numbers Small) ∧ (∀ d ∈ exBack, d.2.members.Kept ∧ d.2.isItem = true) ∧
    Takes Small false wholeMode 20 (rules wholeMode 40) ∧
    (∃ reader2, reader2.pending = (convertDdbToNormal 140 200 (whole (Docs.text exBack.json [])) ⟨⟨[], []⟩, []⟩ (List.replicate 60 0) (List.replicate 400 0)
        false false true).1.d.w.out ∧ Inv wholeMode 40 200 (.new reader2 (List.replicate 60 0))) ∧
    exBack.map (fun d => (bare d.2.json).text) = ["{\"Item\":{\"a\":{\"N\":\"1\"}}}".toUTF8.toList] := by
  refine ⟨by decide +kernel, whole_new _ _ 20 200 (by simp [whole, exBack, DDocs.json, DDoc.json, Sp.wrap, Docs.text, Val.text, Reader.OneChunk]) (by decide +kernel)
      (by decide) (by decide +kernel) (by decide +kernel), by decide +kernel,
    ⟨spaces_one, plainVal_ok _ (by decide +kernel), head_whole _ _ _, trivial, spaces_nil⟩, ?_, ?_, ?_, ?_, ?_, ?_, takes_whole _ _ _ _ _ (by decide) (by decide),
    ⟨whole "{\"a\":1}\n".toUTF8.toList, by decide +kernel, whole_new _ _ 40 200 ?_ (by decide +kernel) (by decide) (by decide +kernel) (by decide +kernel)⟩,
    by decide +kernel⟩
  · simp only [exBack, DDocs.json, List.map_cons, List.map_nil, DDoc.json, DMembers.json, DVal.json, Sp.wrap, Docs.Fit, Val.Fit, Members.Fit]
    decide
  · intro d hd
    simp only [exBack, List.mem_cons, List.not_mem_nil, or_false] at hd
    subst hd
    exact ⟨by rw [usual_iff]; decide, trivial, trivial⟩
  · intro d hd
    simp only [exBack, List.mem_cons, List.not_mem_nil, or_false] at hd
    subst hd
    exact ⟨trivial, trivial⟩
  · intro d hd
    simp only [exBack, List.mem_cons, List.not_mem_nil, or_false] at hd
    subst hd
    rfl
  · intro d hd
    simp only [exBack, List.mem_cons, List.not_mem_nil, or_false] at hd
    subst hd
    exact ⟨⟨number_one, by decide⟩, trivial⟩
  · intro d hd
    simp only [exBack, List.mem_cons, List.not_mem_nil, or_false] at hd
    subst hd
    exact ⟨⟨trivial, trivial⟩, rfl⟩
  · unfold whole
    generalize "{\"a\":1}\n".toUTF8.toList = l
    cases l <;> simp [Reader.OneChunk]

end Verif.Ddb
